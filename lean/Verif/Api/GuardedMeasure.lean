import Verif.Api.GuardedCircuit
import Verif.Api.MeasureChip
import Verif.Ecc.CompleteMeasure

/-!
# The measuring pass returns where the guarded native verifier does

As in `Api/GuardedCircuit.lean`, with the multi-exponentiation of shape mode, which does not compute the sum.
-/

set_option exponentiation.threshold 600

namespace Verif.Api
open Verif.Circuit Verif.Ecc

open Classical in
/-- `guarded` with the result of multi-exponentiation in shape mode. -/
noncomputable def guardedShape : Chip N Pt := { guarded with
  multiExp := fun (ps : List Pt) (ss : List N) => if ps ≠ [] ∧ ps.length = ss.length ∧ ShapeSafe ps (ss.map ZMod.val)
    then some (17 ^ 62 • shapeStart ps (ss.map ZMod.val)) else none }

/-- As `guardedEncode`. -/
noncomputable def guardedShapeEncode : Encode guardedShape where
  point := fun (P : Pt) => some [((coordX P).val : N), ((coordY P).val : N)]
  scalar := fun (s : N) => some [s]
  decode := fun (s : N) => some s

namespace Guarded

/-- If the native computation returns, so does the measuring pass. -/
def RunM {α α' : Type} (w : Stage) (x : Option α) (x' : M N α') (Q : Stage → α → α' → Prop) : Prop :=
  ∀ a, x = some a → ∃ a' w', x' w.1 = some (a', w'.1) ∧ Ext w.1 w'.1 ∧ Q w' a a'

namespace RunM
variable {α α' β β' : Type} {w : Stage}

theorem pure {a : α} {a' : α'} {Q : Stage → α → α' → Prop} (h : Q w a a') : RunM w (some a) (Pure.pure a' : M N α') Q := fun _ e => by
  cases e
  exact ⟨a', w, rfl, Ext.refl _, h⟩

theorem bind {x : Option α} {x' : M N α'} {f : α → Option β} {f' : α' → M N β'} {Q : Stage → α → α' → Prop} {S : Stage → β → β' → Prop}
    (hx : RunM w x x' Q) (h : ∀ w' a a', Ext w.1 w'.1 → Q w' a a' → RunM w' (f a) (f' a') S) : RunM w (x.bind f) (x' >>= f') S := fun b e => by
  obtain ⟨a, h1, h2⟩ := Option.bind_eq_some_iff.1 e
  obtain ⟨a', w1, h3, e1, h4⟩ := hx a h1
  obtain ⟨b', w2, h5, e2, h6⟩ := h w1 a a' e1 h4 b h2
  exact ⟨b', w2, by rw [bind_some h3, h5], e1.trans e2, h6⟩

/-- What the circuit chip does as well. -/
theorem of {x : Option α} {x' : Build α'} {Q : Stage → α → α' → Prop} (h : Run w x x' Q) : RunM w x x'.1 Q := h

theorem spec {x' : M N α'} {pre : Ctx N → Prop} {post : Ctx N → α' → Prop} (hc : CSpec tables x' pre post) (hp : pre w.1) {x : Option α} {a : α}
    (hx : x = some a) {Q : Stage → α → α' → Prop} (hq : ∀ (w' : Stage) a', post w'.1 a' → Q w' a a') : RunM w x x' Q := fun b e => by
  obtain rfl : a = b := Option.some.inj (hx.symm.trans e)
  obtain ⟨r, c', h1, h2, h3, h4⟩ := hc.run w.1 w.2 hp
  exact ⟨r, ⟨c', h2⟩, h1, h3, hq ⟨c', h2⟩ r h4⟩

theorem ite {p : Prop} {_ : Decidable p} {x : Option α} {x' : M N α'} {Q : Stage → α → α' → Prop} (h : p → RunM w x x' Q) :
    RunM w (if p then x else none) x' Q := fun a e => by
  split at e
  · next hp => exact h hp a e
  · cases e

end RunM

/-- The chip in shape mode. -/
noncomputable def measure : Link guardedShape measureChip (id : Pt → Pt) where
  W := Stage
  le w w' := Ext w.1 w'.1
  refl w := Ext.refl _
  trans h h' := h.trans h'
  R w x x' Q := RunM w x x' Q
  s := Cell
  p w P p := HQ w.1 p P
  n w P p := HNorm w.1 p P
  o w P p := HEnd w.1 p P
  known w k a a' := a = k ∧ Cell w k a'
  s_up h e := ⟨e.1.ext h, e.2⟩
  p_up h e := e.ext h
  n_up h e := e.ext h
  o_up h e := e.ext h
  n_p h := h.hq
  p_o h := h.end
  known_up h e := ⟨e.1, e.2.1.ext h, e.2.2⟩
  known_s h := h.1 ▸ h.2
  pure h := RunM.pure h
  bind hx h := RunM.bind hx fun w' a a' hw ha => h w' a a' hw ha
  mono hx h := fun a e => by
    obtain ⟨a', w', h1, h2, h3⟩ := hx a e
    exact ⟨a', w', h1, h2, h w' a a' h2 h3⟩
  panic := fun a e => by cases e
  add ha hb := circuit.add ha hb
  sub ha hb := circuit.sub ha hb
  mul ha hb := circuit.mul ha hb
  div ha hb := circuit.div ha hb
  square ha := circuit.square ha
  sumWithCoeff h := circuit.sumWithCoeff h
  assignZero := circuit.assignZero
  assignOne := circuit.assignOne
  assignConst k := circuit.assignConst k
  toValue h := RunM.pure (h.1.trans h.2.2.symm)
  pAdd ha hb := circuit.pAdd ha hb
  pSub ha hb := circuit.pSub ha hb
  pAssignOne := circuit.pAssignOne
  pAssignConst P := circuit.pAssignConst P
  normalize ha := circuit.normalize ha
  scalarMul hk ha := circuit.scalarMul hk ha
  scalarMulConstant hk := circuit.scalarMulConstant hk
  multiExp := fun {w} (ps : List Pt) (ps' : List APt) (ss : List N) (ss' : List (AV N)) hp hs => RunM.ite fun hg => by
    obtain ⟨h1, h2⟩ := cells hs
    have hv : ss'.map (fun s => s.value.val) = ss.map ZMod.val := by rw [← h2, List.map_map]; rfl
    refine RunM.spec (CSpec.shamirShape_q ps' ss' ps (by rw [hv]; exact hg.2.2) ?_ ?_) ⟨hp.flip.imp fun _ _ h => h.hq, h1⟩ rfl fun w' r hr => ?_
    · exact (hp.length_eq.symm.trans hg.2.1).trans hs.length_eq
    · rintro rfl
      cases hp
      exact hg.1 rfl
    · rw [hv] at hr
      exact hr

theorem measure_mulAdd : measure.MulAdd := fun {w} {a : N} {a' : AV N} {b : N} {b' : AV N} k ha hb =>
  circuit_mulAdd k ha hb

theorem measure_words : measure.SameWords guardedShapeEncode measureEncode where
  point h := circuit_words.point h
  scalar h := RunM.pure (.cons h .nil)
  decode h := RunM.pure h

/-- The Poseidon transcripts. -/
noncomputable def measureBytes {rate : ℕ} (ps : PoseidonSpec N rate) (d : Codec N Pt) :
    SameBytes measure (poseidonTranscript guardedShape ps guardedShapeEncode) (poseidonTranscript measureChip ps measureEncode) d d :=
  poseidonBytes measure_mulAdd ps measure_words
    (fun k => RunM.spec (CSpec.assign k) trivial rfl fun w' r hr => hr)
    (fun P => RunM.spec (CSpec.assignPoint_n P) trivial rfl fun w' r hr => hr) (id_point d) fun _ => rfl

end Guarded
end Verif.Api
