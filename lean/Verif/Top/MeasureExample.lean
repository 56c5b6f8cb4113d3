import Verif.Api.GuardedMeasure
import Verif.Top.Measure

/-!
# A circuit for which both passes return
-/

set_option exponentiation.threshold 600

namespace Verif.Circuit
open Verif.Ecc

namespace Small

theorem total_small {as ns : List ℕ} (h : total as ns ≤ 64) {j : ℕ} (h1 : 62 ≤ j) : total as (ns.map (hexDigit j)) = 0 := by
  have h2 := total_mul (16 ^ j) (hexDigit j) as ns
  have h3 : total as (ns.map fun n => 16 ^ j * hexDigit j n) ≤ total as ns :=
    total_mono (f := fun n => 16 ^ j * hexDigit j n) (fun n => (Nat.mul_le_mul_left _ (Nat.mod_le _ _)).trans (Nat.mul_div_le _ _)) as ns
  by_contra h0
  have h4 : 16 ^ j * 1 ≤ 16 ^ j * total as (ns.map (hexDigit j)) := Nat.mul_le_mul_left _ (Nat.pos_of_ne_zero h0)
  have h5 : 16 ^ 2 ≤ 16 ^ j := Nat.pow_le_pow_right (by norm_num) (by omega)
  have h6 : 16 ^ 2 ≤ 64 := by omega
  norm_num at h6

theorem shapeStart_small {as ns : List ℕ} (h : total as ns ≤ 64) : shapeStart (as.map (· • gen)) ns = 0 := by
  unfold shapeStart
  rw [mulSum_total, mulSum_total, total_small h (le_refl _), total_small h (by norm_num), zero_nsmul, nsmul_zero, add_zero]

/-- A multi-exponentiation in shape mode. -/
theorem shapeSafe {as ns : List ℕ} (h1 : ∀ a ∈ as, 15 * a ≤ 64) (h2 : total as ns ≤ 64) : ShapeSafe (as.map (· • gen)) ns := by
  refine ⟨(shamirSafe h1 h2).table, ?_, fun i _ => ?_, fun j _ hj => (shamirSafe h1 h2).inner j hj, fun _ => ?_, fun j _ i _ => ?_⟩
  · rw [mulSum_total, total_small h2 (le_refl _), zero_nsmul]
    exact safe_zero
  · rw [mulSum_total, total_small h2 (by norm_num), zero_nsmul, nsmul_zero]
    exact safe_zero
  · rw [mulSum_total, total_small h2 (le_refl _), zero_nsmul]
  · rw [shapeStart_small h2, nsmul_zero, nsmul_zero]
    exact safe_zero

end Small
end Verif.Circuit

namespace Verif.Top
open Verif.Circuit Verif.Ecc Verif.Api Guarded

/-! ### The second region has a context of its own -/

/-- It returns, whatever the context. -/
def Ret {α : Type} (m : M N α) : Prop := ∀ c, ∃ r c', m c = some (r, c')

section
variable {α β : Type}

theorem Ret.pure (a : α) : Ret (Pure.pure a) := fun c => ⟨a, c, rfl⟩

theorem Ret.bind {m : M N α} {f : α → M N β} (h : Ret m) (hf : ∀ a, Ret (f a)) : Ret (m >>= f) := fun c => by
  obtain ⟨a, c1, h1⟩ := h c
  obtain ⟨b, c2, h2⟩ := hf a c1
  exact ⟨b, c2, by rw [bind_some h1, h2]⟩

theorem Ret.line (sel : Sel) {ps : List (Schema N × N)} {k : N} {m : List N} {next : N} (h : ps.length ≤ 5 ∧ m.length ≤ 2) : Ret (oneLineSel sel ps k m next) := fun c => by
  unfold oneLineSel
  rw [if_pos h]
  exact ⟨_, _, rfl⟩

theorem Ret.lineAdd {ps : List (Schema N × N)} {k : N} (h : ps.length ≤ 5) : Ret (oneLineAdd ps k) := Ret.line _ ⟨h, by simp⟩

theorem Ret.assertM {p : Prop} [Decidable p] (h : p) : Ret (Circuit.assertM (F := N) p) := fun c => ⟨(), c, if_pos h⟩

theorem Ret.unwrapM {o : Option α} (h : o.isSome) : Ret (Circuit.unwrapM (F := N) o) := fun c => by
  obtain ⟨a, rfl⟩ := Option.isSome_iff_exists.1 h
  exact ⟨a, c, rfl⟩

end

theorem Ret.sum {l : List (AV N × N)} (h : l.length ≤ 4) (k : N) : Ret (Circuit.sumWithConstant l k) := by
  unfold Circuit.sumWithConstant
  rw [if_neg (by omega)]
  exact Ret.bind (Ret.line _ ⟨by simp [assignedPairs]; omega, by simp⟩) fun _ => Ret.pure _

theorem Ret.native (a : AInt) : Ret (Circuit.native a) := by
  unfold Circuit.native
  split
  · exact Ret.pure _
  · exact Ret.bind (Ret.sum (by simp [nativeTerms]) _) fun _ => Ret.pure _

theorem Ret.limb (n : N) : Ret (assignNonleadingLimb n) :=
  Ret.bind (Ret.line _ ⟨limbLine_length _ _ (by norm_num), by simp⟩) fun _ => Ret.pure _

theorem Ret.leading (n : N) : Ret (assignWCeilLeadingLimb n) := by
  unfold assignWCeilLeadingLimb
  dsimp only
  split
  · exact Ret.limb n
  · exact Ret.bind (Ret.assertM (by decide +kernel)) fun _ => Ret.bind (Ret.line _ ⟨limbLine_length _ _ (by decide +kernel), by simp⟩) fun _ => Ret.pure _

theorem Ret.assignW (v : W) : Ret (Circuit.assignW v) :=
  Ret.bind (Ret.leading _) fun _ => Ret.bind (Ret.limb _) fun _ => Ret.bind (Ret.limb _) fun _ => Ret.bind (Ret.limb _) fun _ => Ret.pure _

/-- Whether an integer can be reduced does not depend on the rows before. -/
theorem Ret.reduce {a r : AInt} {c c' : Ctx N} (h : Circuit.reduce a c = some (r, c')) : Ret (Circuit.reduce a) := by
  unfold Circuit.reduce at h ⊢
  split at h
  · next h0 =>
    rw [if_pos h0]
    exact Ret.pure _
  · next h0 =>
    rw [if_neg h0]
    obtain ⟨_, c1, h1, h⟩ := bound h
    obtain ⟨u, c2, h2, -⟩ := bound h
    have k1 : a.overflows < overflowLimit := by
      unfold Circuit.assertM at h1
      split at h1
      · assumption
      · cases h1
    obtain ⟨u', h3, -⟩ := Option.map_eq_some_iff.1 h2
    refine Ret.bind (Ret.assertM k1) fun _ => Ret.bind (Ret.unwrapM (by rw [h3]; rfl)) fun _ => Ret.bind (Ret.assignW _) fun _ =>
      Ret.bind (Ret.line _ ⟨by simp, by simp⟩) fun _ => Ret.bind (Ret.native _) fun _ => Ret.bind (Ret.native _) fun _ =>
      Ret.bind (Ret.lineAdd (by simp)) fun _ => Ret.bind (Ret.lineAdd (by simp)) fun _ => Ret.pure _

theorem Ret.lastBit (a : AInt) : Ret (getLastBit a) :=
  Ret.bind (Ret.limb _) fun _ => Ret.bind (Ret.line _ ⟨by simp, by simp⟩) fun _ => Ret.bind (Ret.bind (Ret.line _ ⟨by simp, by simp⟩) fun _ => Ret.pure _) fun _ => Ret.pure _

theorem Ret.exposePoint (x : AInt) (b : AV N) : Ret (exposePoint x b) :=
  Ret.bind (Ret.sum (by simp) _) fun _ => Ret.bind (Ret.sum (by simp) _) fun _ => Ret.pure _

theorem reduce_any {w : Stage} {a : AInt} (h : HInt w.1 a) : Ret (Circuit.reduce a) := by
  obtain ⟨_, _, h1, -⟩ := (CSpec.reduceH a).run w.1 w.2 h
  exact Ret.reduce h1

/-- Two honest points can be exposed in a context of its own. -/
theorem exposePair_any {w : Stage} {p q : APt} {P Q : Pt} (hp : HQ w.1 p P) (hq : HEnd w.1 q Q) : Ret (exposePair p q) :=
  Ret.bind (reduce_any hp.hp.x) fun _ => Ret.bind (reduce_any hp.hp.y) fun _ => Ret.bind (reduce_any hq.x) fun _ => Ret.bind (reduce_any hq.y) fun _ =>
    Ret.bind (Ret.assertM (by decide +kernel)) fun _ => Ret.bind (Ret.lastBit _) fun _ => Ret.bind (Ret.lastBit _) fun _ =>
    Ret.bind (Ret.exposePoint _ _) fun _ => Ret.bind (Ret.exposePoint _ _) fun _ => Ret.pure _

theorem Ret.assertFalse (a : AV N) : Ret (Circuit.assertFalse a) :=
  Ret.bind (Ret.lineAdd (by simp)) fun _ => Ret.pure _

/-! ### Both passes -/

section
variable {rate : ℕ} {ps : PoseidonSpec N rate} {d : Codec N Pt}

theorem regions_some {x : M N (APt × APt × List (AV N) × List (List APt))} {w1 : Stage} {p q : APt} {is : List (AV N)} {cs : List (List APt)} {P Q : Pt} {c0 : Ctx N}
    (h0 : shapeRow Ctx.empty = some ((), c0)) (f : x c0 = some ((p, q, is, cs), w1.1)) (hp : HQ w1.1 p P) (hq : HEnd w1.1 q Q) : ∃ a b, regions x [] = some (a, b) := by
  obtain ⟨_, c1, h1⟩ := Ret.assertFalse p.z w1.1
  obtain ⟨_, c2, h2⟩ := Ret.assertFalse q.z c1
  obtain ⟨r, c3, h3⟩ := exposePair_any hp hq Ctx.empty
  have k : firstRegion x [] Ctx.empty = some ((p, q, is), c2) := by
    unfold firstRegion
    rw [bind_some h0, bind_some f]
    change (coherentM cs [] >>= fun _ => _) w1.1 = _
    rw [bind_some (show coherentM cs [] w1.1 = some ((), w1.1) from rfl)]
    dsimp only
    rw [bind_some h1, bind_some h2]
    rfl
  refine ⟨c2, c3, ?_⟩
  unfold regions
  rw [k]
  dsimp only [Option.bind_eq_bind, Option.bind_some]
  rw [h3]
  rfl

theorem shapeRow_stage : ∃ w : Stage, shapeRow Ctx.empty = some ((), w.1) := by
  obtain ⟨a, c, h, g, -⟩ := (CSpec.assignConstant (t := tables) (1 : N)).run Ctx.empty good_empty trivial
  refine ⟨⟨c, g⟩, ?_⟩
  obtain ⟨_, c', h1, h2⟩ := bound h
  cases h2
  exact bind_some h1

theorem targets_id (ts : List Target) : ts.map (TargetOf.map id) = ts := (List.map_congr_left fun t _ => target_map_id t).trans (List.map_id _)

/-- The assigning pass returns where the guarded native verifier does. -/
theorem assigned_some {ts : List Target} {v : Pt × Pt × List N × List (List Pt)} (h : aggregateTargets guarded ps guardedEncode d ts = some v) :
    ∃ a b, assigned ps d ts [] = some (a, b) := by
  obtain ⟨w, h0⟩ := shapeRow_stage
  obtain ⟨⟨p, q, is', cs'⟩, w1, f1, -, h2, h3, -⟩ := aggregateTargets_link (X := circuit) (circuitBytes ps d) (fun _ _ _ h => h) (fun _ => trivial) rfl
    (fun _ k => Run.of (Spec.assign k) (CSpec.assign k) trivial rfl fun _ _ hr => hr) (w := w) ts _ h
  rw [targets_id] at f1
  exact regions_some h0 f1 h2 h3

/-- The measuring pass returns where the native verifier with the multi-exponentiation of shape mode does. -/
theorem measured_some {ts ts' : List Target} (ht : ts.mapM withoutWitnesses = some ts') {v : Pt × Pt × List N × List (List Pt)}
    (h : aggregateTargets guardedShape ps guardedShapeEncode d ts' = some v) : ∃ a b, measured ps d ts [] = some (a, b) := by
  obtain ⟨w, h0⟩ := shapeRow_stage
  obtain ⟨⟨p, q, is', cs'⟩, w1, f1, -, h2, h3, -⟩ := aggregateTargets_link (X := Guarded.measure) (measureBytes ps d) (fun _ _ _ h => h) (fun _ => trivial) rfl
    (fun _ k => RunM.spec (CSpec.assign k) trivial rfl fun _ _ hr => hr) (w := w) ts' _ h
  rw [targets_id] at f1
  obtain ⟨a, b, h⟩ := regions_some h0 f1 h2 h3
  refine ⟨a, b, ?_⟩
  unfold measured
  rw [ht]
  exact h

end

/-! ### A case -/

namespace TinySynth
open TinyContract Checked

/-- `small` with the result of multi-exponentiation in shape mode: the first windows are empty. -/
def smallShape : Chip N N := { small with
  multiExp := fun (ps ss : List N) => if ps ≠ [] ∧ ps.length = ss.length ∧ (ps.all fun a => 15 * a.val ≤ 64) ∧ Small.total (ps.map ZMod.val) (ss.map ZMod.val) ≤ 64
    then some (0 : N) else none }

def smallShapeEncode : Encode smallShape where
  point := fun (k : N) => if 1 ≤ k.val ∧ k.val ≤ 64 then some [((Small.coords k.val).1 : N), ((Small.coords k.val).2 : N)] else none
  scalar := fun (s : N) => some [s]
  decode := fun (s : N) => some s

theorem multiExp_shape (ps ss : List N) : R (smallShape.multiExp ps ss) (guardedShape.multiExp (ps.map toCurve) ss) fun (r : N) (r' : Pt) => r' = toCurve r := by
  intro r hr
  obtain ⟨⟨h1, h2, h3, h4⟩, h5⟩ := if_some hr
  have hs : ShapeSafe (ps.map toCurve) (ss.map ZMod.val) := by
    rw [toCurve_map]
    refine Small.shapeSafe (fun a ha => ?_) h4
    obtain ⟨k, hk, rfl⟩ := List.mem_map.1 ha
    exact of_decide_eq_true (List.all_eq_true.1 h3 k hk)
  have h8 : ps.map toCurve ≠ [] := fun h => h1 (List.map_eq_nil_iff.1 h)
  have h9 : (ps.map toCurve).length = ss.length := by rw [List.length_map]; exact h2
  refine ⟨_, if_pos ⟨h8, h9, hs⟩, ?_⟩
  rw [← Option.some.inj h5]
  change (17 ^ 62 • shapeStart (ps.map toCurve) (ss.map ZMod.val) : Pt) = toCurve 0
  rw [map_zero, toCurve_map, Small.shapeStart_small h4, nsmul_zero]

noncomputable def linkShape : Link smallShape guardedShape toCurve where
  W := Unit
  le _ _ := True
  refl _ := trivial
  trans _ _ := trivial
  R _ x x' Q := R x x' (Q ())
  s _ a a' := a' = a
  p _ a a' := a' = toCurve a
  n _ a a' := a' = toCurve a
  o _ a a' := a' = toCurve a
  known _ k a a' := a = k ∧ a' = k
  s_up _ h := h
  p_up _ h := h
  n_up _ h := h
  o_up _ h := h
  n_p h := h
  p_o h := h
  known_up _ h := h
  known_s h := h.2.trans h.1.symm
  pure h := R.some h
  bind hx h := R.bind hx fun a a' ha => h () a a' trivial ha
  mono hx h := fun a e => by
    obtain ⟨a', h1, h2⟩ := hx a e
    exact ⟨a', h1, h () a a' trivial h2⟩
  panic := fun a e => by cases e
  add h h' := link.add (w := ()) h h'
  sub h h' := link.sub (w := ()) h h'
  mul h h' := link.mul (w := ()) h h'
  div h h' := link.div (w := ()) h h'
  square h := link.square (w := ()) h
  sumWithCoeff h := link.sumWithCoeff (w := ()) h
  assignZero := R.some rfl
  assignOne := R.some rfl
  assignConst k := R.some ⟨rfl, rfl⟩
  toValue h := R.some (h.1.trans h.2.symm)
  pAdd h h' := link.pAdd (w := ()) h h'
  pSub h h' := link.pSub (w := ()) h h'
  pAssignOne := R.some toCurve_one.symm
  pAssignConst P := R.some rfl
  normalize h := R.some h
  scalarMul h h' := link.scalarMul (w := ()) h h'
  scalarMulConstant h := link.scalarMulConstant (w := ()) h
  multiExp {w ps ps' ss ss'} hp hs := by
    have e1 := Checked.map_of hp
    have e2 := Checked.eq_of hs
    subst e1
    subst e2
    exact multiExp_shape _ _

theorem wordsShape : linkShape.SameWords smallShapeEncode guardedShapeEncode where
  point h := words.point (w := ()) h
  scalar h := R.some (.cons h .nil)
  decode h := R.some h

theorem mulAddShape : linkShape.MulAdd := fun k h h' => mulAdd (w := ()) k h h'

noncomputable def bytesShape : SameBytes linkShape (poseidonTranscript smallShape TinyPoseidon.deaf smallShapeEncode)
    (poseidonTranscript guardedShape TinyPoseidon.deaf guardedShapeEncode) codecN codec :=
  poseidonBytes mulAddShape TinyPoseidon.deaf wordsShape (fun _ => R.some rfl) (fun _ => R.some rfl) read_point fun _ => rfl

noncomputable def measureRun (l : List ProofPair) : Option (N × N × List N × List (List N)) :=
  aggregateTargets smallShape TinyPoseidon.deaf smallShapeEncode codecN [⟨"t", vkN, l, 2⟩]

theorem check_measure : (measureRun [pairA, pairA]).isSome = true := by
  delta measureRun aggregateTargets verifyAggregation verifyCircuit verifyProof verifyNoEval openParams queries proofQueries columnQuery xRotateOmega buildParams
    rotateOmega
  simp only [TinyContract.rotateBase_eq]
  decide +kernel

/-- The hypotheses of C92 can be met: two proofs, the first of which is measured twice. -/
theorem both_passes : ∃ a b a' b', assigned TinyPoseidon.deaf codec [⟨"t", vkN.map toCurve, [pairA, pairB], 2⟩] [] = some (a, b) ∧
    measured TinyPoseidon.deaf codec [⟨"t", vkN.map toCurve, [pairA, pairB], 2⟩] [] = some (a', b') := by
  have h := check_both.1
  cases e : shapeRun [pairA, pairB] with
  | none =>
    rw [e] at h
    cases h
  | some v =>
    obtain ⟨v', k1, -⟩ := aggregateTargets_link (X := link) bytes (fun _ _ _ h => h) (fun _ => trivial) (map_zero toCurve) (fun _ _ => R.some rfl) (w := ()) _ _ e
    obtain ⟨a, b, h1⟩ := assigned_some k1
    obtain ⟨u, e'⟩ := Option.isSome_iff_exists.1 check_measure
    obtain ⟨u', k2, -⟩ := aggregateTargets_link (X := linkShape) bytesShape (fun _ _ _ h => h) (fun _ => trivial) (map_zero toCurve) (fun _ _ => R.some rfl) (w := ()) _ _ e'
    obtain ⟨a', b', h2⟩ := measured_some (ts := [⟨"t", vkN.map toCurve, [pairA, pairB], 2⟩]) rfl k2
    exact ⟨a, b, a', b', h1, h2⟩

example : ∃ a b a' b', assigned TinyPoseidon.deaf codec [⟨"t", vkN.map toCurve, [pairA, pairB], 2⟩] [] = some (a, b) ∧
    measured TinyPoseidon.deaf codec [⟨"t", vkN.map toCurve, [pairA, pairB], 2⟩] [] = some (a', b') ∧ height a ≤ height a' ∧ height b = height b' := by
  obtain ⟨a, b, a', b', h1, h2⟩ := both_passes
  refine ⟨a, b, a', b', h1, h2, C92_fits _ _ ?_ h1 h2⟩
  intro t ht
  rw [List.mem_singleton] at ht
  subst ht
  intro p hp q hq
  cases hq
  have hp : p ∈ [pairA, pairB] := hp
  rcases List.mem_pair.1 hp with rfl | rfl <;> exact .cons (.cons rfl .nil) .nil

end TinySynth
end Verif.Top
