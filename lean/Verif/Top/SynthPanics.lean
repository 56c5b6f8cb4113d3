import Verif.Ecc.CompleteProps
import Verif.Top.SynthExample

/-!
# A proof that is accepted natively and cannot be aggregated: C79 is false

The circuit of `Verif.Top.SynthExample` with a proof in which one of the two opening commitments is the point `(badX, 4)` of C58. The verifier
multiplies it by a challenge, for which the circuit doubles it, and there it panics.

Points are pairs `(a, b)`, which stand for `a • gen + b • badPt`. `probe` predicts the outcome of the circuit: a panic for certain
(`error true`), or a result; `error false` predicts nothing. `pairs` is native verification.
-/

namespace Verif.Top.TinySynth
open Verif.Circuit Verif.Ecc Verif.Api Verif.Top.TinyContract

/-- The coordinates of the points that are read. -/
def pairWords (P : N × N) : Option (List N) :=
  if P = (0, 1) then some [(badX : N), 4]
  else if P.2 = 0 ∧ 1 ≤ P.1.val ∧ P.1.val ≤ 64 then some [((Small.coords P.1.val).1 : N), ((Small.coords P.1.val).2 : N)] else none

/-- What may be returned by an operation of which it is not known how it builds the point `(badX, 4)`. -/
def other (P : N × N) : Except Bool (N × N) := if P = (0, 1) then .error false else .ok P

/-- Predicts the outcome of the circuit. -/
def probe : Chip N (N × N) where
  m := Except Bool
  monad := inferInstance
  S := N
  P := N × N
  panic := .error false
  add a b := .ok (a + b)
  sub a b := .ok (a - b)
  mul a b := .ok (a * b)
  div a b := if b * inv b = 1 then .ok (a * inv b) else .error false
  square a := .ok (a * a)
  sumWithCoeff l k := .ok (mockSum k l)
  mulAddConstant a b k := .ok (a * b + k)
  assignZero := .ok 0
  assignOne := .ok 1
  assignConst k := .ok k
  assignVar k := .ok k
  toValue v := .ok v
  pAdd _ _ := .error false
  pSub _ _ := .error false
  pAssignZero := .error false
  pAssignOne := .ok (1, 0)
  pAssignConst P := other P
  pAssignVar P := .ok P
  normalize P := other P
  scalarMul _ _ := .error false
  scalarMulConstant s P := other (s • P)
  multiExp ps _ := if ps.head? = some (0, 1) then .error true else .error false

def probeEncode : Encode probe where
  point := fun (P : N × N) => match pairWords P with
    | some l => .ok l
    | none => .error false
  scalar := fun (s : N) => .ok [s]
  decode := fun (s : N) => .ok s

/-- Native verification. -/
def pairs : Chip N (N × N) where
  m := Option
  monad := inferInstance
  S := N
  P := N × N
  panic := none
  add a b := some (a + b)
  sub a b := some (a - b)
  mul a b := some (a * b)
  div a b := if b * inv b = 1 then some (a * inv b) else none
  square a := some (a * a)
  sumWithCoeff l k := some (mockSum k l)
  mulAddConstant a b k := some (a * b + k)
  assignZero := some 0
  assignOne := some 1
  assignConst k := some k
  assignVar k := some k
  toValue v := some v
  pAdd a b := some (a + b)
  pSub a b := some (a - b)
  pAssignZero := some 0
  pAssignOne := some (1, 0)
  pAssignConst P := some P
  pAssignVar P := some P
  normalize a := some a
  scalarMul s a := some (s • a)
  scalarMulConstant s P := some (s • P)
  multiExp ps ss := mockMultiExp none ps ss

def pairsEncode : Encode pairs where
  point := fun (P : N × N) => pairWords P
  scalar := fun (s : N) => some [s]
  decode := fun (s : N) => some s

/-- As `codecN`; the byte 255 is the point `(badX, 4)`. -/
def codecP : Codec N (N × N) := ⟨1, 1, fun b => some (if b.headD 0 = 255 then (0, 1) else (((b.headD 0).toNat : N), 0)), fun b => some ((b.headD 0).toNat : N)⟩

/-- One proof: three points, four scalars, two points. -/
def targetsP : List (TargetOf (N × N)) := [⟨"first", vkN.map fun k => (k, 0), [([[[5]]], [1, 3, 2, 3, 1, 2, 3, 2, 255])], 1⟩]

noncomputable def pairsRun : Option ((N × N) × (N × N) × List N × List (List (N × N))) :=
  aggregateTargets pairs TinyPoseidon.deaf pairsEncode codecP targetsP

theorem pairs_check : (pairsRun == some ((2, 0), (2, 0), [5], [[(1, 0)]])) = true := by
  delta pairsRun aggregateTargets verifyAggregation verifyCircuit verifyProof verifyNoEval openParams queries proofQueries columnQuery xRotateOmega buildParams
    rotateOmega
  simp only [rotateBase_eq]
  decide +kernel

theorem pairs_run : pairsRun = some ((2, 0), (2, 0), [5], [[(1, 0)]]) := eq_of_beq pairs_check

/-- The circuit will panic. -/
def panics {α : Type} : Except Bool α → Bool
  | .error b => b
  | .ok _ => false

noncomputable def probeRun : Except Bool ((N × N) × (N × N) × List N × List (List (N × N))) :=
  aggregateTargets probe TinyPoseidon.deaf probeEncode codecP targetsP

theorem probe_check : panics probeRun = true := by
  delta probeRun aggregateTargets verifyAggregation verifyCircuit verifyProof verifyNoEval openParams queries proofQueries columnQuery xRotateOmega buildParams
    rotateOmega
  simp only [rotateBase_eq]
  decide +kernel

/-! ### On the curve -/

noncomputable def onCurve : N × N →ₗ[N] Pt := toCurve.comp (LinearMap.fst N N N) + (LinearMap.toSpanSingleton N Pt badPt).comp (LinearMap.snd N N N)

theorem onCurve_mk (a b : N) : onCurve (a, b) = toCurve a + b • badPt := rfl

theorem onCurve_left (a : N) : onCurve (a, 0) = toCurve a := by
  rw [onCurve_mk, show (0 : N) • badPt = 0 from zero_smul N badPt, add_zero]

theorem onCurve_bad : onCurve (0, 1) = badPt := by rw [onCurve_mk, map_zero, zero_add, one_smul]

theorem pairWords_eq {P : N × N} {l : List N} (h : pairWords P = some l) :
    l = [((coordX (onCurve P)).val : N), ((coordY (onCurve P)).val : N)] := by
  unfold pairWords at h
  split at h
  · next e =>
    subst e
    have hx : (coordX badPt).val = badX := ZMod.val_cast_of_lt (by decide +kernel)
    have hy : (coordY badPt).val = 4 := ZMod.val_cast_of_lt (by decide +kernel)
    rw [onCurve_bad, hx, hy, ← Option.some.inj h]
    rfl
  · obtain ⟨⟨h0, h1, h2⟩, h3⟩ := if_some h
    obtain ⟨a, b⟩ := P
    obtain rfl : b = 0 := h0
    obtain ⟨cx, cy⟩ := Small.coords_eq h1 h2
    rw [onCurve_left, toCurve_nat, cx, cy]
    exact (Option.some.inj h3).symm

open Checked (R)

theorem pairs_multiExp : ∀ (ps : List (N × N)) (ss : List N) (acc : Option (N × N)),
    R (mockMultiExp acc ps ss) (mockMultiExp (acc.map onCurve) (ps.map onCurve) ss) fun a a' => a' = onCurve a
  | [], ss, acc => by
    intro a e
    have : acc = Option.some a := by cases ss <;> exact e
    subst this
    exact ⟨_, by cases ss <;> rfl, rfl⟩
  | p :: ps, [], acc => by
    intro a e
    have : acc = Option.some a := e
    subst this
    exact ⟨_, rfl, rfl⟩
  | p :: ps, s :: ss, acc => by
    cases acc with
    | none =>
      have := pairs_multiExp ps ss (some (s • p))
      rw [Option.map_some, map_smul] at this
      exact this
    | some a =>
      have := pairs_multiExp ps ss (some (a + s • p))
      rw [Option.map_some, map_add, map_smul] at this
      exact this

theorem pairs_div (a b : N) : R (pairs.div a b) ((mock N gen).div a b) fun (r r' : N) => r' = r := fun r hr => by
  change (if b * inv b = 1 then some (a * inv b) else none) = some r at hr
  obtain ⟨e, hr⟩ := if_some hr
  have h0 : b ≠ 0 := fun h0 => by rw [h0, zero_mul] at e; exact zero_ne_one e
  refine ⟨a * b⁻¹, if_neg h0, ?_⟩
  rw [← Option.some.inj hr, eq_inv_of_mul_eq_one_right e]

/-- `pairs` is native verification. -/
noncomputable def pairsLink : Link pairs (mock N gen) onCurve where
  W := Unit
  le _ _ := True
  refl _ := trivial
  trans _ _ := trivial
  R _ x x' Q := R x x' (Q ())
  s _ a a' := a' = a
  p _ a a' := a' = onCurve a
  n _ a a' := a' = onCurve a
  o _ a a' := a' = onCurve a
  known _ k a a' := a = k ∧ a' = k
  s_up _ h := h
  p_up _ h := h
  n_up _ h := h
  o_up _ h := h
  n_p h := h
  p_o h := h
  known_up _ h := h
  known_s h := h.2.trans h.1.symm
  pure h := R.some h
  bind hx h := R.bind hx fun a a' ha => h () a a' trivial ha
  mono hx h := fun a e => by
    obtain ⟨a', h1, h2⟩ := hx a e
    exact ⟨a', h1, h () a a' trivial h2⟩
  panic := fun a e => by cases e
  add := by rintro w a b a' b' rfl rfl; exact R.some rfl
  sub := by rintro w a b a' b' rfl rfl; exact R.some rfl
  mul := by rintro w a b a' b' rfl rfl; exact R.some rfl
  div := by
    rintro w a b (a' : N) (b' : N) ha hb
    obtain rfl : a = a' := ha.symm
    obtain rfl : b = b' := hb.symm
    exact pairs_div _ _
  square := by rintro w a a' rfl; exact R.some rfl
  sumWithCoeff h := by
    have := Checked.eq_of (h.imp fun (a b : N × N) h => (Prod.ext h.1 h.2.symm : b = a))
    subst this
    exact R.some rfl
  assignZero := R.some rfl
  assignOne := R.some rfl
  assignConst k := R.some ⟨rfl, rfl⟩
  toValue h := R.some (h.1.trans h.2.symm)
  pAdd := by
    intro w (a : N × N) (b : N × N) a' b' h1 h2
    subst h1
    subst h2
    exact R.some (map_add onCurve a b).symm
  pSub := by
    intro w (a : N × N) (b : N × N) a' b' h1 h2
    subst h1
    subst h2
    exact R.some (map_sub onCurve a b).symm
  pAssignOne := R.some (toCurve_one.symm.trans (onCurve_left 1).symm)
  pAssignConst P := R.some rfl
  normalize h := R.some h
  scalarMul := by
    intro w (k : N) k' (a : N × N) a' h1 h2
    subst h1
    subst h2
    exact R.some (map_smul onCurve _ a).symm
  scalarMulConstant := by
    intro w (k : N) k' (P : N × N) h1
    subst h1
    exact R.some (map_smul onCurve _ P).symm
  multiExp {w ps ps' ss ss'} hp hs := by
    have e1 := Checked.map_of hp
    have e2 := Checked.eq_of hs
    subst e1
    subst e2
    exact pairs_multiExp _ _ none

theorem pairs_words : pairsLink.SameWords pairsEncode mockEncode where
  point := by
    rintro w (p : N × N) (p' : Pt) h
    have h : p' = onCurve p := h
    subst h
    intro l hl
    refine ⟨l, ?_, ?_⟩
    · rw [pairWords_eq hl]
      rfl
    · exact (same_list (α := N) l).imp fun _ _ h => h.symm
  scalar := by
    rintro w (s : N) (s' : N) h
    exact R.some (.cons h .nil)
  decode := by
    rintro w (s : N) (s' : N) h
    exact R.some h

theorem pairs_mulAdd : pairsLink.MulAdd := by
  rintro w (a : N) (a' : N) (b : N) (b' : N) k h h'
  have h : a' = a := h
  have h' : b' = b := h'
  subst h h'
  exact R.some rfl

/-- As `codec`, with one more point. -/
noncomputable def codecBad : Codec N Pt := ⟨1, 1, fun b => (codecP.point b).map onCurve, codecP.scalar⟩

theorem pairs_read (b : List UInt8) : codecBad.readPoint b = (codecP.readPoint b).map fun x => (onCurve x.1, x.2) := by
  unfold Codec.readPoint
  show (if b.length < 1 then none else (some _).bind _) = Option.map _ (if b.length < 1 then none else (some _).bind _)
  split <;> rfl

noncomputable def pairsBytes : SameBytes pairsLink (poseidonTranscript pairs TinyPoseidon.deaf pairsEncode)
    (poseidonTranscript (mock N gen) TinyPoseidon.deaf mockEncode) codecP codecBad :=
  poseidonBytes pairs_mulAdd TinyPoseidon.deaf pairs_words (fun _ => R.some rfl) (fun _ => R.some rfl) pairs_read fun _ => rfl

noncomputable def targetsBad : List Target := targetsP.map (TargetOf.map onCurve)

/-- Native verification returns twice the generator on both sides, which is a valid pair for the secret 1. -/
theorem native_bad : aggregateTargets (mock N gen) TinyPoseidon.deaf mockEncode codecBad targetsBad =
    some ((2 : N) • gen, (2 : N) • gen, [(5 : N)], [[gen]]) := by
  obtain ⟨⟨l, r, is, cs⟩, h1, h2, h3, h4, h5⟩ := aggregateTargets_link (X := pairsLink) pairsBytes (fun _ _ _ h => h) (fun _ => trivial)
    (map_zero onCurve) (fun _ _ => R.some rfl) (w := ()) targetsP _ pairs_run
  have h2 : l = onCurve (2, 0) := h2
  have h3 : r = onCurve (2, 0) := h3
  have h4 : List.Forall₂ (fun a a' : N => a' = a) [5] is := h4
  have h5 : List.Forall₂ (List.Forall₂ fun (a : N × N) (a' : Pt) => a' = onCurve a) [[(1, 0)]] cs := h5
  have e4 : is = [(5 : N)] := Checked.eq_of h4
  have e5 : cs = [[onCurve (1, 0)]] := Checked.map_of (f := List.map onCurve) (h5.imp fun _ _ h => Checked.map_of h)
  refine h1.trans ?_
  rw [h2, h3, e4, e5, onCurve_left, onCurve_left, toCurve_one, toCurve_apply]
  rfl

/-! ### The circuit panics -/

/-- The point as the chip assigns it. -/
structure Fresh (c : Ctx N) (p : APt) : Prop where
  pt : HPt c p ((badX : ℕ) : W) ((4 : ℕ) : W) 0
  ox : p.x.overflows = 0
  oy : p.y.overflows = 0
  curv : p.curv = none

theorem shamir_panics {ps : List APt} {ss : List (AV N)} {c : Ctx N} (hg : Good tables c) {p : APt} (hp : ps.head? = some p) (hf : Fresh c p)
    (hs : ∀ s ∈ ss, ValidAV c s) : Circuit.shamir ps ss c = none := by
  unfold Circuit.shamir
  by_cases hl : ps.length = ss.length
  swap
  · exact bind_none (if_neg hl)
  obtain ⟨ws, d1, f1, g1, e1, -⟩ := (CSpec.decomposeAll_q ss).run c hg hs
  obtain ⟨id, d2, f2, g2, e2, -⟩ := CSpec.assignIdentity.run d1 g1 trivial
  rw [bind_some (assertM_run hl c), bind_some f1, bind_some f2]
  refine bind_none ?_
  obtain ⟨ps, rfl⟩ : ∃ t, ps = p :: t := by
    cases ps with
    | nil => cases hp
    | cons a t => exact ⟨t, by rw [Option.some.inj hp]⟩
  unfold Circuit.allCands
  refine bind_none ?_
  unfold buildCandsCurv
  exact bind_none (bad_add g2 (hf.pt.ext (e1.trans e2)) hf.ox hf.oy hf.curv)

open Guarded (Stage Run Cell circuit cells)

/-- The prediction holds. -/
def Foretold {α α' : Type} (w : Stage) (x : Except Bool α) (x' : Build α') (Q : Stage → α → α' → Prop) : Prop :=
  match x with
  | .ok a => Run w (some a) x' Q
  | .error true => x'.1 w.1 = none
  | .error false => True

/-- A cell that stands for a point; the point `(badX, 4)` is as it was assigned. -/
structure Seen (w : Stage) (P : N × N) (p : APt) : Prop where
  hq : HQ w.1 p (onCurve P)
  fresh : P = (0, 1) → Fresh w.1 p

structure SeenNorm (w : Stage) (P : N × N) (p : APt) : Prop where
  hn : HNorm w.1 p (onCurve P)
  fresh : P = (0, 1) → Fresh w.1 p

theorem Fresh.ext {c c' : Ctx N} {p : APt} (h : Fresh c p) (he : Ext c c') : Fresh c' p := ⟨h.pt.ext he, h.ox, h.oy, h.curv⟩

theorem SeenNorm.seen {w : Stage} {P : N × N} {p : APt} (h : SeenNorm w P p) : Seen w P p := ⟨h.hn.hq, h.fresh⟩

/-- What is known of a point that is not `(badX, 4)`. -/
theorem foretold_other {w : Stage} {P : N × N} {x' : Build APt} {Q : Stage → N × N → APt → Prop} {Q0 : Stage → Pt → APt → Prop}
    (h : Run w (some (onCurve P)) x' Q0) (hq : ∀ w' p, P ≠ (0, 1) → Q0 w' (onCurve P) p → Q w' P p) : Foretold w (other P) x' Q := by
  unfold other
  split
  · exact trivial
  · next hP =>
    intro a e
    obtain rfl := Option.some.inj e
    obtain ⟨a', w', h1, h2, h3⟩ := h _ rfl
    exact ⟨a', w', h1, h2, hq w' a' hP h3⟩

theorem foretold_bind {α α' β β' : Type} {w : Stage} {x : Except Bool α} {x' : Build α'} {f : α → Except Bool β} {f' : α' → Build β'}
    {Q : Stage → α → α' → Prop} {S : Stage → β → β' → Prop} (hx : Foretold w x x' Q)
    (h : ∀ w' a a', Ext w.1 w'.1 → Q w' a a' → Foretold w' (f a) (f' a') S) : Foretold w (x >>= f) (x' >>= f') S := by
  match x, hx with
  | .ok a, hx =>
    obtain ⟨a', w1, h1, e1, h2⟩ := hx a rfl
    have h3 := h w1 a a' e1 h2
    change Foretold w (f a) (x' >>= f') S
    match f a, h3 with
    | .ok b, h3 =>
      intro b0 eb
      obtain ⟨b', w2, h4, e2, h5⟩ := h3 b0 eb
      exact ⟨b', w2, build_run h1 h4, e1.trans e2, h5⟩
    | .error true, h3 =>
      change (x'.1 >>= fun a => (f' a).1) w.1 = none
      rw [bind_some h1]
      exact h3
    | .error false, _ => exact trivial
  | .error true, hx => exact bind_none hx
  | .error false, _ => exact trivial

theorem probe_div {w : Stage} {a b : N} {a' b' : AV N} (ha : Cell w a a') (hb : Cell w b b') : Foretold w (probe.div a b) (circuitChip.div a' b') Cell := by
  change Foretold w (if b * inv b = 1 then .ok (a * inv b) else .error false) _ _
  split
  · next e =>
    have h0 : b ≠ 0 := fun h0 => by rw [h0, zero_mul] at e; exact zero_ne_one e
    have := circuit.div (w := w) (a := a) (b := b) ha hb
    change Run w (if b = 0 then none else some (a * b⁻¹)) _ _ at this
    rw [if_neg h0, ← eq_inv_of_mul_eq_one_right e] at this
    exact this
  · exact trivial

theorem pt_fresh {w : Stage} (P : N × N) : Foretold w (Except.ok P) (circuitChip.pAssignVar (onCurve P)) SeenNorm := by
  refine Run.of (Spec.assignPoint _) (CSpec.assignPointRaw _ _ _ (by
    by_cases h : onCurve P = 0
    · exact .inr (flagOf_zero h)
    · exact .inl (coords_aff h).eqn)) trivial rfl fun w' r h => ⟨⟨h.1.hq h.2.1 h.2.2.1 h.2.2.2, h.2.1, h.2.2.1⟩, fun e => ?_⟩
  subst e
  refine ⟨?_, h.2.1, h.2.2.1, h.2.2.2⟩
  have h1 := h.1
  rw [onCurve_bad] at h1
  have hz : flagOf badPt = 0 := flagOf_ne (aff_pt bad_eqn).ne_zero
  rw [hz] at h1
  exact h1

/-- `probe` predicts what the circuit does. -/
noncomputable def probeLink : Link probe circuitChip onCurve where
  W := Stage
  le w w' := Ext w.1 w'.1
  refl w := Ext.refl _
  trans h h' := h.trans h'
  R w x x' Q := Foretold w x x' Q
  s := Cell
  p := Seen
  n := SeenNorm
  o := Seen
  known w k a a' := a = k ∧ Cell w k a'
  s_up h e := ⟨e.1.ext h, e.2⟩
  p_up h e := ⟨e.hq.ext h, fun hP => (e.fresh hP).ext h⟩
  n_up h e := ⟨e.hn.ext h, fun hP => (e.fresh hP).ext h⟩
  o_up h e := ⟨e.hq.ext h, fun hP => (e.fresh hP).ext h⟩
  n_p h := h.seen
  p_o h := h
  known_up h e := ⟨e.1, e.2.1.ext h, e.2.2⟩
  known_s h := h.1 ▸ h.2
  pure h := Run.pure h
  bind hx h := foretold_bind hx fun w' a a' hw ha => h w' a a' hw ha
  mono {α α' w x x' Q S} hx h := by
    match x, hx with
    | .ok a, hx =>
      intro b e
      obtain ⟨a', w', h1, h2, h3⟩ := hx b e
      exact ⟨a', w', h1, h2, h w' b a' h2 h3⟩
    | .error true, hx => exact hx
    | .error false, _ => exact trivial
  panic := trivial
  add ha hb := circuit.add ha hb
  sub ha hb := circuit.sub ha hb
  mul ha hb := circuit.mul ha hb
  div ha hb := probe_div ha hb
  square ha := circuit.square ha
  sumWithCoeff h := circuit.sumWithCoeff h
  assignZero := circuit.assignZero
  assignOne := circuit.assignOne
  assignConst k := circuit.assignConst k
  toValue h := circuit.toValue h
  pAdd _ _ := trivial
  pSub _ _ := trivial
  pAssignOne := by
    intro w a e
    obtain rfl := Option.some.inj e
    obtain ⟨a', w', h1, h2, h3⟩ := circuit.pAssignOne (w := w) _ rfl
    refine ⟨a', w', h1, h2, ?_, fun h => ?_⟩
    · rw [onCurve_left, toCurve_one]
      exact h3
    · exact absurd (congrArg Prod.snd h) zero_ne_one
  pAssignConst {w} P := foretold_other (Q0 := circuit.n) (circuit.pAssignConst (onCurve P)) fun w' p hP h => ⟨h, fun h => absurd h hP⟩
  normalize {w P p} h := foretold_other (Q0 := circuit.n) (circuit.normalize (a := onCurve P) h.hq) fun w' p hP h => ⟨h, fun h => absurd h hP⟩
  scalarMul _ _ := trivial
  scalarMulConstant {w} (k : N) k' P hk := by
    have := circuit.scalarMulConstant (k := k) (onCurve P) hk
    refine foretold_other (Q0 := circuit.p) (P := k • P) ?_ fun w' p hP h => ⟨h, fun h => absurd h hP⟩
    rw [map_smul]
    exact this
  multiExp {w} (ps : List (N × N)) ps' ss ss' hp hs := by
    change Foretold w (if ps.head? = some (0, 1) then .error true else .error false) _ _
    split
    · next h =>
      obtain ⟨p, hp', hr⟩ : ∃ p, ps'.head? = some p ∧ Seen w (0, 1) p := by
        cases hp with
        | nil => cases h
        | cons h1 _ => exact ⟨_, rfl, Option.some.inj h ▸ SeenNorm.seen h1⟩
      exact shamir_panics w.2 hp' (hr.fresh rfl) (cells hs).1
    · exact trivial

theorem probe_words : probeLink.SameWords probeEncode circuitEncode where
  point := by
    rintro w (P : N × N) (p : APt) h
    have h : SeenNorm w P p := h
    change Foretold w (match pairWords P with | some l => .ok l | none => .error false) _ _
    split
    · next l hl =>
      rw [pairWords_eq hl]
      exact Guarded.circuit_words.point h.hn
    · exact trivial
  scalar h := Guarded.circuit_words.scalar h
  decode h := Guarded.circuit_words.decode h

theorem probe_mulAdd : probeLink.MulAdd := fun k ha hb => Guarded.circuit_mulAdd k ha hb

noncomputable def probeBytes : SameBytes probeLink (poseidonTranscript probe TinyPoseidon.deaf probeEncode)
    (poseidonTranscript circuitChip TinyPoseidon.deaf circuitEncode) codecP codecBad :=
  poseidonBytes probe_mulAdd TinyPoseidon.deaf probe_words
    (fun k => Run.of (Spec.assign k) (CSpec.assign k) trivial rfl fun w' r hr => hr) (fun P => pt_fresh P) pairs_read fun _ => rfl

theorem probe_run : probeRun = .error true := by
  have h := probe_check
  generalize probeRun = x at h
  match x, h with
  | .error true, _ => rfl

theorem foretell {ts : List (TargetOf (N × N))} (h : aggregateTargets probe TinyPoseidon.deaf probeEncode codecP ts = .error true) :
    (aggregateTargets circuitChip TinyPoseidon.deaf circuitEncode codecBad (ts.map (TargetOf.map onCurve))).1 Ctx.empty = none := by
  have h1 := aggregateTargets_link (X := probeLink) probeBytes (fun _ _ _ h => h) (fun _ => trivial) (map_zero onCurve)
    (fun _ k => Run.of (Spec.assign k) (CSpec.assign k) trivial rfl fun _ _ hr => hr) (w := ⟨Ctx.empty, good_empty⟩) ts
  rw [h] at h1
  exact h1

/-- C79 as stated is false: a proof for which native verification returns a valid pair (for the secret 1) of points other than the identity,
but the verifier circuit cannot be built. -/
theorem C79_false : ∃ (rate : ℕ) (ps : PoseidonSpec N rate) (d : Codec N Pt) (ts : List Target) (P : Pt) (is : List N) (commits : List (List Pt)), ps.WF ∧
    aggregateTargets (mock N gen) ps mockEncode d ts = some (P, P, is, commits) ∧ P ≠ 0 ∧ ∀ coherent, (synthesize ps d ts coherent).1 Ctx.empty = none := by
  refine ⟨2, TinyPoseidon.deaf, codecBad, targetsBad, (2 : N) • gen, [5], [[gen]], TinyPoseidon.deaf_wf, native_bad, ?_, fun coherent => ?_⟩
  · rw [← toCurve_apply]
    exact toCurve_ne (by decide +kernel)
  · unfold synthesize
    exact bind_none (foretell probe_run)

end Verif.Top.TinySynth
