import Verif.Top.SynthComplete
import Verif.Top.TinyContract
import Verif.Ecc.SmallMultiples

/-!
# Proofs for which the aggregation circuit is built and satisfied

A circuit with one advice column and one instance column, and proofs for it that meet the hypotheses of C79.

Native verification is first run with field elements `k` for the points `k • gen` (`small`), where it is evaluated.
-/

namespace Verif.Top.TinySynth
open Verif.Circuit Verif.Ecc Verif.Api Verif.Top.TinyContract

/-- Points are numbers; multiplications whose results exceed 64 are refused. -/
def small : Chip N N where
  m := Option
  monad := inferInstance
  S := N
  P := N
  panic := none
  add a b := some (a + b)
  sub a b := some (a - b)
  mul a b := some (a * b)
  div a b := if b * inv b = 1 then some (a * inv b) else none
  square a := some (a * a)
  sumWithCoeff l k := some (mockSum k l)
  mulAddConstant a b k := some (a * b + k)
  assignZero := some 0
  assignOne := some 1
  assignConst k := some k
  assignVar k := some k
  toValue v := some v
  pAdd a b := if a.val ≤ 64 ∧ (a + b = 0 → a = 0) then some (a + b) else none
  pSub a b := if a.val ≤ 64 then some (a - b) else none
  pAssignZero := some 0
  pAssignOne := some 1
  pAssignConst P := some P
  pAssignVar P := some P
  normalize a := some a
  scalarMul s a := if 15 * a.val ≤ 64 ∧ s.val * a.val ≤ 64 then some (s * a) else none
  scalarMulConstant s P := some (s * P)
  multiExp ps ss := if ps ≠ [] ∧ ps.length = ss.length ∧ (ps.all fun a => 15 * a.val ≤ 64) ∧ Small.total (ps.map ZMod.val) (ss.map ZMod.val) ≤ 64
    then mockMultiExp none ps ss else none

/-- The coordinates of the multiples that are known. -/
def smallEncode : Encode small where
  point := fun (k : N) => if 1 ≤ k.val ∧ k.val ≤ 64 then some [((Small.coords k.val).1 : N), ((Small.coords k.val).2 : N)] else none
  scalar := fun (s : N) => some [s]
  decode := fun (s : N) => some s

/-- One advice column, queried at rotations 0 and 1, and one instance column; two rows. -/
def vkN : VK N N where
  digest := 7
  omega := -1
  delta := 2
  n := 2
  blinding := 0
  degree := 3
  quotientDegree := 1
  phases := [0]
  advicePhase := [0]
  challengePhase := []
  numInstance := 1
  instanceQueries := [(0, 0)]
  adviceQueries := [(0, 0), (0, 1)]
  fixedQueries := []
  gates := [[.sum (.advice 0) (.negated (.instance 0))]]
  lookups := []
  permColumns := []
  fixedCommitments := []
  permutationCommitments := []
  gLagrange := [1, 0]

/-- One byte per value: a number, or a multiple of the generator. -/
def codecN : Codec N N := ⟨1, 1, fun b => some ((b.headD 0).toNat : N), fun b => some ((b.headD 0).toNat : N)⟩

/-- Two circuits, one proof each: three points, four scalars, two points. The proofs have the same advice commitment. -/
def targetsN : List (TargetOf N) :=
  [⟨"first", vkN, [([[[4]]], [1, 2, 3, 5, 3, 4, 6, 1, 2])], 1⟩, ⟨"second", vkN, [([[[2]]], [1, 3, 2, 4, 1, 2, 3, 2, 1])], 1⟩]

noncomputable def run : Option (N × N × List N × List (List N)) := aggregateTargets small TinyPoseidon.deaf smallEncode codecN targetsN

theorem run_check : (run == some (2, -2, [4, 2], [[1], [1]])) = true := by
  delta run aggregateTargets verifyAggregation verifyCircuit verifyProof verifyNoEval openParams queries proofQueries columnQuery xRotateOmega buildParams
    rotateOmega
  simp only [rotateBase_eq]
  decide +kernel

theorem run_small : run = some (2, -2, [4, 2], [[1], [1]]) :=
  eq_of_beq run_check

/-! ### On the curve -/

theorem toCurve_nat (k : N) : toCurve k = k.val • gen := by rw [toCurve_apply, smul_eq_val]

theorem toCurve_map (ps : List N) : ps.map toCurve = (ps.map ZMod.val).map (· • gen) := by
  rw [List.map_map]
  exact List.map_congr_left fun k _ => toCurve_nat k

open Checked (R)

theorem div_of (a b : N) : R (small.div a b) (guarded.div a b) fun (r r' : N) => r' = r := fun r hr => by
  change (if b * inv b = 1 then some (a * inv b) else none) = some r at hr
  split at hr
  · next e =>
    have h0 : b ≠ 0 := fun h0 => by rw [h0, zero_mul] at e; exact zero_ne_one e
    refine ⟨a * b⁻¹, if_neg h0, ?_⟩
    rw [← Option.some.inj hr, eq_inv_of_mul_eq_one_right e]
  · cases hr

theorem multiExp_map : ∀ (ps ss : List N) (acc : Option N), R (mockMultiExp acc ps ss) (mockMultiExp (acc.map toCurve) (ps.map toCurve) ss)
    fun a a' => a' = toCurve a
  | [], ss, acc => by
    intro a e
    have : acc = Option.some a := by cases ss <;> exact e
    subst this
    exact ⟨_, by cases ss <;> rfl, rfl⟩
  | p :: ps, [], acc => by
    intro a e
    have : acc = Option.some a := e
    subst this
    exact ⟨_, rfl, rfl⟩
  | p :: ps, s :: ss, acc => by
    cases acc with
    | none =>
      have := multiExp_map ps ss (some (s • p))
      rw [Option.map_some, map_smul] at this
      exact this
    | some a =>
      have := multiExp_map ps ss (some (a + s • p))
      rw [Option.map_some, map_add, map_smul] at this
      exact this

theorem if_some {α : Type} {p : Prop} {_ : Decidable p} {x : Option α} {a : α} (h : (if p then x else none) = some a) : p ∧ x = some a := by
  split at h
  · next hp => exact ⟨hp, h⟩
  · cases h

theorem toCurve_one : toCurve 1 = gen := by rw [toCurve_apply, one_smul]

theorem add_of (a b : N) : R (small.pAdd a b) (guarded.pAdd (toCurve a) (toCurve b)) fun (r : N) (r' : Pt) => r' = toCurve r := by
  intro r hr
  obtain ⟨⟨h1, h2⟩, h3⟩ := if_some hr
  have hs : Safe (toCurve a) := by
    rw [toCurve_nat]
    exact Small.safe h1
  have h0 : toCurve a + toCurve b = 0 → toCurve a = 0 := fun h => by
    rw [← map_add] at h
    rw [h2 (by_contra fun h' => toCurve_ne h' h), map_zero]
  refine ⟨_, if_pos ⟨hs, h0⟩, ?_⟩
  rw [← Option.some.inj h3]
  exact (map_add toCurve a b).symm

theorem sub_of (a b : N) : R (small.pSub a b) (guarded.pSub (toCurve a) (toCurve b)) fun (r : N) (r' : Pt) => r' = toCurve r := by
  intro r hr
  obtain ⟨h1, h3⟩ := if_some hr
  have hs : Safe (toCurve a) := by
    rw [toCurve_nat]
    exact Small.safe h1
  refine ⟨_, if_pos hs, ?_⟩
  rw [← Option.some.inj h3]
  exact (map_sub toCurve a b).symm

theorem mul_of (k a : N) : R (small.scalarMul k a) (guarded.scalarMul k (toCurve a)) fun (r : N) (r' : Pt) => r' = toCurve r := by
  intro r hr
  obtain ⟨⟨h1, h2⟩, h3⟩ := if_some hr
  have hs : MulSafe (toCurve a) k.val := by
    rw [toCurve_nat]
    exact Small.mulSafe h1 h2
  refine ⟨_, if_pos hs, ?_⟩
  rw [← Option.some.inj h3]
  exact (map_smul toCurve k a).symm

theorem multiExp_of (ps ss : List N) : R (small.multiExp ps ss) (guarded.multiExp (ps.map toCurve) ss) fun (r : N) (r' : Pt) => r' = toCurve r := by
  intro r hr
  obtain ⟨⟨h1, h2, h3, h4⟩, h5⟩ := if_some hr
  obtain ⟨r', h6, h7⟩ := multiExp_map _ _ none r h5
  have hs : ShamirSafe (ps.map toCurve) (ss.map ZMod.val) := by
    rw [toCurve_map]
    refine Small.shamirSafe (fun a ha => ?_) h4
    obtain ⟨k, hk, rfl⟩ := List.mem_map.1 ha
    exact of_decide_eq_true (List.all_eq_true.1 h3 k hk)
  have h8 : ps.map toCurve ≠ [] := fun h => h1 (List.map_eq_nil_iff.1 h)
  have h9 : (ps.map toCurve).length = ss.length := by rw [List.length_map]; exact h2
  exact ⟨r', (if_pos ⟨h8, h9, hs⟩).trans h6, h7⟩

/-- Where the numbers are small, the slopes can be computed. -/
noncomputable def link : Link small guarded toCurve where
  W := Unit
  le _ _ := True
  refl _ := trivial
  trans _ _ := trivial
  R _ x x' Q := R x x' (Q ())
  s _ a a' := a' = a
  p _ a a' := a' = toCurve a
  n _ a a' := a' = toCurve a
  o _ a a' := a' = toCurve a
  known _ k a a' := a = k ∧ a' = k
  s_up _ h := h
  p_up _ h := h
  n_up _ h := h
  o_up _ h := h
  n_p h := h
  p_o h := h
  known_up _ h := h
  known_s h := h.2.trans h.1.symm
  pure h := R.some h
  bind hx h := R.bind hx fun a a' ha => h () a a' trivial ha
  mono hx h := fun a e => by
    obtain ⟨a', h1, h2⟩ := hx a e
    exact ⟨a', h1, h () a a' trivial h2⟩
  panic := fun a e => by cases e
  add := by rintro w a b a' b' rfl rfl; exact R.some rfl
  sub := by rintro w a b a' b' rfl rfl; exact R.some rfl
  mul := by rintro w a b a' b' rfl rfl; exact R.some rfl
  div := by
    rintro w a b (a' : N) (b' : N) ha hb
    obtain rfl : a = a' := ha.symm
    obtain rfl : b = b' := hb.symm
    exact div_of _ _
  square := by rintro w a a' rfl; exact R.some rfl
  sumWithCoeff h := by
    have := Checked.eq_of (h.imp fun (a b : N × N) h => (Prod.ext h.1 h.2.symm : b = a))
    subst this
    exact R.some rfl
  assignZero := R.some rfl
  assignOne := R.some rfl
  assignConst k := R.some ⟨rfl, rfl⟩
  toValue h := R.some (h.1.trans h.2.symm)
  pAdd := by
    intro w (a : N) (b : N) a' b' h1 h2
    subst h1
    subst h2
    exact add_of a b
  pSub := by
    intro w (a : N) (b : N) a' b' h1 h2
    subst h1
    subst h2
    exact sub_of a b
  pAssignOne := R.some toCurve_one.symm
  pAssignConst P := R.some rfl
  normalize h := R.some h
  scalarMul := by
    intro w (k : N) k' (a : N) a' h1 h2
    subst h1
    subst h2
    exact mul_of _ a
  scalarMulConstant := by
    intro w (k : N) k' (P : N) h1
    subst h1
    exact R.some (map_smul toCurve _ P).symm
  multiExp {w ps ps' ss ss'} hp hs := by
    have e1 := Checked.map_of hp
    have e2 := Checked.eq_of hs
    subst e1
    subst e2
    exact multiExp_of _ _

theorem words : link.SameWords smallEncode guardedEncode where
  point := by
    rintro w (p : N) (p' : Pt) h
    have h : p' = toCurve p := h
    subst h
    intro l hl
    obtain ⟨⟨h1, h2⟩, h3⟩ := if_some hl
    obtain ⟨cx, cy⟩ := Small.coords_eq h1 h2
    refine ⟨l, ?_, ?_⟩
    · change some [((coordX (toCurve p)).val : N), ((coordY (toCurve p)).val : N)] = some l
      rw [toCurve_nat, cx, cy]
      exact h3
    · exact (same_list (α := N) l).imp fun _ _ h => h.symm
  scalar := by
    rintro w (s : N) (s' : N) h
    exact R.some (.cons h .nil)
  decode := by
    rintro w (s : N) (s' : N) h
    exact R.some h

theorem mulAdd : link.MulAdd := by
  rintro w (a : N) (a' : N) (b : N) (b' : N) k h h'
  have h : a' = a := h
  have h' : b' = b := h'
  subst h h'
  exact R.some rfl

/-- One byte per value: a number, or a multiple of the generator. -/
noncomputable def codec : Codec N Pt := ⟨1, 1, fun b => (codecN.point b).map toCurve, codecN.scalar⟩

theorem read_point (b : List UInt8) : codec.readPoint b = (codecN.readPoint b).map fun x => (toCurve x.1, x.2) := by
  unfold Codec.readPoint
  show (if b.length < 1 then none else (some _).bind _) = Option.map _ (if b.length < 1 then none else (some _).bind _)
  split <;> rfl

noncomputable def bytes : SameBytes link (poseidonTranscript small TinyPoseidon.deaf smallEncode) (poseidonTranscript guarded TinyPoseidon.deaf guardedEncode)
    codecN codec :=
  poseidonBytes mulAdd TinyPoseidon.deaf words (fun _ => R.some rfl) (fun _ => R.some rfl) read_point fun _ => rfl

noncomputable def targets : List Target := targetsN.map (TargetOf.map toCurve)

theorem run_guarded : ∃ l r : Pt, l ≠ 0 ∧ r ≠ 0 ∧
    aggregateTargets guarded TinyPoseidon.deaf guardedEncode codec targets = some (l, r, [(4 : N), 2], [[gen], [gen]]) := by
  obtain ⟨⟨l, r, is, cs⟩, h1, h2, h3, h4, h5⟩ := aggregateTargets_link (X := link) bytes (fun _ _ _ h => h) (fun _ => trivial) (map_zero toCurve)
    (fun _ _ => R.some rfl) (w := ()) targetsN _ run_small
  have h2 : l = toCurve 2 := h2
  have h3 : r = toCurve (-2) := h3
  have h4 : List.Forall₂ (fun a a' : N => a' = a) [4, 2] is := h4
  have h5 : List.Forall₂ (List.Forall₂ fun (a : N) (a' : Pt) => a' = toCurve a) [[1], [1]] cs := h5
  have e4 : is = [(4 : N), 2] := Checked.eq_of h4
  have e5 : cs = [[toCurve 1], [toCurve 1]] := Checked.map_of (f := List.map toCurve) (h5.imp fun _ _ h => Checked.map_of h)
  refine ⟨l, r, ?_, ?_, ?_⟩
  · rw [h2]
    exact toCurve_ne (by decide +kernel)
  · rw [h3]
    exact toCurve_ne (by decide +kernel)
  · refine h1.trans ?_
    rw [e4, e5, toCurve_one]
    rfl

/-- The hypotheses of C79 can be met. -/
example : ∃ rows ctx, (synthesize TinyPoseidon.deaf codec targets [((0, 0), (1, 0))]).1 Ctx.empty = some (rows, ctx) ∧ Sat tables ctx ctx.wit := by
  obtain ⟨l, r, hl, hr, h⟩ := run_guarded
  obtain ⟨-, rows, ctx, h1, h2, -⟩ := C79_circuit_partial h hl hr (coherent := [((0, 0), (1, 0))]) (by
    intro k hk
    rw [List.mem_singleton] at hk
    subst hk
    exact ⟨_, _, gen, rfl, rfl, rfl, rfl⟩)
  exact ⟨rows, ctx, h1, h2⟩

end Verif.Top.TinySynth
