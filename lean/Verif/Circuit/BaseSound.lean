import Verif.Circuit.Logic

/-!
# Soundness lemmas for the native gate (helper lemmas; the property theorems are in `BaseProps.lean`)
-/

set_option linter.unusedSimpArgs false

namespace Verif.Circuit

variable {F : Type} [Field F] {t : Tables}

/-- Unfold a row condition for a concrete list of pairs. -/
macro "line_simp" : tactic =>
  `(tactic| simp [rowHolds, copyHolds, gateEval, mkRow, AV.val, *] at *)

theorem Spec.mul (a b : AV F) :
    Spec t (mul a b) (fun adv r => r.val adv = a.val adv * b.val adv) := by
  unfold Circuit.mul
  refine ((Spec.oneLine ..).bind (fun cells => Spec.pure _)).mono ?_
  rintro adv r ⟨cells, ⟨i, hc, hg, -, h0, h1, -, -, -⟩, rfl⟩
  line_simp
  grind

theorem Spec.mulAddConstant (a b : AV F) (c : F) :
    Spec t (mulAddConstant a b c) (fun adv r => r.val adv = a.val adv * b.val adv + c) := by
  unfold Circuit.mulAddConstant
  refine ((Spec.oneLine ..).bind (fun cells => Spec.pure _)).mono ?_
  rintro adv r ⟨cells, ⟨i, hc, hg, -, h0, h1, -, -, -⟩, rfl⟩
  line_simp
  grind

theorem Spec.mulAdd (a b c : AV F) (k : F) :
    Spec t (mulAdd a b c k) (fun adv r => r.val adv = a.val adv * b.val adv + k * c.val adv) := by
  unfold Circuit.mulAdd
  refine ((Spec.oneLine ..).bind (fun cells => Spec.pure _)).mono ?_
  rintro adv r ⟨cells, ⟨i, hc, hg, -, h0, h1, h2, -, -⟩, rfl⟩
  line_simp
  grind

theorem Spec.mulAdd2 (a b c : AV F) (k : F) (d : AV F) (l : F) :
    Spec t (mulAdd2 a b c k d l)
      (fun adv r => r.val adv = a.val adv * b.val adv + k * c.val adv + l * d.val adv) := by
  unfold Circuit.mulAdd2
  refine ((Spec.oneLine ..).bind (fun cells => Spec.pure _)).mono ?_
  rintro adv r ⟨cells, ⟨i, hc, hg, -, h0, h1, h2, h3, -⟩, rfl⟩
  line_simp
  grind

theorem Spec.assignConstant (v : F) : Spec t (assignConstant v) (fun adv r => r.val adv = v) := by
  unfold Circuit.assignConstant oneLineAdd
  refine ((Spec.oneLine ..).bind (fun cells => Spec.pure _)).mono ?_
  rintro adv r ⟨cells, ⟨i, hc, hg, -, -, -, -, -, -⟩, rfl⟩
  line_simp
  grind

theorem Spec.assign (v : F) : Spec t (assign v) (fun _ _ => True) := by
  unfold Circuit.assign oneLineAdd
  refine ((Spec.oneLine ..).bind (fun cells => Spec.pure _)).mono ?_
  intros; trivial

theorem Spec.assertEqual (a b : AV F) :
    Spec t (assertEqual a b) (fun adv _ => a.val adv = b.val adv) := by
  unfold Circuit.assertEqual oneLineAdd
  refine ((Spec.oneLine ..).bind (fun cells => Spec.pure _)).mono ?_
  rintro adv r ⟨cells, ⟨i, hc, hg, -, h0, h1, -, -, -⟩, -⟩
  line_simp
  grind

theorem Spec.assertConstant (a : AV F) (b : F) :
    Spec t (assertConstant a b) (fun adv _ => a.val adv = b) := by
  unfold Circuit.assertConstant oneLineAdd
  refine ((Spec.oneLine ..).bind (fun cells => Spec.pure _)).mono ?_
  rintro adv r ⟨cells, ⟨i, hc, hg, -, h0, -, -, -, -⟩, -⟩
  line_simp
  grind

theorem Spec.assertBit (a : AV F) :
    Spec t (assertBit a) (fun adv _ => a.val adv = 0 ∨ a.val adv = 1) := by
  unfold Circuit.assertBit
  refine ((Spec.oneLine ..).bind (fun cells => Spec.pure _)).mono ?_
  rintro adv r ⟨cells, ⟨i, hc, hg, -, h0, h1, -, -, -⟩, -⟩
  line_simp
  rw [h1] at h0 ⊢
  have : adv i 1 * (adv i 1 - 1) = 0 := by rw [← h0] at hg; linear_combination -hg
  rcases mul_eq_zero.1 this with h | h
  · exact Or.inl h
  · exact Or.inr (by linear_combination h)

theorem Spec.or (a b : AV F) :
    Spec t (or a b) (fun adv r => r.val adv = a.val adv + b.val adv - a.val adv * b.val adv) := by
  unfold Circuit.or
  refine ((Spec.oneLine ..).bind (fun cells => Spec.pure _)).mono ?_
  rintro adv r ⟨cells, ⟨i, hc, hg, -, h0, h1, -, -, -⟩, rfl⟩
  line_simp
  grind

theorem Spec.xor (a b : AV F) :
    Spec t (xor a b) (fun adv r => r.val adv = a.val adv + b.val adv - 2 * (a.val adv * b.val adv)) := by
  unfold Circuit.xor
  refine ((Spec.oneLine ..).bind (fun cells => Spec.pure _)).mono ?_
  rintro adv r ⟨cells, ⟨i, hc, hg, -, h0, h1, -, -, -⟩, rfl⟩
  line_simp
  grind

theorem Spec.xnor (a b : AV F) :
    Spec t (xnor a b)
      (fun adv r => r.val adv = 1 - a.val adv - b.val adv + 2 * (a.val adv * b.val adv)) := by
  unfold Circuit.xnor
  refine ((Spec.oneLine ..).bind (fun cells => Spec.pure _)).mono ?_
  rintro adv r ⟨cells, ⟨i, hc, hg, -, h0, h1, -, -, -⟩, rfl⟩
  line_simp
  grind

theorem Spec.bisec (c a b : AV F) :
    Spec t (bisec c a b)
      (fun adv r => r.val adv = c.val adv * a.val adv + (1 - c.val adv) * b.val adv) := by
  unfold Circuit.bisec
  refine ((Spec.oneLine ..).bind (fun cells => Spec.pure _)).mono ?_
  rintro adv r ⟨cells, ⟨i, hc, hg, -, h0, h1, h2, h3, -⟩, rfl⟩
  simp [copyHolds, gateEval, mkRow, AV.val, hc] at *
  rw [h0] at h2
  rw [h0, h1, h3]
  rw [← h2] at hg
  linear_combination -hg

section
variable [DecidableEq F]
set_option linter.unusedSectionVars false

theorem Spec.invertUnsafe (a : AV F) :
    Spec t (invertUnsafe a) (fun adv r => a.val adv * r.val adv = 1) := by
  unfold Circuit.invertUnsafe
  refine ((Spec.assertM _).bind
    (fun _ => (Spec.oneLine ..).bind (fun cells => Spec.pure _))).mono ?_
  rintro adv r ⟨-, -, cells, ⟨i, hc, hg, -, h0, -, -, -, -⟩, rfl⟩
  line_simp
  grind

theorem Spec.invert (a : AV F) :
    Spec t (invert a) (fun adv r => a.val adv * r.1.val adv = 0 ∧
      a.val adv * r.2.val adv + r.1.val adv = 1) := by
  unfold Circuit.invert
  refine ((Spec.oneLine ..).bind
    (fun c1 => (Spec.oneLine ..).bind (fun cells => Spec.pure _))).mono ?_
  rintro adv r ⟨c1, ⟨i, hc, hg, -, h0, -, -, -, -⟩, c2, ⟨i2, hc2, hg2, -, k0, -, k2, -, -⟩, rfl⟩
  simp [copyHolds, gateEval, mkRow, AV.val, hc, hc2] at *
  refine ⟨?_, ?_⟩
  · rw [← k2, h0]
    simpa using hg
  · rw [k0]
    linear_combination hg2

/-- The zero flag as a field element (specification). -/
def zeroFlag (x : F) : F := if x = 0 then 1 else 0

theorem flag_of_invert {a b c : F} (h1 : a * c = 0) (h2 : a * b + c = 1) : c = zeroFlag a := by
  unfold zeroFlag
  split
  · next h => subst h; simpa using h2
  · next h => exact (mul_eq_zero.1 h1).resolve_left h

theorem Spec.isZero (a : AV F) :
    Spec t (isZero a) (fun adv r => r.val adv = zeroFlag (a.val adv)) := by
  unfold Circuit.isZero
  refine ((Spec.invert a).bind (Q := fun p _ r => r = p.1) (fun p => ?_)).mono ?_
  · exact Spec.pure p.1
  · rintro adv r ⟨p, ⟨h1, h2⟩, rfl⟩
    exact flag_of_invert h1 h2

theorem Spec.divUnsafe (a b : AV F) :
    Spec t (divUnsafe a b) (fun adv r => b.val adv * r.val adv = a.val adv) := by
  unfold Circuit.divUnsafe
  refine ((Spec.assertM _).bind
    (fun _ => (Spec.oneLine ..).bind (fun cells => Spec.pure _))).mono ?_
  rintro adv r ⟨-, -, cells, ⟨i, hc, hg, -, h0, -, h2, -, -⟩, rfl⟩
  line_simp
  grind

end

/-! ### Sums -/

theorem wsum_nil (adv : Advice F) : wsum adv [] = 0 := by simp [wsum]

theorem wsum_cons (adv : Advice F) (p : AV F × F) (l : List (AV F × F)) :
    wsum adv (p :: l) = p.2 * p.1.val adv + wsum adv l := by simp [wsum]

theorem wsum_append (adv : Advice F) (l₁ l₂ : List (AV F × F)) :
    wsum adv (l₁ ++ l₂) = wsum adv l₁ + wsum adv l₂ := by simp [wsum]

theorem list_len4 {α : Type} {l : List α} (h : l.length = 4) : ∃ a b c d, l = [a, b, c, d] := by
  match l, h with
  | [a, b, c, d], _ => exact ⟨a, b, c, d, rfl⟩

theorem list_len5 {α : Type} {l : List α} (h : l.length = 5) : ∃ a b c d e, l = [a, b, c, d, e] := by
  match l, h with
  | [a, b, c, d, e], _ => exact ⟨a, b, c, d, e, rfl⟩

theorem sumLoop_sound (elems : List (AV F × F)) : ∀ (acc constant : F) (ctx ctx' : Ctx F) (r : AV F),
    sumLoop acc elems constant ctx = some (r, ctx') → ∀ adv, Sat t ctx' adv →
      Sat t ctx adv ∧ r.val adv = constant + wsum adv elems + adv ctx.offset 4 := by
  induction hn : elems.length using Nat.strong_induction_on generalizing elems with
  | _ n ih =>
    intro acc constant ctx ctx' r h adv hs
    rw [sumLoop.eq_1] at h
    split at h
    · next hlen =>
      simp only [Bind.bind, StateT.bind, Option.bind_eq_some_iff] at h
      obtain ⟨⟨c1, ctx1⟩, h1, h2⟩ := h
      obtain ⟨hs1, hr⟩ := ih (elems.drop 4).length (by simp; omega) (elems.drop 4) rfl _ _ _ _ _ h2 adv hs
      obtain ⟨-, h1⟩ := oneLineWithLastBase_run h1
      obtain ⟨-, hoff, hrow⟩ := oneLineSel_run h1
      obtain ⟨hs0, hg, -, k0, k1, k2, k3, -⟩ := hrow t adv hs1
      refine ⟨hs0, ?_⟩
      obtain ⟨a, b, c, d, htake⟩ := list_len4 (l := elems.take 4) (by simp; omega)
      rw [hr, hoff]
      conv_rhs => rw [← List.take_append_drop 4 elems, wsum_append, htake]
      rw [htake] at hg k0 k1 k2 k3
      simp [copyHolds, gateEval, mkRow, assignedPairs, resizePairs, AV.val, wsum_cons, wsum_nil] at *
      rw [k0, k1, k2, k3]
      linear_combination -hg
    · next hlen =>
      simp only [Bind.bind, StateT.bind, Option.bind_eq_some_iff] at h
      obtain ⟨⟨c1, ctx1⟩, h1, h2⟩ := h
      simp only [Pure.pure, StateT.pure, Option.some.injEq, Prod.mk.injEq] at h2
      obtain ⟨rfl, rfl⟩ := h2
      obtain ⟨-, h1⟩ := oneLineWithLastBase_run h1
      obtain ⟨hc, hoff, hrow⟩ := oneLineSel_run h1
      obtain ⟨hs0, hg, -, k0, k1, k2, k3, k4⟩ := hrow t adv hs
      refine ⟨hs0, ?_⟩
      have hcases : elems.length = 0 ∨ elems.length = 1 ∨ elems.length = 2 ∨ elems.length = 3 := by omega
      match elems, hcases with
      | [], _ =>
        simp [copyHolds, gateEval, mkRow, assignedPairs, resizePairs, AV.val, wsum_cons, wsum_nil, hc] at *
        linear_combination -hg
      | [a], _ =>
        simp [copyHolds, gateEval, mkRow, assignedPairs, resizePairs, AV.val, wsum_cons, wsum_nil, hc] at *
        rw [k1]
        linear_combination -hg
      | [a, b], _ =>
        simp [copyHolds, gateEval, mkRow, assignedPairs, resizePairs, AV.val, wsum_cons, wsum_nil, hc] at *
        rw [k1, k2]
        linear_combination -hg
      | [a, b, c], _ =>
        simp [copyHolds, gateEval, mkRow, assignedPairs, resizePairs, AV.val, wsum_cons, wsum_nil, hc] at *
        rw [k1, k2, k3]
        linear_combination -hg

theorem Spec.sumWithConstant (elems : List (AV F × F)) (constant : F) :
    Spec t (sumWithConstant elems constant)
      (fun adv r => r.val adv = constant + wsum adv elems) := by
  constructor
  intro ctx r ctx' h adv hs
  unfold Circuit.sumWithConstant at h
  split at h
  · next hlen =>
    simp only [Bind.bind, StateT.bind, Option.bind_eq_some_iff] at h
    obtain ⟨⟨c1, ctx1⟩, h1, h2⟩ := h
    obtain ⟨hs1, hr⟩ := sumLoop_sound _ _ _ _ _ _ h2 adv hs
    obtain ⟨-, hoff, hrow⟩ := oneLineSel_run h1
    obtain ⟨hs0, hg, -, k0, k1, k2, k3, k4⟩ := hrow t adv hs1
    refine ⟨hs0, ?_⟩
    obtain ⟨a, b, c, d, e, htake⟩ := list_len5 (l := elems.take 5) (by simp; omega)
    rw [hr, hoff]
    conv_rhs => rw [← List.take_append_drop 5 elems, wsum_append, htake]
    rw [htake] at hg k0 k1 k2 k3 k4
    simp [copyHolds, gateEval, mkRow, assignedPairs, AV.val, wsum_cons, wsum_nil] at *
    rw [k0, k1, k2, k3, k4]
    linear_combination -hg
  · next hlen =>
    simp only [Bind.bind, StateT.bind, Option.bind_eq_some_iff] at h
    obtain ⟨⟨c1, ctx1⟩, h1, h2⟩ := h
    simp only [Pure.pure, StateT.pure, Option.some.injEq, Prod.mk.injEq] at h2
    obtain ⟨rfl, rfl⟩ := h2
    obtain ⟨hc, hoff, hrow⟩ := oneLineSel_run h1
    obtain ⟨hs0, hg, -, k0, k1, k2, k3, k4⟩ := hrow t adv hs
    refine ⟨hs0, ?_⟩
    have hcases : elems.length ≤ 4 := by omega
    match elems, hcases with
    | [], _ =>
      simp [copyHolds, gateEval, mkRow, assignedPairs, AV.val, wsum_cons, wsum_nil, hc] at *
      linear_combination -hg
    | [a], _ =>
      simp [copyHolds, gateEval, mkRow, assignedPairs, AV.val, wsum_cons, wsum_nil, hc] at *
      rw [k1]
      linear_combination -hg
    | [a, b], _ =>
      simp [copyHolds, gateEval, mkRow, assignedPairs, AV.val, wsum_cons, wsum_nil, hc] at *
      rw [k1, k2]
      linear_combination -hg
    | [a, b, c], _ =>
      simp [copyHolds, gateEval, mkRow, assignedPairs, AV.val, wsum_cons, wsum_nil, hc] at *
      rw [k1, k2, k3]
      linear_combination -hg
    | [a, b, c, d], _ =>
      simp [copyHolds, gateEval, mkRow, assignedPairs, AV.val, wsum_cons, wsum_nil, hc] at *
      rw [k1, k2, k3, k4]
      linear_combination -hg

theorem Spec.add (a b : AV F) : Spec t (add a b) (fun adv r => r.val adv = a.val adv + b.val adv) :=
  (Spec.sumWithConstant _ _).mono fun adv r h => by rw [h]; simp [wsum]

theorem Spec.addConstant (a : AV F) (c : F) :
    Spec t (addConstant a c) (fun adv r => r.val adv = a.val adv + c) :=
  (Spec.sumWithConstant _ _).mono fun adv r h => by rw [h]; simp [wsum]; ring

theorem Spec.sub (a b : AV F) : Spec t (sub a b) (fun adv r => r.val adv = a.val adv - b.val adv) :=
  (Spec.sumWithConstant _ _).mono fun adv r h => by rw [h]; simp [wsum]; ring

theorem Spec.not (a : AV F) : Spec t (not a) (fun adv r => r.val adv = 1 - a.val adv) :=
  (Spec.sumWithConstant _ _).mono fun adv r h => by rw [h]; simp [wsum]; ring

/-! ### Multiply-accumulate -/

/-- Specification of a multiply-accumulate. -/
def termsSum (adv : Advice F) (l : List (MulTerm F)) : F :=
  (l.map fun x => x.a.val adv * x.b.val adv + x.coeff * x.c.val adv).sum

theorem Spec.mulAddFold (l : List (MulTerm F)) : ∀ acc : AV F,
    Spec t (mulAddFold acc l) (fun adv r => r.val adv = acc.val adv + termsSum adv l) := by
  induction l with
  | nil =>
    intro acc
    refine (Spec.pure acc).mono ?_
    rintro adv r rfl
    simp [termsSum]
  | cons x xs ih =>
    intro acc
    refine ((Spec.mulAdd2 ..).bind (fun a => ih a)).mono ?_
    rintro adv r ⟨a, ha, hr⟩
    rw [hr, ha]
    simp only [termsSum, List.map_cons, List.sum_cons]
    ring

theorem Spec.mulAddWithNextLine (l : List (MulTerm F)) :
    Spec t (mulAddWithNextLine l) (fun adv r => r.val adv = termsSum adv l) := by
  cases l with
  | nil => exact (Spec.unwrapM none).mono (by intro _ _ h; cases h)
  | cons x xs =>
    refine ((Spec.mulAdd ..).bind (fun a => Spec.mulAddFold xs a)).mono ?_
    rintro adv r ⟨a, ha, hr⟩
    rw [hr, ha]
    simp only [termsSum, List.map_cons, List.sum_cons]

end Verif.Circuit
