import Verif.Sol.EvmProps

/-!
# The library `LibMulexp`: C80

`halo2-snark-aggregator-solidity/templates/lagrange.sol`. `exp` calls itself, and the frames of internal calls share the stack of the EVM; how
many fit is a parameter. `none` is a revert.
-/

namespace Verif.Sol.Mulexp
open Verif.Circuit Verif.Ecc Verif.Sol

/-- Lines 5-10. -/
def infinite : Word × Word := (0, 0)

/-- Lines 12-31, through contract 6. -/
noncomputable def add (ax ay bx by' : Word) : Option (Word × Word) := do
  let a ← g1 ax ay
  let b ← g1 bx by'
  return g1Words (a + b)

/-- Lines 33-50, when the stack has room for `frames` nested calls. -/
noncomputable def exp : ℕ → Word → Word × Word → Option (Word × Word)
  | 0, _, _ => none
  | frames + 1, scalar, base =>
    if scalar = 0 then some infinite
    else if scalar = 1 then some base
    else if scalar % 2 = 1 then do
      let s ← subChecked scalar 1
      let tmp ← exp frames s base
      add base.1 base.2 tmp.1 tmp.2
    else do
      let tmp ← add base.1 base.2 base.1 base.2
      exp frames (scalar / 2) tmp

/-- The loop of lines 61-66. -/
noncomputable def loop (frames : ℕ) : List Word → List (Word × Word) → Word × Word → Option (Word × Word)
  | [], _, acc => some acc
  | _ :: _, [], _ => none
  | s :: ss, b :: bs, acc => do
    let tmp ← exp frames s b
    let acc ← add acc.1 acc.2 tmp.1 tmp.2
    loop frames ss bs acc

/-- Lines 52-69. -/
noncomputable def multiexp (frames : ℕ) (scalars : List Word) (bases : List (Word × Word)) : Option (Word × Word) :=
  if scalars.length ≤ bases.length then loop frames scalars bases infinite else none

/-! ### Specification -/

/-- The number of nested calls for a scalar: its bits, plus its ones but the first. -/
def calls (n : ℕ) : ℕ := max 1 ((Nat.digits 2 n).length + (Nat.digits 2 n).sum - 1)

/-- What is needed of a scalar and a base, and the point the base stands for. A base that is multiplied by zero is not looked at. -/
def Good (frames : ℕ) (p : Word × (Word × Word)) (P : Pt) : Prop := calls p.1.toNat ≤ frames ∧ (p.1 ≠ 0 → p.2 = g1Words P)

/-! ### Proofs -/

theorem add_eq : add = eccAdd := rfl

theorem g1_infinite : g1 infinite.1 infinite.2 = some 0 := g1_g1Words 0

theorem calls_odd {k : ℕ} (h : 0 < k) : calls (2 * k + 1) = calls (2 * k) + 1 := by
  unfold calls
  have e1 : Nat.digits 2 (2 * k + 1) = 1 :: Nat.digits 2 k := by
    rw [add_comm, Nat.digits_add 2 (by norm_num) 1 k (by norm_num) (Or.inl (by norm_num))]
  have e2 : Nat.digits 2 (2 * k) = 0 :: Nat.digits 2 k := by
    have := Nat.digits_add 2 (by norm_num) 0 k (by norm_num) (Or.inr h.ne')
    rwa [zero_add] at this
  have h3 : 0 < (Nat.digits 2 k).length := List.length_pos_iff.2 (Nat.digits_ne_nil_iff_ne_zero.2 h.ne')
  rw [e1, e2]
  simp only [List.length_cons, List.sum_cons]
  omega

theorem calls_even {k : ℕ} (h : 0 < k) : calls (2 * k) = calls k + 1 := by
  unfold calls
  have e2 : Nat.digits 2 (2 * k) = 0 :: Nat.digits 2 k := by
    have := Nat.digits_add 2 (by norm_num) 0 k (by norm_num) (Or.inr h.ne')
    rwa [zero_add] at this
  have h3 : 0 < (Nat.digits 2 k).length := List.length_pos_iff.2 (Nat.digits_ne_nil_iff_ne_zero.2 h.ne')
  have h4 : 0 < (Nat.digits 2 k).sum := by
    by_contra h0
    have h0 : (Nat.digits 2 k).sum = 0 := by omega
    have := List.sum_eq_zero_iff.1 h0
    have hl := Nat.getLast_digit_ne_zero 2 h.ne'
    exact hl (this _ (List.getLast_mem _))
  rw [e2]
  simp only [List.length_cons, List.sum_cons]
  omega

theorem calls_pos (n : ℕ) : 1 ≤ calls n := le_max_left _ _

/-- `exp`: it returns when the calls fit and, unless the scalar is zero or one, the base is a point. -/
theorem exp_iff (d : ℕ) (s : Word) (b r : Word × Word) : exp d s b = some r ↔ calls s.toNat ≤ d ∧
    ((s = 0 ∧ r = (0, 0)) ∨ (s = 1 ∧ r = b) ∨ (s ≠ 0 ∧ s ≠ 1 ∧ ∃ P, b = g1Words P ∧ r = g1Words (s.toNat • P))) := by
  induction d generalizing s b r with
  | zero =>
    have := calls_pos s.toNat
    constructor
    · rintro ⟨⟩
    · rintro ⟨h, -⟩
      omega
  | succ d ih =>
    rw [exp]
    by_cases h0 : s = 0
    · subst h0
      have hc : calls (0 : Word).toNat ≤ d + 1 := by
        show calls 0 ≤ d + 1
        simp [calls]
      simp only [if_true, Option.some.injEq, true_and, ne_eq, not_true_eq_false, false_and, or_false, hc]
      constructor
      · rintro rfl
        exact Or.inl rfl
      · rintro (rfl | ⟨h, -⟩)
        · rfl
        · exact absurd h (by decide)
    rw [if_neg h0]
    by_cases h1 : s = 1
    · subst h1
      have hc : calls (1 : Word).toNat ≤ d + 1 := by
        show calls 1 ≤ d + 1
        simp [calls]
      simp only [if_true, Option.some.injEq, ne_eq, not_true_eq_false, false_and, and_false, or_false, hc, true_and, h0, false_or]
      exact eq_comm
    rw [if_neg h1]
    have hn0 : s.toNat ≠ 0 := fun h => h0 (BitVec.eq_of_toNat_eq h)
    have hn1 : s.toNat ≠ 1 := fun h => h1 (BitVec.eq_of_toNat_eq h)
    simp only [h0, h1, false_and, false_or, ne_eq, not_false_eq_true, true_and]
    by_cases h2 : s % 2 = 1
    · rw [if_pos h2]
      have hm : s.toNat % 2 = 1 := by
        have := congrArg BitVec.toNat h2
        simpa [BitVec.toNat_umod] using this
      obtain ⟨k, hk⟩ : ∃ k, s.toNat = 2 * k + 1 := ⟨s.toNat / 2, by omega⟩
      have hk0 : 0 < k := by omega
      obtain ⟨e1, e2⟩ := subChecked_some (a := s) (b := 1) (by show 1 ≤ s.toNat; omega)
      replace e2 : (s - 1).toNat = 2 * k := by
        rw [e2, hk]
        rfl
      rw [e1]
      simp only [Option.bind_eq_bind, Option.bind_some, Option.bind_eq_some_iff, ih, e2, hk, calls_odd hk0, Nat.add_le_add_iff_right]
      have hs0 : ¬ (s - 1 = 0) := fun h => by rw [h] at e2; exact absurd e2 (by show ¬ 0 = _; omega)
      have hs1 : ¬ (s - 1 = 1) := fun h => by rw [h] at e2; exact absurd e2 (by show ¬ 1 = _; omega)
      simp only [ne_eq, hs0, hs1, false_and, false_or, not_false_eq_true, true_and]
      constructor
      · rintro ⟨t, ⟨hc, P, rfl, rfl⟩, h⟩
        rw [add_eq, C71_add] at h
        cases h
        exact ⟨hc, P, rfl, by rw [succ_nsmul, add_comm]⟩
      · rintro ⟨hc, P, rfl, rfl⟩
        exact ⟨_, ⟨hc, P, rfl, rfl⟩, by rw [add_eq, C71_add, succ_nsmul, add_comm]⟩
    · rw [if_neg h2]
      have hm : s.toNat % 2 = 0 := by
        have : s.toNat % 2 ≠ 1 := fun h => h2 (BitVec.eq_of_toNat_eq (by rw [BitVec.toNat_umod]; exact h))
        omega
      obtain ⟨k, hk⟩ : ∃ k, s.toNat = 2 * k := ⟨s.toNat / 2, by omega⟩
      have hk0 : 0 < k := by omega
      have e2 : (s / 2).toNat = k := by
        rw [BitVec.toNat_udiv, hk]
        show 2 * k / 2 = k
        omega
      simp only [Option.bind_eq_bind, Option.bind_eq_some_iff, ih, e2, hk, calls_even hk0, Nat.add_le_add_iff_right]
      have hs0 : ¬ (s / 2 = 0) := fun h => by rw [h] at e2; exact absurd e2 (by show ¬ 0 = _; omega)
      simp only [ne_eq, hs0, false_and, false_or, not_false_eq_true, true_and]
      constructor
      · rintro ⟨t, ht, hc, h⟩
        obtain ⟨P, hP⟩ : ∃ P, g1 b.1 b.2 = some P := by
          cases hg : g1 b.1 b.2 with
          | none =>
            rw [add_eq, C71_add_reverts.2 (Or.inl hg)] at ht
            cases ht
          | some P => exact ⟨P, rfl⟩
        have hb : b = g1Words P := g1_iff.1 hP
        subst hb
        rw [add_eq, C71_add] at ht
        cases ht
        refine ⟨hc, P, rfl, ?_⟩
        rcases h with ⟨h, rfl⟩ | ⟨-, Q, hQ, rfl⟩
        · rw [h] at e2
          obtain rfl : 1 = k := e2
          rw [mul_one, two_nsmul]
        · have : P + P = Q := Option.some.inj (by rw [← g1_g1Words (P + P), hQ, g1_g1Words])
          rw [← this, mul_comm, mul_nsmul', two_nsmul]
      · rintro ⟨hc, P, rfl, rfl⟩
        refine ⟨_, by rw [add_eq, C71_add], hc, ?_⟩
        by_cases h : s / 2 = 1
        · rw [h] at e2
          obtain rfl : 1 = k := e2
          exact Or.inl ⟨h, by rw [mul_one, two_nsmul]⟩
        · exact Or.inr ⟨h, _, rfl, by rw [mul_comm, mul_nsmul', two_nsmul]⟩

theorem loop_iff (d : ℕ) (ss : List Word) (bs : List (Word × Word)) (A : Pt) (r : Word × Word) (hl : ss.length ≤ bs.length) :
    loop d ss bs (g1Words A) = some r ↔ ∃ Ps, List.Forall₂ (Good d) (ss.zip bs) Ps ∧
      r = g1Words (A + (List.zipWith (fun s P => s.toNat • P) ss Ps).sum) := by
  induction ss generalizing bs A r with
  | nil =>
    rw [loop, List.zip_nil_left]
    constructor
    · intro h
      cases h
      exact ⟨[], .nil, by simp⟩
    · rintro ⟨Ps, h, rfl⟩
      cases h
      simp
  | cons s ss ih =>
    obtain ⟨b, bs, rfl⟩ : ∃ b bs', bs = b :: bs' := by
      cases bs with
      | nil => simp at hl
      | cons b bs => exact ⟨b, bs, rfl⟩
    have hl' : ss.length ≤ bs.length := by simpa using hl
    rw [loop, List.zip_cons_cons]
    constructor
    · intro h
      obtain ⟨t, ht, h⟩ := Option.bind_eq_some_iff.1 h
      obtain ⟨acc, ha, h⟩ := Option.bind_eq_some_iff.1 h
      obtain ⟨hc, ht'⟩ := (exp_iff ..).1 ht
      clear ht
      obtain ⟨P, hP⟩ : ∃ P, g1 t.1 t.2 = some P := by
        cases hg : g1 t.1 t.2 with
        | none =>
          rw [add_eq, C71_add_reverts.2 (Or.inr hg)] at ha
          cases ha
        | some P => exact ⟨P, rfl⟩
      have hb : t = g1Words P := g1_iff.1 hP
      subst hb
      rw [add_eq, C71_add] at ha
      cases ha
      obtain ⟨Ps, hPs, rfl⟩ := (ih bs _ _ hl').1 h
      have : ∃ Q, Good d (s, b) Q ∧ s.toNat • Q = P := by
        rcases ht' with ⟨rfl, ht⟩ | ⟨rfl, ht⟩ | ⟨-, -, Q, hQ, ht⟩
        · refine ⟨0, ⟨hc, fun h => absurd rfl h⟩, ?_⟩
          have : g1Words P = g1Words 0 := ht
          rw [nsmul_zero]
          exact Option.some.inj (by rw [← g1_g1Words 0, ← this, g1_g1Words])
        · exact ⟨P, ⟨hc, fun _ => ht.symm⟩, one_nsmul P⟩
        · exact ⟨Q, ⟨hc, fun _ => hQ⟩, Option.some.inj (by rw [← g1_g1Words (_ • Q), ← ht, g1_g1Words])⟩
      obtain ⟨Q, hQ, rfl⟩ := this
      exact ⟨Q :: Ps, .cons hQ hPs, by rw [List.zipWith_cons_cons, List.sum_cons, add_assoc]⟩
    · rintro ⟨Ps, h, rfl⟩
      obtain ⟨Q, Qs, hQ, hQs, rfl⟩ := List.forall₂_cons_left_iff.1 h
      obtain ⟨hc, hb⟩ := hQ
      have he : exp d s b = some (g1Words (s.toNat • Q)) := by
        rw [exp_iff]
        refine ⟨hc, ?_⟩
        by_cases h0 : s = 0
        · subst h0
          exact Or.inl ⟨rfl, by rw [show (0 : Word).toNat = 0 from rfl, zero_nsmul]; rfl⟩
        by_cases h1 : s = 1
        · subst h1
          exact Or.inr (Or.inl ⟨rfl, by rw [show (1 : Word).toNat = 1 from rfl, one_nsmul]; exact (hb h0).symm⟩)
        · exact Or.inr (Or.inr ⟨h0, h1, Q, hb h0, rfl⟩)
      rw [he]
      show (add _ _ _ _).bind _ = _
      rw [add_eq, C71_add]
      show loop d ss bs _ = _
      rw [List.zipWith_cons_cons, List.sum_cons, ← add_assoc]
      exact (ih bs _ _ hl').2 ⟨Qs, hQs, rfl⟩

/-- C80: `multiexp` returns exactly when there are enough bases, every base that is multiplied by a scalar other than zero encodes a point and the
calls fit on the stack; the result encodes the sum of the multiples. -/
theorem C80_multiexp (frames : ℕ) (ss : List Word) (bs : List (Word × Word)) (r : Word × Word) : multiexp frames ss bs = some r ↔
    ss.length ≤ bs.length ∧ ∃ Ps, List.Forall₂ (Good frames) (ss.zip bs) Ps ∧ r = g1Words ((List.zipWith (fun s P => s.toNat • P) ss Ps).sum) := by
  unfold multiexp
  split
  · next h =>
    have := loop_iff frames ss bs 0 r h
    simp only [zero_add] at this
    rw [show infinite = g1Words 0 from rfl, this]
    simp [h]
  · next h => simp [h]

theorem digits_bound {n : ℕ} (h : n < 2 ^ 256) : (Nat.digits 2 n).length ≤ 256 ∧ (Nat.digits 2 n).sum ≤ (Nat.digits 2 n).length := by
  constructor
  · rw [Nat.digits_length_le_iff (by norm_num)]
    exact h
  · have hd : ∀ x ∈ Nat.digits 2 n, x ≤ 1 := fun x hx => by
      have := Nat.digits_lt_base (by norm_num : 1 < 2) hx
      omega
    generalize Nat.digits 2 n = l at hd
    induction l with
    | nil => simp
    | cons a l ih =>
      have h1 := hd a (by simp)
      have h2 := ih fun x hx => hd x (by simp [hx])
      simp only [List.sum_cons, List.length_cons]
      omega

/-- No scalar needs more than 511 nested calls. -/
theorem calls_le (s : Word) : calls s.toNat ≤ 511 := by
  obtain ⟨h1, h2⟩ := digits_bound s.isLt
  unfold calls
  omega

/-- C80, with room for 511 calls: on points, any scalars, at least as many bases. -/
theorem C80_points {frames : ℕ} (hf : 511 ≤ frames) (ss : List Word) (Ps : List Pt) (h : ss.length ≤ Ps.length) :
    multiexp frames ss (Ps.map g1Words) = some (g1Words ((List.zipWith (fun s P => s.toNat • P) ss Ps).sum)) := by
  rw [C80_multiexp]
  refine ⟨by simpa using h, Ps.take ss.length, ?_, ?_⟩
  · induction ss generalizing Ps with
    | nil => exact .nil
    | cons s ss ih =>
      cases Ps with
      | nil => simp at h
      | cons P Ps =>
        simp only [List.map_cons, List.zip_cons_cons, List.length_cons, List.take_succ_cons]
        exact .cons ⟨(calls_le s).trans hf, fun _ => rfl⟩ (ih Ps (by simpa using h))
  · congr 2
    induction ss generalizing Ps with
    | nil => simp
    | cons s ss ih =>
      cases Ps with
      | nil => simp at h
      | cons P Ps =>
        simp only [List.zipWith_cons_cons, List.length_cons, List.take_succ_cons]
        rw [ih Ps (by simpa using h)]

/-- C80: 511 calls are needed, for the word of all ones; with less room the call reverts. -/
theorem C80_deep (frames : ℕ) (P : Pt) (h : frames < 511) : multiexp frames [BitVec.allOnes 256] [g1Words P] = none := by
  have hc : calls (BitVec.allOnes 256).toNat = 511 := by
    rw [BitVec.toNat_allOnes]
    decide +kernel
  rw [Option.eq_none_iff_forall_ne_some]
  intro r hr
  obtain ⟨-, Ps, hPs, -⟩ := (C80_multiexp ..).1 hr
  rw [List.zip_cons_cons, List.zip_nil_left] at hPs
  obtain ⟨Q, Qs, ⟨hQ, -⟩, -⟩ := List.forall₂_cons_left_iff.1 hPs
  rw [hc] at hQ
  omega

/-- `2 G + 3 G = 5 G`; the third base is no point and is not used. -/
example : multiexp 511 [2, 3, 0] [g1Words gen, g1Words gen, (5, 5)] = some (g1Words (2 • gen + 3 • gen)) := by
  rw [C80_multiexp]
  refine ⟨by decide, [gen, gen, 0], .cons ⟨calls_le 2, fun _ => rfl⟩ (.cons ⟨calls_le 3, fun _ => rfl⟩ (.cons ⟨calls_le 0, fun h => absurd rfl h⟩ .nil)), ?_⟩
  simp only [List.zipWith_cons_cons, List.zipWith_nil_left, List.sum_cons, List.sum_nil, add_zero, nsmul_zero]
  rfl

end Verif.Sol.Mulexp
