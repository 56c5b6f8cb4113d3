import Verif.Sol.Evm

/-!
# What the helper functions of the contract compute: C38, C50, C71
-/

namespace Verif.Sol
open Verif.Circuit Verif.Ecc

/-! ### `fr_reverse` -/

/-- Swapping neighbours of `k` bits exchanges the bits `i` and `i ^ k`. -/
theorem swap_bit {k : ℕ} {m1 m2 : Word} (hk : 0 < k)
    (h : ∀ i, i < 256 → m1.getLsbD i = decide (k ≤ i % (2 * k)) ∧ m2.getLsbD i = decide (i % (2 * k) < k))
    (h2 : 256 % (2 * k) = 0) (v : Word) {i : ℕ} (hi : i < 256) :
    (((v &&& m1) >>> k) ||| ((v &&& m2) <<< k)).getLsbD i = v.getLsbD (if i % (2 * k) < k then i + k else i - k) := by
  have hd := Nat.div_add_mod i (2 * k)
  have hm := Nat.mod_lt i (show 0 < 2 * k by omega)
  rw [BitVec.getLsbD_or, BitVec.getLsbD_ushiftRight, BitVec.getLsbD_and, BitVec.getLsbD_shiftLeft, BitVec.getLsbD_and]
  split
  · next hlt =>
    have h256 := Nat.div_add_mod 256 (2 * k)
    have hq : i / (2 * k) < 256 / (2 * k) := by
      by_contra hc
      have := Nat.mul_le_mul_left (2 * k) (not_lt.1 hc)
      omega
    have hq' := Nat.mul_le_mul_left (2 * k) (Nat.succ_le_of_lt hq)
    have hik : k + i < 256 := by
      rw [Nat.succ_eq_add_one, Nat.mul_add] at hq'
      omega
    have e1 : (k + i) % (2 * k) = k + i % (2 * k) := by
      have : k + i = (k + i % (2 * k)) + 2 * k * (i / (2 * k)) := by omega
      rw [this, Nat.add_mul_mod_self_left, Nat.mod_eq_of_lt (by omega)]
    rw [(h _ hik).1, e1]
    have : ¬ (k ≤ i ∧ (i - k) % (2 * k) < k) := by
      rintro ⟨hki, hc⟩
      have hq0 : 0 < i / (2 * k) := by
        by_contra h0
        have : i / (2 * k) = 0 := Nat.eq_zero_of_not_pos h0
        rw [this] at hd
        omega
      obtain ⟨q, hq⟩ : ∃ q, i / (2 * k) = q + 1 := ⟨i / (2 * k) - 1, by omega⟩
      rw [hq] at hd
      have : i - k = (k + i % (2 * k)) + 2 * k * q := by
        rw [Nat.mul_add] at hd
        omega
      rw [this, Nat.add_mul_mod_self_left, Nat.mod_eq_of_lt (by omega)] at hc
      omega
    by_cases hki : k ≤ i
    · rw [(h (i - k) (by omega)).2]
      simp [show ¬ ((i - k) % (2 * k) < k) from fun hc => this ⟨hki, hc⟩, Nat.add_comm]
    · simp [show i < k by omega, Nat.add_comm]
  · next hge =>
    have hki : k ≤ i := by
      have := Nat.mod_le i (2 * k)
      omega
    have e2 : (i - k) % (2 * k) = i % (2 * k) - k := by
      have : i - k = (i % (2 * k) - k) + 2 * k * (i / (2 * k)) := by omega
      rw [this, Nat.add_mul_mod_self_left, Nat.mod_eq_of_lt (by omega)]
    rw [(h (i - k) (by omega)).2, e2]
    have : (m1.getLsbD (k + i)) = false := by
      by_cases hlt : k + i < 256
      · rw [(h _ hlt).1]
        have : k + i = (i % (2 * k) - k) + 2 * k * (i / (2 * k) + 1) := by rw [Nat.mul_add]; omega
        rw [this, Nat.add_mul_mod_self_left, Nat.mod_eq_of_lt (by omega)]
        simp
        omega
      · exact BitVec.getLsbD_of_ge _ _ (by omega)
    rw [this]
    simp [hi, show ¬ i < k by omega, show i % (2 * k) - k < k by omega]

theorem mask_table (m1 m2 : Word) (k : ℕ) (h : ((List.range 256).all fun i => m1.getLsbD i = decide (k ≤ i % (2 * k)) &&
    decide (m2.getLsbD i = decide (i % (2 * k) < k))) = true) :
    ∀ i, i < 256 → m1.getLsbD i = decide (k ≤ i % (2 * k)) ∧ m2.getLsbD i = decide (i % (2 * k) < k) := by
  intro i hi
  have := List.all_eq_true.1 h i (List.mem_range.2 hi)
  simpa using this

theorem frReverse_bit (v : Word) {b j : ℕ} (hb : b < 32) (hj : j < 8) : (frReverse v).getLsbD (8 * b + j) = v.getLsbD (8 * (31 - b) + j) := by
  unfold frReverse
  dsimp only
  have e5 : ∀ (v : Word) i, i < 256 → ((v >>> 128) ||| (v <<< 128)).getLsbD i = v.getLsbD (if i < 128 then i + 128 else i - 128) := by
    intro v i hi
    rw [BitVec.getLsbD_or, BitVec.getLsbD_ushiftRight, BitVec.getLsbD_shiftLeft]
    split
    · next h => simp [h, Nat.add_comm]
    · next h =>
      rw [BitVec.getLsbD_of_ge v (128 + i) (by omega)]
      simp [hi, h]
  rw [e5 _ _ (by omega)]
  rw [swap_bit (k := 64) (by norm_num) (mask_table _ _ 64 (by decide +kernel)) (by norm_num) _ (by split <;> omega)]
  rw [swap_bit (k := 32) (by norm_num) (mask_table _ _ 32 (by decide +kernel)) (by norm_num) _ (by split <;> split <;> omega)]
  rw [swap_bit (k := 16) (by norm_num) (mask_table _ _ 16 (by decide +kernel)) (by norm_num) _ (by split <;> split <;> split <;> omega)]
  rw [swap_bit (k := 8) (by norm_num) (mask_table _ _ 8 (by decide +kernel)) (by norm_num) _ (by split <;> split <;> split <;> split <;> omega)]
  congr 1
  interval_cases b <;> interval_cases j <;> rfl

/-- C38. -/
theorem C38_reverse (v : Word) : bytesOf (frReverse v) = (bytesOf v).reverse := by
  unfold bytesOf
  rw [← List.map_reverse]
  apply List.ext_getElem
  · simp
  · intro i h1 h2
    simp only [List.length_map, List.length_range] at h1
    simp only [List.getElem_map, List.getElem_range, List.getElem_reverse, List.length_range]
    unfold byteAt
    congr 1
    apply BitVec.eq_of_getLsbD_eq
    intro j hj
    rw [BitVec.getLsbD_extractLsb', BitVec.getLsbD_extractLsb', frReverse_bit v (by omega) hj]

theorem leNat_append (a b : List UInt8) : leNat (a ++ b) = leNat a + 256 ^ a.length * leNat b := by
  induction a with
  | nil => simp [leNat]
  | cons x l ih =>
    simp only [List.cons_append, leNat, ih, List.length_cons]
    ring

theorem leNat_range (v : Word) (n : ℕ) : leNat ((List.range n).map fun i => byteAt v i) = v.toNat % 256 ^ n := by
  induction n with
  | zero => simp [leNat, Nat.mod_one]
  | succ n ih =>
    rw [List.range_succ, List.map_append, leNat_append, ih]
    simp only [List.map_cons, List.map_nil, leNat, List.length_map, List.length_range, Nat.mul_zero, Nat.add_zero]
    have : (byteAt v n).toNat = v.toNat / 256 ^ n % 256 := by
      show (v.extractLsb' (8 * n) 8).toNat = _
      rw [BitVec.extractLsb'_toNat, Nat.shiftRight_eq_div_pow, pow_mul]
      norm_num
    rw [this, ← Nat.mod_mul, pow_succ]

/-- Reading the bytes of a word backwards gives the word. -/
theorem leNat_reverse_bytesOf (v : Word) : leNat (bytesOf v).reverse = v.toNat := by
  have : (bytesOf v).reverse = (List.range 32).map fun i => byteAt v i := by
    unfold bytesOf
    rw [← List.map_reverse]
    apply List.ext_getElem
    · simp
    · intro i h1 h2
      simp only [List.length_map, List.length_range] at h2
      simp only [List.getElem_map, List.getElem_range, List.getElem_reverse, List.length_range]
      congr 1
      omega
  rw [this, leNat_range]
  exact Nat.mod_eq_of_lt v.isLt

theorem bytesOf_length (v : Word) : (bytesOf v).length = 32 := by simp [bytesOf]

theorem bytesOf_injective : Function.Injective bytesOf := by
  intro a b h
  apply BitVec.eq_of_toNat_eq
  rw [← leNat_reverse_bytesOf a, h, leNat_reverse_bytesOf]

/-- C38: as numbers. -/
theorem C38_value (v : Word) : (frReverse v).toNat = leNat (bytesOf v) := by
  rw [← leNat_reverse_bytesOf, C38_reverse, List.reverse_reverse]

/-- C38: reversing twice changes nothing. -/
theorem C38_involutive (v : Word) : frReverse (frReverse v) = v :=
  bytesOf_injective (by rw [C38_reverse, C38_reverse, List.reverse_reverse])

example : frReverse 0x0102 = 0x0201000000000000000000000000000000000000000000000000000000000000 := by decide +kernel

/-! ### Scalars -/

/-- The scalar a word stands for. -/
def frOf (w : Word) : N := (w.toNat : N)

/-- The word of a scalar. -/
def wordOf (s : N) : Word := BitVec.ofNat 256 s.val

theorem frMod_lt : frMod < 2 ^ 256 := by unfold frMod; norm_num
theorem fqMod_lt : fqMod < 2 ^ 256 := by unfold fqMod; norm_num

theorem ofNat_mod (n : ℕ) : (BitVec.ofNat 256 (n % frMod)).toNat = n % frMod := by
  rw [BitVec.toNat_ofNat]
  exact Nat.mod_eq_of_lt ((Nat.mod_lt _ (by unfold frMod; norm_num)).trans frMod_lt)

theorem frOf_ofNat_mod (n : ℕ) : frOf (BitVec.ofNat 256 (n % frMod)) = (n : N) := by
  unfold frOf
  rw [ofNat_mod, ZMod.natCast_mod]

theorem wordOf_toNat (s : N) : (wordOf s).toNat = s.val := by
  unfold wordOf
  rw [BitVec.toNat_ofNat]
  exact Nat.mod_eq_of_lt ((ZMod.val_lt s).trans frMod_lt)

theorem frOf_wordOf (s : N) : frOf (wordOf s) = s := by
  unfold frOf
  rw [wordOf_toNat, ZMod.natCast_zmod_val]

/-- A word below the modulus is the word of its scalar. -/
theorem wordOf_frOf {w : Word} (h : w.toNat < frMod) : wordOf (frOf w) = w := by
  apply BitVec.eq_of_toNat_eq
  rw [wordOf_toNat]
  exact ZMod.val_cast_of_lt h

theorem wordOf_natCast (n : ℕ) : wordOf (n : N) = BitVec.ofNat 256 (n % frMod) := by
  unfold wordOf
  rw [ZMod.val_natCast]

/-- C50: the rendered addition. -/
theorem C50_add (a b : Word) : addmod a b = wordOf (frOf a + frOf b) := by
  unfold addmod frOf
  rw [← Nat.cast_add, wordOf_natCast]

/-- C50: the rendered multiplication. -/
theorem C50_mul (a b : Word) : mulmod a b = wordOf (frOf a * frOf b) := by
  unfold mulmod frOf
  rw [← Nat.cast_mul, wordOf_natCast]

/-- The rendered subtraction `addmod(a, q_mod - b, q_mod)`: code_generator/ctx.rs:195-199. -/
def subRendered (a b : Word) : Option Word := (subChecked qMod b).map fun d => addmod a d

theorem qMod_toNat : qMod.toNat = frMod := by
  unfold qMod
  rw [BitVec.toNat_ofNat]
  exact Nat.mod_eq_of_lt frMod_lt

theorem pMod_toNat : pMod.toNat = fqMod := by
  unfold pMod
  rw [BitVec.toNat_ofNat]
  exact Nat.mod_eq_of_lt fqMod_lt

theorem subChecked_some {a b : Word} (h : b.toNat ≤ a.toNat) : subChecked a b = some (a - b) ∧ (a - b).toNat = a.toNat - b.toNat := by
  constructor
  · unfold subChecked
    rw [if_pos h]
  · exact BitVec.toNat_sub_of_le h

/-- C50: the rendered subtraction, for words up to the modulus. -/
theorem C50_sub {a b : Word} (h : b.toNat ≤ frMod) : subRendered a b = some (wordOf (frOf a - frOf b)) := by
  unfold subRendered
  obtain ⟨e, e'⟩ := subChecked_some (a := qMod) (b := b) (by rw [qMod_toNat]; exact h)
  have hv : frOf (qMod - b) = -frOf b := by
    unfold frOf
    rw [e', qMod_toNat, Nat.cast_sub h, ZMod.natCast_self, zero_sub]
  rw [e, Option.map_some, C50_add, hv, sub_eq_add_neg]

/-- C50: the rendered subtraction reverts for larger words. -/
theorem C50_sub_reverts {a b : Word} (h : frMod < b.toNat) : subRendered a b = none := by
  unfold subRendered subChecked
  rw [if_neg (by rw [qMod_toNat]; omega), Option.map_none]

/-- C50: `fr_pow`. -/
theorem C50_pow (a e : Word) : frPow a e = wordOf (frOf a ^ e.toNat) := by
  unfold frPow frOf
  rw [← Nat.cast_pow, wordOf_natCast]

theorem frInvert_eq (a : Word) : frInvert a = some (wordOf (frOf a)⁻¹) := by
  unfold frInvert
  have h2 : (2#256 : Word).toNat = 2 := by decide
  obtain ⟨e, e'⟩ := subChecked_some (a := qMod) (b := 2#256) (by rw [qMod_toNat, h2]; unfold frMod; norm_num)
  have hv : frOf a ^ (frMod - 2) = (frOf a)⁻¹ := by
    by_cases h0 : frOf a = 0
    · rw [h0, inv_zero, zero_pow (by unfold frMod; norm_num)]
    · apply eq_inv_of_mul_eq_one_left
      rw [← pow_succ]
      have := ZMod.pow_card_sub_one_eq_one h0
      rwa [show frMod - 2 + 1 = frMod - 1 by unfold frMod; norm_num]
  show Option.map (fun e => frPow a e) (subChecked qMod 2#256) = _
  rw [e, Option.map_some, C50_pow, e', qMod_toNat, h2, hv]

/-- C50: `fr_div` reverts for the divisor zero and only for it. -/
theorem C50_div (a b : Word) : frDiv a b = if b = 0 then none else some (wordOf (frOf a / frOf b)) := by
  unfold frDiv
  split
  · rfl
  · rw [frInvert_eq, Option.map_some, C50_mul, frOf_wordOf, div_eq_mul_inv]

/-- C50: on words below the modulus, a division that returns is the division of the field. -/
theorem C50_div_canonical {a b c : Word} (hb : b.toNat < frMod) (h : frDiv a b = some c) : frOf b ≠ 0 ∧ frOf c * frOf b = frOf a := by
  rw [C50_div] at h
  split at h
  · exact absurd h (by simp)
  · next hb0 =>
    have hne : frOf b ≠ 0 := by
      intro h0
      apply hb0
      rw [← wordOf_frOf hb, h0]
      decide
    cases h
    refine ⟨hne, ?_⟩
    rw [frOf_wordOf, div_mul_cancel₀ _ hne]

/-- C50: the divisor check looks at the word. The modulus passes it and stands for zero: `fr_div(1, q_mod)` returns 0. -/
theorem C50_div_noncanonical : frOf qMod = 0 ∧ frDiv 1 qMod = some 0 := by
  have h0 : frOf qMod = 0 := by
    unfold frOf
    rw [qMod_toNat, ZMod.natCast_self]
  refine ⟨h0, ?_⟩
  rw [C50_div, if_neg, h0, div_zero]
  · decide
  · intro h
    have := congrArg BitVec.toNat h
    rw [qMod_toNat] at this
    revert this
    unfold frMod
    decide

/-- C50: `fr_mul_add`. -/
theorem C50_mul_add (a b c : Word) : frMulAdd a b c = wordOf (frOf a * frOf b + frOf c) := by
  unfold frMulAdd
  rw [C50_mul, C50_add, frOf_wordOf]

example : frDiv 6 3 = some 2 := by
  rw [C50_div, if_neg (by decide)]
  congr 1
  have : frOf 6 / frOf 3 = 2 := by
    have h3 : frOf 3 ≠ 0 := by decide +kernel
    rw [div_eq_iff h3]
    decide +kernel
  rw [this]
  decide +kernel

/-! ### Points -/

theorem coord_toNat (x : W) : (BitVec.ofNat 256 x.val : Word).toNat = x.val := by
  rw [BitVec.toNat_ofNat]
  exact Nat.mod_eq_of_lt ((ZMod.val_lt x).trans fqMod_lt)

/-- The words of a point stand for it. -/
theorem g1_g1Words (P : Pt) : g1 (g1Words P).1 (g1Words P).2 = some P := by
  unfold g1 g1Words
  simp only [coord_toNat, ZMod.natCast_zmod_val]
  by_cases h0 : P = 0
  · subst h0
    rw [dif_neg]
    · rw [if_pos]
      constructor <;> rfl
    · rintro ⟨_, _, h⟩
      have : (0 : W) ^ 2 = 0 ^ 3 + 3 := h
      revert this
      norm_num
      decide +kernel
  · have ha := coords_aff h0
    rw [dif_pos ⟨ZMod.val_lt _, ZMod.val_lt _, ha.eqn⟩]
    congr 1
    exact (aff_pt ha.eqn).ext ha

/-- Only the words of a point stand for it. -/
theorem g1_eq_some {x y : Word} {P : Pt} (h : g1 x y = some P) : g1Words P = (x, y) := by
  unfold g1 at h
  split at h
  · next hc =>
    cases h
    unfold g1Words
    show (BitVec.ofNat 256 ((x.toNat : W)).val, BitVec.ofNat 256 ((y.toNat : W)).val) = _
    rw [ZMod.val_cast_of_lt hc.1, ZMod.val_cast_of_lt hc.2.1, BitVec.ofNat_toNat, BitVec.ofNat_toNat]
    simp
  · split at h
    · next hz =>
      cases h
      rw [hz.1, hz.2]
      rfl
    · exact absurd h (by simp)

theorem g1_iff {x y : Word} {P : Pt} : g1 x y = some P ↔ (x, y) = g1Words P := by
  constructor
  · exact fun h => (g1_eq_some h).symm
  · intro h
    cases h
    exact g1_g1Words P

/-- C71: `ecc_add` adds points. -/
theorem C71_add (P Q : Pt) : eccAdd (g1Words P).1 (g1Words P).2 (g1Words Q).1 (g1Words Q).2 = some (g1Words (P + Q)) := by
  unfold eccAdd
  rw [g1_g1Words, g1_g1Words]
  rfl

/-- C71: and reverts on words of no point. -/
theorem C71_add_reverts {ax ay bx by' : Word} : eccAdd ax ay bx by' = none ↔ g1 ax ay = none ∨ g1 bx by' = none := by
  unfold eccAdd
  cases g1 ax ay <;> cases g1 bx by' <;> simp

theorem neg_words {Q : Pt} (hQ : Q ≠ 0) : (g1Words Q).2.toNat ≤ fqMod ∧ ((g1Words Q).1, pMod - (g1Words Q).2) = g1Words (-Q) := by
  have ha := coords_aff hQ
  have hn := ha.neg
  have hy : (g1Words Q).2.toNat = (coordY Q).val := coord_toNat _
  have hlt := ZMod.val_lt (coordY Q)
  obtain ⟨e, e'⟩ := subChecked_some (a := pMod) (b := (g1Words Q).2) (by rw [pMod_toNat, hy]; omega)
  refine ⟨by omega, ?_⟩
  obtain ⟨h1, h2⟩ := (coords_aff (P := -Q) (neg_ne_zero.2 hQ)).unique hn
  unfold g1Words at e' ⊢
  rw [h1, h2]
  refine Prod.ext rfl ?_
  apply BitVec.eq_of_toNat_eq
  dsimp only at e' ⊢
  rw [e', coord_toNat, coord_toNat, pMod_toNat, ZMod.neg_val, if_neg ha.y_ne]

/-- C71: `ecc_sub` subtracts a point other than the identity. -/
theorem C71_sub (P : Pt) {Q : Pt} (hQ : Q ≠ 0) :
    eccSub (g1Words P).1 (g1Words P).2 (g1Words Q).1 (g1Words Q).2 = some (g1Words (P - Q)) := by
  obtain ⟨hle, hw⟩ := neg_words hQ
  obtain ⟨e, e'⟩ := subChecked_some (a := pMod) (b := (g1Words Q).2) (by rw [pMod_toNat]; exact hle)
  unfold eccSub
  rw [e]
  obtain ⟨w1, w2⟩ := Prod.mk.inj (hw.trans (Prod.eta _).symm)
  generalize pMod - (g1Words Q).2 = d at w2
  show eccAdd _ _ (g1Words Q).1 d = _
  rw [w1, w2, C71_add, sub_eq_add_neg]

/-- `ecc_sub` succeeds on words of points, and on one more pair of words for the second point, which it takes for the identity. -/
theorem eccSub_some {ax ay bx by' x y : Word} (h : eccSub ax ay bx by' = some (x, y)) : ∃ P, g1 ax ay = some P ∧
    ((∃ Q, g1 bx by' = some Q ∧ g1 x y = some (P - Q)) ∨ (bx = 0 ∧ by' = pMod ∧ g1 x y = some P)) := by
  obtain ⟨d, h1, h2⟩ := Option.bind_eq_some_iff.1 h
  obtain ⟨P, h3, h4⟩ := Option.bind_eq_some_iff.1 h2
  obtain ⟨R, h5, h6⟩ := Option.bind_eq_some_iff.1 h4
  have h7 : g1Words (P + R) = (x, y) := Option.some.inj h6
  have hle : by'.toNat ≤ pMod.toNat ∧ d = pMod - by' := by
    unfold subChecked at h1
    split at h1
    · next hle => exact ⟨hle, (Option.some.inj h1).symm⟩
    · cases h1
  have hback : by' = pMod - d := by rw [hle.2]; bv_omega
  refine ⟨P, h3, ?_⟩
  by_cases hR : R = 0
  · subst hR
    right
    obtain ⟨e1, e2⟩ := Prod.mk.inj ((g1_iff.1 h5).trans (show g1Words 0 = (0, 0) from rfl))
    exact ⟨e1, by rw [hback, e2]; simp, by rw [g1_iff, ← h7, add_zero]⟩
  · left
    refine ⟨-R, ?_, by rw [g1_iff, ← h7, sub_neg_eq_add]⟩
    rw [g1_iff, ← (neg_words hR).2]
    obtain ⟨e1, e2⟩ := Prod.mk.inj ((g1_iff.1 h5).trans (Prod.eta _).symm)
    rw [← e1, ← e2, ← hback]

/-- C71: the words `(0, q)` are no point, but `ecc_sub` takes them for the identity. -/
theorem C71_sub_other_identity (P : Pt) : g1 0 pMod = none ∧ eccSub (g1Words P).1 (g1Words P).2 0 pMod = some (g1Words P) := by
  have e : subChecked pMod pMod = some 0 := by decide +kernel
  constructor
  · have hp : ¬ (pMod = 0) := by decide +kernel
    unfold g1
    rw [dif_neg, if_neg]
    · exact fun h => hp h.2
    · rintro ⟨_, h, _⟩
      rw [pMod_toNat] at h
      omega
  · unfold eccSub
    rw [e]
    have := C71_add P 0
    rw [add_zero] at this
    exact this

/-- C71: subtracting the identity reverts. -/
theorem C71_sub_identity (ax ay : Word) : eccSub ax ay (g1Words 0).1 (g1Words 0).2 = none := by
  have e : subChecked pMod (g1Words 0).2 = some pMod := by decide +kernel
  unfold eccSub
  rw [e]
  show eccAdd ax ay (g1Words 0).1 pMod = none
  rw [C71_add_reverts]
  right
  unfold g1
  rw [dif_neg, if_neg]
  · rintro ⟨_, h⟩
    have := congrArg BitVec.toNat h
    rw [pMod_toNat] at this
    revert this
    unfold fqMod
    decide
  · rintro ⟨_, h, _⟩
    rw [pMod_toNat] at h
    omega

/-- C71: `ecc_mul` multiplies, for every scalar word. -/
theorem C71_mul (P : Pt) (s : Word) : eccMul (g1Words P).1 (g1Words P).2 s = some (g1Words (s.toNat • P)) := by
  unfold eccMul
  rw [g1_g1Words]
  rfl

/-- C71: `ecc_mul_add`. -/
theorem C71_mul_add (P Q : Pt) (s : Word) :
    eccMulAdd (g1Words P).1 (g1Words P).2 s (g1Words Q).1 (g1Words Q).2 = some (g1Words (s.toNat • P + Q)) := by
  unfold eccMulAdd
  rw [C71_mul]
  show eccAdd (g1Words (s.toNat • P)).1 (g1Words (s.toNat • P)).2 _ _ = _
  rw [C71_add]

example : eccSub 1 2 1 2 = some (0, 0) := by
  have := C71_sub gen gen_ne_zero
  rw [sub_self] at this
  exact this

end Verif.Sol
