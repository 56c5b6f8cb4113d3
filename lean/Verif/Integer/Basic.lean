import Verif.Integer.Model
import Verif.Circuit.BaseSound
import Mathlib.Tactic.LinearCombination
import Mathlib.Tactic.NormNum
import Mathlib.Tactic.Linarith

/-!
# Constants of the BN254 instance and range facts (helper lemmas)
-/

set_option linter.unusedSimpArgs false
set_option exponentiation.threshold 600

namespace Verif.Circuit

theorem limbWidth_eq : limbWidth = 68 := rfl
theorem limbMod_eq : limbMod = 2 ^ 68 := rfl
theorem wCeilBits_eq : wCeilBits = 254 := by decide +kernel
theorem nFloorBits_eq : nFloorBits = 253 := by decide +kernel
theorem dBits_eq : dBits = 271 := by decide +kernel
theorem tables_eq : tables = ⟨17, 16, 15, 16⟩ := by
  unfold tables
  congr 1

theorem frMod_gt : 2 ^ 253 < frMod := by decide +kernel
theorem frMod_lt : frMod < 2 ^ 254 := by decide +kernel
theorem fqMod_gt : 2 ^ 253 < fqMod := by decide +kernel
theorem fqMod_lt : fqMod < 2 ^ 254 := by decide +kernel

theorem bnToN_eq {b : ℕ} (h : b < 2 ^ 512) : bnToN b = (b : N) := by
  unfold bnToN
  rw [Nat.mod_eq_of_lt h]

theorem bnToW_eq {b : ℕ} (h : b < 2 ^ 512) : bnToW b = (b : W) := by
  unfold bnToW
  rw [Nat.mod_eq_of_lt h]

theorem bnToN_limbMod : bnToN limbMod = (limbMod : N) := bnToN_eq (by decide +kernel)

theorem limbExp_eq (i : ℕ) : limbExp i = (limbMod : N) ^ i := by rw [limbExp, bnToN_limbMod]

theorem wNative_eq : wNative = (fqMod : N) := by
  rw [wNative, bnToN_eq (by decide +kernel)]
  simp [ZMod.natCast_mod]

/-- Two integers with the same image in the native field and close to each other are equal. -/
theorem int_eq_of_cast {x y : ℤ} (h : (x : N) = (y : N)) (hlt : |x - y| < frMod) : x = y := by
  have h1 : ((x - y : ℤ) : N) = 0 := by push_cast; rw [h, sub_self]
  rw [ZMod.intCast_zmod_eq_zero_iff_dvd] at h1
  have := Int.eq_zero_of_abs_lt_dvd h1 hlt
  omega

theorem nat_eq_of_cast {x y : ℕ} (h : (x : N) = (y : N)) (hx : x < frMod) (hy : y < frMod) : x = y := by
  have := congrArg ZMod.val h
  rwa [ZMod.val_natCast_of_lt hx, ZMod.val_natCast_of_lt hy] at this

theorem val_lt_n (x : N) : x.val < frMod := ZMod.val_lt x

theorem cast_val (x : N) : ((x.val : ℕ) : N) = x := ZMod.natCast_zmod_val x

theorem val_of_cast {x : N} {k : ℕ} (h : x = (k : N)) (hk : k < frMod) : x.val = k := by
  rw [h, ZMod.val_natCast_of_lt hk]

/-! ### Limb rows -/

theorem limbLine4 (n : N) : limbLine n 4 =
    [(.unassigned (bnToN (n.val >>> 51 &&& 131071)), ((2 ^ 51 : ℕ) : N)),
     (.unassigned (bnToN (n.val >>> 34 &&& 131071)), ((2 ^ 34 : ℕ) : N)),
     (.unassigned (bnToN (n.val >>> 17 &&& 131071)), ((2 ^ 17 : ℕ) : N)),
     (.unassigned (bnToN (n.val &&& 131071)), ((1 : ℕ) : N)),
     (.unassigned n, -1)] := by
  rw [← bnToN_eq (b := 2 ^ 51) (by decide +kernel), ← bnToN_eq (b := 2 ^ 34) (by decide +kernel),
    ← bnToN_eq (b := 2 ^ 17) (by decide +kernel), ← bnToN_eq (b := 1) (by decide +kernel)]
  simp [limbLine, decomposeBn, List.range_succ, resizePairs, nToBn]

theorem limbLine3 (n : N) : limbLine n 3 =
    [(.unassigned (bnToN (n.val >>> 34 &&& 131071)), ((2 ^ 34 : ℕ) : N)),
     (.unassigned (bnToN (n.val >>> 17 &&& 131071)), ((2 ^ 17 : ℕ) : N)),
     (.unassigned (bnToN (n.val &&& 131071)), ((1 : ℕ) : N)),
     (.unassigned 0, 0),
     (.unassigned n, -1)] := by
  rw [← bnToN_eq (b := 2 ^ 34) (by decide +kernel),
    ← bnToN_eq (b := 2 ^ 17) (by decide +kernel), ← bnToN_eq (b := 1) (by decide +kernel)]
  simp [limbLine, decomposeBn, List.range_succ, resizePairs, nToBn]

theorem limb_val4 {x0 x1 x2 x3 y : N} {b : ℕ} (hb : b ≤ 17) (h0 : inTable b x0) (h1 : inTable 17 x1)
    (h2 : inTable 17 x2) (h3 : inTable 17 x3)
    (hy : y = x0 * ((2 ^ 51 : ℕ) : N) + x1 * ((2 ^ 34 : ℕ) : N) + x2 * ((2 ^ 17 : ℕ) : N)
      + x3 * ((1 : ℕ) : N)) : y.val < 2 ^ (51 + b) := by
  obtain ⟨k0, l0, rfl⟩ := h0
  obtain ⟨k1, l1, rfl⟩ := h1
  obtain ⟨k2, l2, rfl⟩ := h2
  obtain ⟨k3, l3, rfl⟩ := h3
  have hb' : 2 ^ b ≤ 2 ^ 17 := Nat.pow_le_pow_right (by norm_num) hb
  have hpow : 2 ^ (51 + b) = 2 ^ 51 * 2 ^ b := by rw [pow_add]
  have hsmall : 2 ^ 68 < frMod := by decide +kernel
  have hval := val_of_cast (x := y) (k := k0 * 2 ^ 51 + k1 * 2 ^ 34 + k2 * 2 ^ 17 + k3 * 1)
    (by rw [hy]; push_cast; ring) (by omega)
  rw [hval, hpow]
  generalize 2 ^ b = B at *
  nlinarith

theorem limb_val3 {x0 x1 x2 y : N} {b : ℕ} (hb : b ≤ 17) (h0 : inTable b x0) (h1 : inTable 17 x1)
    (h2 : inTable 17 x2)
    (hy : y = x0 * ((2 ^ 34 : ℕ) : N) + x1 * ((2 ^ 17 : ℕ) : N) + x2 * ((1 : ℕ) : N)) :
    y.val < 2 ^ (34 + b) := by
  obtain ⟨k0, l0, rfl⟩ := h0
  obtain ⟨k1, l1, rfl⟩ := h1
  obtain ⟨k2, l2, rfl⟩ := h2
  have hb' : 2 ^ b ≤ 2 ^ 17 := Nat.pow_le_pow_right (by norm_num) hb
  have hpow : 2 ^ (34 + b) = 2 ^ 34 * 2 ^ b := by rw [pow_add]
  have hsmall : 2 ^ 68 < frMod := by decide +kernel
  have hval := val_of_cast (x := y) (k := k0 * 2 ^ 34 + k1 * 2 ^ 17 + k2 * 1)
    (by rw [hy]; push_cast; ring) (by omega)
  rw [hval, hpow]
  generalize 2 ^ b = B at *
  nlinarith

theorem Spec.assignNonleadingLimb (n : N) :
    Spec tables (assignNonleadingLimb n) (fun adv r => (r.val adv).val < 2 ^ 68) := by
  unfold Circuit.assignNonleadingLimb
  refine ((Spec.oneLineSel ..).bind (fun cells => Spec.pure _)).mono ?_
  rintro adv r ⟨cells, ⟨i, hc, hg, hl, -⟩, rfl⟩
  rw [limbLine4] at hg
  obtain ⟨⟨h0, h1, h2, h3⟩, -⟩ := hl.1 rfl, hl.2
  rw [tables_eq] at h0 h1 h2 h3
  simp only [AV.val, hc]
  refine limb_val4 (b := 17) le_rfl h0 h1 h2 h3 ?_
  simp [gateEval, mkRow] at hg
  push_cast
  linear_combination -hg

theorem Spec.assignNFloorLeadingLimb (n : N) :
    Spec tables (assignNFloorLeadingLimb n) (fun adv r => (r.val adv).val < 2 ^ 49) := by
  unfold Circuit.assignNFloorLeadingLimb
  rw [nFloorBits_eq, limbWidth_eq]
  simp only [Nat.reduceMod, Nat.reduceEqDiff, if_false, Nat.reduceAdd, Nat.reduceSub, Nat.reduceDiv]
  refine ((Spec.assertM _).bind fun _ =>
    (Spec.oneLineSel ..).bind (fun cells => Spec.pure _)).mono ?_
  rintro adv r ⟨-, -, cells, ⟨i, hc, hg, hl, -⟩, rfl⟩
  rw [limbLine3] at hg
  obtain ⟨h0, h1, h2, h3⟩ := hl.1 rfl
  have h0' := hl.2.2.1 rfl
  rw [tables_eq] at h0 h1 h2 h3 h0'
  simp only [AV.val, hc]
  refine limb_val3 (b := 15) (by norm_num) h0' h1 h2 ?_
  simp [gateEval, mkRow] at hg
  push_cast
  linear_combination -hg

theorem Spec.assignWCeilLeadingLimb (n : N) :
    Spec tables (assignWCeilLeadingLimb n) (fun adv r => (r.val adv).val < 2 ^ 50) := by
  unfold Circuit.assignWCeilLeadingLimb
  rw [wCeilBits_eq, limbWidth_eq]
  simp only [Nat.reduceMod, Nat.reduceEqDiff, if_false, Nat.reduceAdd, Nat.reduceSub, Nat.reduceDiv]
  refine ((Spec.assertM _).bind fun _ =>
    (Spec.oneLineSel ..).bind (fun cells => Spec.pure _)).mono ?_
  rintro adv r ⟨-, -, cells, ⟨i, hc, hg, hl, -⟩, rfl⟩
  rw [limbLine3] at hg
  obtain ⟨h0, h1, h2, h3⟩ := hl.1 rfl
  have h0' := hl.2.1 rfl
  rw [tables_eq] at h0 h1 h2 h3 h0'
  simp only [AV.val, hc]
  refine limb_val3 (b := 16) (by norm_num) h0' h1 h2 ?_
  simp [gateEval, mkRow] at hg
  push_cast
  linear_combination -hg

theorem Spec.assignDLeadingLimb (n : N) :
    Spec tables (assignDLeadingLimb n) (fun adv r => (r.val adv).val < 2 ^ 67) := by
  unfold Circuit.assignDLeadingLimb
  rw [dBits_eq, limbWidth_eq]
  simp only [Nat.reduceMod, Nat.reduceEqDiff, if_false, Nat.reduceAdd, Nat.reduceSub, Nat.reduceDiv]
  refine ((Spec.oneLineSel ..).bind (fun cells => Spec.pure _)).mono ?_
  rintro adv r ⟨cells, ⟨i, hc, hg, hl, -⟩, rfl⟩
  rw [limbLine4] at hg
  obtain ⟨h0, h1, h2, h3⟩ := hl.1 rfl
  have h0' := hl.2.2.2 rfl
  rw [tables_eq] at h0 h1 h2 h3 h0'
  simp only [AV.val, hc]
  refine limb_val4 (b := 16) (by norm_num) h0' h1 h2 h3 ?_
  simp [gateEval, mkRow] at hg
  push_cast
  linear_combination -hg

end Verif.Circuit
