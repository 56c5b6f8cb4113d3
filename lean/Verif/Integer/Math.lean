import Verif.Integer.Basic
import Mathlib.Data.Nat.ModEq
import Mathlib.Data.Int.ModEq
import Mathlib.Data.Nat.ChineseRemainder

/-!
# Pure arithmetic behind the integer chip (helper lemmas)

Field equations between bounded limbs imply equations over the integers.
-/

set_option exponentiation.threshold 600

namespace Verif.Circuit

theorem coprime_fr_two (k : ℕ) : Nat.Coprime frMod (2 ^ k) :=
  Nat.Coprime.pow_right k ((Nat.coprime_primes frMod_prime Nat.prime_two).2 (by decide +kernel))

theorem frMod_gt' : 2 ^ 253 + 2 ^ 250 < frMod := by decide +kernel

theorem modEq_of_cast {x y : ℕ} (h : (x : N) = (y : N)) : x ≡ y [MOD frMod] :=
  (ZMod.natCast_eq_natCast_iff _ _ _).1 h

/-- Equal modulo `n` and modulo `2^k`, both below `n·2^k`: equal. -/
theorem eq_of_crt {x y k : ℕ} (h1 : x ≡ y [MOD frMod]) (h2 : x ≡ y [MOD 2 ^ k])
    (hx : x < frMod * 2 ^ k) (hy : y < frMod * 2 ^ k) : x = y :=
  Nat.ModEq.eq_of_lt_of_lt ((Nat.modEq_and_modEq_iff_modEq_mul (coprime_fr_two k)).1 ⟨h1, h2⟩) hx hy

theorem fqMod_split : fqMod = wLimbs 0 + 2 ^ 68 * (fqMod / 2 ^ 68) := by decide +kernel

theorem wLimb0_lt : wLimbs 0 < 2 ^ 68 := by decide +kernel

/-- Arithmetic core of `reduce`. -/
theorem reduce_math {a0 a' r0 r' d v : ℕ} (ha0 : a0 < 2 ^ 108) (ha : a0 + 2 ^ 68 * a' < 2 ^ 300)
    (hr0 : r0 < 2 ^ 68) (hr : r0 + 2 ^ 68 * r' < 2 ^ 255) (hd : d < 2 ^ 17) (hv : v < 2 ^ 17)
    (hn : ((a0 + 2 ^ 68 * a' : ℕ) : N) = (d : N) * (fqMod : N) + ((r0 + 2 ^ 68 * r' : ℕ) : N))
    (hl : (d : N) * (wLimbs 0 : N) + (r0 : N) - (a0 : N) - (v : N) * (limbMod : N)
      + ((limbMod * 64 : ℕ) : N) = 0) :
    a0 + 2 ^ 68 * a' = d * fqMod + (r0 + 2 ^ 68 * r') := by
  have hw0 := wLimb0_lt
  have hlim : d * wLimbs 0 < 2 ^ 85 := by
    calc d * wLimbs 0 < 2 ^ 17 * 2 ^ 68 := Nat.mul_lt_mul'' hd hw0
      _ = 2 ^ 85 := by norm_num
  have h1 : ((d * wLimbs 0 : ℕ) : ℤ) + r0 + 2 ^ 68 * 64 = a0 + v * 2 ^ 68 := by
    have hn' := frMod_gt
    apply int_eq_of_cast
    · have : ((limbMod : ℕ) : N) = 2 ^ 68 := by rw [limbMod_eq]; norm_num
      push_cast at hl ⊢
      rw [this] at hl
      linear_combination hl
    · rw [abs_lt]
      constructor <;> omega
  apply eq_of_crt (k := 68)
  · apply modEq_of_cast
    rw [hn]
    push_cast
    ring
  · have h2 : d * wLimbs 0 + r0 + 2 ^ 68 * 64 = a0 + v * 2 ^ 68 := by exact_mod_cast h1
    have h3 : (a0 + 2 ^ 68 * a') ≡ a0 + v * 2 ^ 68 [MOD 2 ^ 68] := by
      simp [Nat.ModEq]
    have h4 : d * fqMod + (r0 + 2 ^ 68 * r') ≡ d * wLimbs 0 + r0 + 2 ^ 68 * 64 [MOD 2 ^ 68] := by
      rw [show d * fqMod + (r0 + 2 ^ 68 * r') =
        (d * wLimbs 0 + r0) + 2 ^ 68 * (d * (fqMod / 2 ^ 68) + r') from by
          conv_lhs => rw [fqMod_split]
          ring]
      have e1 := Nat.add_mul_mod_self_left (d * wLimbs 0 + r0) (2 ^ 68) (d * (fqMod / 2 ^ 68) + r')
      have e2 := Nat.add_mul_mod_self_left (d * wLimbs 0 + r0) (2 ^ 68) 64
      exact e1.trans e2.symm
    rw [h2] at h4
    exact h3.trans h4.symm
  · have : 2 ^ 253 * 2 ^ 68 ≤ frMod * 2 ^ 68 := Nat.mul_le_mul_right _ frMod_gt.le
    exact ha.trans_le (le_trans (by norm_num) this)
  · have : 2 ^ 253 * 2 ^ 68 ≤ frMod * 2 ^ 68 := Nat.mul_le_mul_right _ frMod_gt.le
    have h5 : d * fqMod < 2 ^ 17 * 2 ^ 254 := Nat.mul_lt_mul'' hd fqMod_lt
    exact (Nat.add_lt_add h5 hr).trans_le (le_trans (by norm_num) this)

/-- The four limbs of a number. -/
theorem limbs4_sum {x : ℕ} : bnToLimbs x 0 + 2 ^ 68 * bnToLimbs x 1 + 2 ^ 136 * bnToLimbs x 2
    + 2 ^ 204 * bnToLimbs x 3 = x := by
  simp only [bnToLimbs, limbMod_eq, limbWidth_eq, Nat.shiftRight_eq_div_pow]
  omega

theorem bnToLimbs_lt {x : ℕ} {i : Fin 4} (h : x < 2 ^ 272) : bnToLimbs x i < 2 ^ 68 := by
  fin_cases i <;>
    simp only [bnToLimbs, limbMod_eq, limbWidth_eq, Nat.shiftRight_eq_div_pow] <;> omega

/-- Arithmetic core of the multiplication constraints: limb products with carries, and the native
equation, force the equation over the integers. -/
theorem mul_math {a0 a1 a2 a3 b0 b1 b2 b3 d0 d1 d2 d3 r0 r1 r2 r3 v0l v0h v1l v1h n0 n1 n2 n3 : ℕ}
    (ha0 : a0 < 2 ^ 74) (ha1 : a1 < 2 ^ 74) (ha2 : a2 < 2 ^ 74) (ha3 : a3 < 2 ^ 56)
    (hb0 : b0 < 2 ^ 74) (hb1 : b1 < 2 ^ 74) (hb2 : b2 < 2 ^ 74) (hb3 : b3 < 2 ^ 56)
    (hd0 : d0 < 2 ^ 68) (hd1 : d1 < 2 ^ 68) (hd2 : d2 < 2 ^ 68) (hd3 : d3 < 2 ^ 67)
    (hr0 : r0 < 2 ^ 74) (hr1 : r1 < 2 ^ 74) (hr2 : r2 < 2 ^ 74) (hr3 : r3 < 2 ^ 56)
    (hv0l : v0l < 2 ^ 68) (hv1l : v1l < 2 ^ 68) (hv0h : v0h < 2 ^ 49) (hv1h : v1h < 2 ^ 49)
    (hn0 : n0 < 2 ^ 68) (hn1 : n1 < 2 ^ 68) (hn2 : n2 < 2 ^ 68) (hn3 : n3 < 2 ^ 68)
    (hnw : n0 + 2 ^ 68 * n1 + 2 ^ 136 * n2 + 2 ^ 204 * n3 + fqMod = 2 ^ 272)
    (e0 : ((a0 * b0 + n0 * d0 : ℕ) : N) + ((a0 * b1 + n1 * d0 + (a1 * b0 + n0 * d1) : ℕ) : N) * 2 ^ 68
      - (r0 : N) - (r1 : N) * 2 ^ 68 + 2 ^ 136 = (v0l : N) * 2 ^ 136 + (v0h : N) * 2 ^ 204)
    (e1 : ((a0 * b2 + n2 * d0 + (a1 * b1 + n1 * d1) + (a2 * b0 + n0 * d2) : ℕ) : N)
      + ((a0 * b3 + n3 * d0 + (a1 * b2 + n2 * d1) + (a2 * b1 + n1 * d2) + (a3 * b0 + n0 * d3) : ℕ) : N)
        * 2 ^ 68
      - (r2 : N) - (r3 : N) * 2 ^ 68 + (v0l : N) + (v0h : N) * 2 ^ 68
        = (v1l : N) * 2 ^ 136 + (v1h : N) * 2 ^ 204 + 1)
    (en : ((a0 + 2 ^ 68 * a1 + 2 ^ 136 * a2 + 2 ^ 204 * a3 : ℕ) : N)
        * ((b0 + 2 ^ 68 * b1 + 2 ^ 136 * b2 + 2 ^ 204 * b3 : ℕ) : N)
      = ((d0 + 2 ^ 68 * d1 + 2 ^ 136 * d2 + 2 ^ 204 * d3 : ℕ) : N) * (fqMod : N)
        + ((r0 + 2 ^ 68 * r1 + 2 ^ 136 * r2 + 2 ^ 204 * r3 : ℕ) : N)) :
    (a0 + 2 ^ 68 * a1 + 2 ^ 136 * a2 + 2 ^ 204 * a3) * (b0 + 2 ^ 68 * b1 + 2 ^ 136 * b2 + 2 ^ 204 * b3)
      = (d0 + 2 ^ 68 * d1 + 2 ^ 136 * d2 + 2 ^ 204 * d3) * fqMod
        + (r0 + 2 ^ 68 * r1 + 2 ^ 136 * r2 + 2 ^ 204 * r3) := by
  have hfr := frMod_gt
  have hfr' := frMod_gt'
  have prodA : ∀ {x y : ℕ}, x < 2 ^ 74 → y < 2 ^ 74 → x * y < 2 ^ 148 := fun hx hy =>
    (Nat.mul_lt_mul'' hx hy).trans_le (by norm_num)
  have prodD : ∀ {x y : ℕ}, x < 2 ^ 68 → y < 2 ^ 68 → x * y < 2 ^ 136 := fun hx hy =>
    (Nat.mul_lt_mul'' hx hy).trans_le (by norm_num)
  have hb3' : b3 < 2 ^ 74 := by omega
  have ha3' : a3 < 2 ^ 74 := by omega
  have hd3' : d3 < 2 ^ 68 := by omega
  obtain ⟨L0, hL0⟩ : ∃ L0, L0 = a0 * b0 + n0 * d0 := ⟨_, rfl⟩
  obtain ⟨L1, hL1⟩ : ∃ L1, L1 = a0 * b1 + n1 * d0 + (a1 * b0 + n0 * d1) := ⟨_, rfl⟩
  obtain ⟨L2, hL2⟩ : ∃ L2, L2 = a0 * b2 + n2 * d0 + (a1 * b1 + n1 * d1) + (a2 * b0 + n0 * d2) := ⟨_, rfl⟩
  obtain ⟨L3, hL3⟩ : ∃ L3, L3 = a0 * b3 + n3 * d0 + (a1 * b2 + n2 * d1) + (a2 * b1 + n1 * d2)
      + (a3 * b0 + n0 * d3) := ⟨_, rfl⟩
  have bL0 : L0 < 2 ^ 151 := by
    have := prodA ha0 hb0; have := prodD hn0 hd0; omega
  have bL1 : L1 < 2 ^ 151 := by
    have := prodA ha0 hb1; have := prodA ha1 hb0; have := prodD hn1 hd0; have := prodD hn0 hd1; omega
  have bL2 : L2 < 2 ^ 151 := by
    have := prodA ha0 hb2; have := prodA ha1 hb1; have := prodA ha2 hb0
    have := prodD hn2 hd0; have := prodD hn1 hd1; have := prodD hn0 hd2; omega
  have bL3 : L3 < 2 ^ 151 := by
    have := prodA ha0 hb3'; have := prodA ha1 hb2; have := prodA ha2 hb1; have := prodA ha3' hb0
    have := prodD hn3 hd0; have := prodD hn2 hd1; have := prodD hn1 hd2; have := prodD hn0 hd3'; omega
  rw [← hL0, ← hL1] at e0
  rw [← hL2, ← hL3] at e1
  have i0 : (L0 : ℤ) + L1 * 2 ^ 68 - r0 - r1 * 2 ^ 68 + 2 ^ 136 = v0l * 2 ^ 136 + v0h * 2 ^ 204 := by
    apply int_eq_of_cast
    · push_cast; exact e0
    · rw [abs_lt]; constructor <;> omega
  have i1 : (L2 : ℤ) + L3 * 2 ^ 68 - r2 - r3 * 2 ^ 68 + v0l + v0h * 2 ^ 68
      = v1l * 2 ^ 136 + v1h * 2 ^ 204 + 1 := by
    apply int_eq_of_cast
    · push_cast; exact e1
    · rw [abs_lt]; constructor <;> omega
  apply eq_of_crt (k := 272)
  · apply modEq_of_cast
    push_cast at en ⊢
    exact en
  · rw [← Int.natCast_modEq_iff]
    apply Int.ModEq.symm
    rw [Int.modEq_iff_dvd]
    have hw : (fqMod : ℤ) = 2 ^ 272 - (n0 + 2 ^ 68 * n1 + 2 ^ 136 * n2 + 2 ^ 204 * n3) := by
      have : ((n0 + 2 ^ 68 * n1 + 2 ^ 136 * n2 + 2 ^ 204 * n3 + fqMod : ℕ) : ℤ) = ((2 ^ 272 : ℕ) : ℤ) := by
        rw [hnw]
      push_cast at this
      linear_combination this
    subst hL0 hL1 hL2 hL3
    push_cast at i0 i1 ⊢
    rw [hw]
    refine ⟨(a1 * b3 + a2 * b2 + a3 * b1 + d1 * n3 + d2 * n2 + d3 * n1)
      + 2 ^ 68 * (a2 * b3 + a3 * b2 + d2 * n3 + d3 * n2) + 2 ^ 136 * (a3 * b3 + d3 * n3)
      - (d0 + 2 ^ 68 * d1 + 2 ^ 136 * d2 + 2 ^ 204 * d3) + (v1l + v1h * 2 ^ 68), ?_⟩
    linear_combination i0 + 2 ^ 136 * i1
  · have h1 : a0 + 2 ^ 68 * a1 + 2 ^ 136 * a2 + 2 ^ 204 * a3 < 2 ^ 261 := by omega
    have h2 : b0 + 2 ^ 68 * b1 + 2 ^ 136 * b2 + 2 ^ 204 * b3 < 2 ^ 261 := by omega
    have h3 := Nat.mul_lt_mul'' h1 h2
    have h4 : 2 ^ 253 * 2 ^ 272 ≤ frMod * 2 ^ 272 := Nat.mul_le_mul_right _ hfr.le
    exact h3.trans_le (le_trans (by norm_num) h4)
  · have h1 : d0 + 2 ^ 68 * d1 + 2 ^ 136 * d2 + 2 ^ 204 * d3 < 2 ^ 271 := by omega
    have h2 : r0 + 2 ^ 68 * r1 + 2 ^ 136 * r2 + 2 ^ 204 * r3 < 2 ^ 261 := by omega
    have h3 : (d0 + 2 ^ 68 * d1 + 2 ^ 136 * d2 + 2 ^ 204 * d3) * fqMod < 2 ^ 271 * 2 ^ 254 :=
      Nat.mul_lt_mul'' h1 fqMod_lt
    have h4 : 2 ^ 253 * 2 ^ 272 ≤ frMod * 2 ^ 272 := Nat.mul_le_mul_right _ hfr.le
    have h6 : (d0 + 2 ^ 68 * d1 + 2 ^ 136 * d2 + 2 ^ 204 * d3) * fqMod ≤ (2 ^ 271 - 1) * fqMod :=
      Nat.mul_le_mul_right _ (by omega)
    have h7 : (2 ^ 271 - 1) * fqMod + 2 ^ 261 < 2 ^ 253 * 2 ^ 272 := by decide +kernel
    omega

end Verif.Circuit
