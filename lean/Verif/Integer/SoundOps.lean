import Verif.Integer.Sound

/-!
# Soundness of the arithmetic operations of the integer chip (helper lemmas)
-/

set_option exponentiation.threshold 600

namespace Verif.Circuit

/-! ### Addition, subtraction, negation -/

theorem limbsVal_vec4 (adv : Advice N) (a b c d : AV N) : limbsVal adv (vec4 a b c d) =
    lv adv a + 2 ^ 68 * lv adv b + 2 ^ 136 * lv adv c + 2 ^ 204 * lv adv d := rfl

theorem lv_of_nat {adv : Advice N} {c : AV N} {k m : ℕ} (h : c.val adv = (k : N)) (hk : k < m)
    (hm : m ≤ 2 ^ 253) : lv adv c = k ∧ lv adv c < m := by
  have := lv_eq h (hk.trans_le hm)
  exact ⟨this, this ▸ hk⟩

theorem modEq_of_eq {x y m : ℕ} (h : x = y) : x ≡ y [MOD m] := h ▸ rfl

/-- What the callers of `conditionally_reduce` conclude. -/
theorem Reduced.close {adv : Advice N} {a r : AInt} {k : ℕ}
    (hred : Reduced adv a r ∧ (a.overflows < 32 ∧ r = a ∨ r.overflows = 0 ∧ Bd 1 adv r.limbs))
    (hb : Bd k adv a.limbs) :
    limbsVal adv r.limbs ≡ limbsVal adv a.limbs [MOD fqMod] ∧ NatOk adv r ∧
      (a.overflows < 32 ∧ r.overflows = a.overflows ∧ Bd k adv r.limbs
        ∨ r.overflows = 0 ∧ Bd 1 adv r.limbs) := by
  obtain ⟨⟨h1, h2⟩, h3 | h3⟩ := hred
  · obtain ⟨h3, rfl⟩ := h3
    exact ⟨h1, h2, .inl ⟨h3, rfl, hb⟩⟩
  · exact ⟨h1, h2, .inr h3⟩

theorem add_limb {adv : Advice N} {a b c : AV N} {ka kb m : ℕ} (hc : c.val adv = a.val adv + b.val adv)
    (ha : lv adv a < ka * m) (hb : lv adv b < kb * m) (hm : (ka + kb) * m ≤ 2 ^ 253) :
    lv adv c = lv adv a + lv adv b ∧ lv adv c < (ka + kb) * m := by
  refine lv_of_nat ?_ ?_ hm
  · push_cast; rw [cast_lv, cast_lv, hc]
  · rw [add_mul]; omega

theorem Spec.iadd (a b : AInt) : Spec tables (iadd a b) (fun adv r => ∀ ka kb, ka + kb ≤ 2 ^ 38 →
    Bd ka adv a.limbs → Bd kb adv b.limbs →
      limbsVal adv r.limbs ≡ limbsVal adv a.limbs + limbsVal adv b.limbs [MOD fqMod] ∧ NatOk adv r ∧
      (a.overflows + b.overflows + 1 < 32 ∧ r.overflows = a.overflows + b.overflows + 1
          ∧ Bd (ka + kb) adv r.limbs
        ∨ r.overflows = 0 ∧ Bd 1 adv r.limbs)) := by
  unfold Circuit.iadd
  refine ((Spec.add _ _).bind fun l0 => (Spec.add _ _).bind fun l1 => (Spec.add _ _).bind fun l2 =>
    (Spec.add _ _).bind fun l3 => Spec.conditionallyReduce _).mono ?_
  rintro adv r ⟨l0, h0, l1, h1, l2, h2, l3, h3, hr⟩ ka kb hk ha hb
  have hm : (ka + kb) * 2 ^ 68 ≤ 2 ^ 253 := by
    calc (ka + kb) * 2 ^ 68 ≤ 2 ^ 38 * 2 ^ 68 := Nat.mul_le_mul_right _ hk
      _ ≤ 2 ^ 253 := by norm_num
  have hm' : (ka + kb) * 2 ^ 50 ≤ 2 ^ 253 :=
    le_trans (Nat.mul_le_mul_left _ (by norm_num)) hm
  obtain ⟨e0, b0⟩ := add_limb h0 ha.b0 hb.b0 hm
  obtain ⟨e1, b1⟩ := add_limb h1 ha.b1 hb.b1 hm
  obtain ⟨e2, b2⟩ := add_limb h2 ha.b2 hb.b2 hm
  obtain ⟨e3, b3⟩ := add_limb h3 ha.b3 hb.b3 hm'
  have hbd : Bd (ka + kb) adv (AInt.new (vec4 l0 l1 l2 l3) (a.overflows + b.overflows + 1)).limbs :=
    ⟨b0, b1, b2, b3⟩
  have := Reduced.close (hr _ hk hbd (natOk_none rfl)) hbd
  refine ⟨this.1.trans ?_, this.2⟩
  simp only [AInt.new, limbsVal_vec4, e0, e1, e2, e3]
  unfold limbsVal
  apply modEq_of_eq
  ring

/-- Facts about one entry of the table computed by `find_w_modulus_ceil`. -/
def CeilFacts (ov : ℕ) (up : Fin 4 → ℕ) : Prop :=
    (up 0 + 2 ^ 68 * up 1 + 2 ^ 136 * up 2 + 2 ^ 204 * up 3) % fqMod = 0 ∧
    (ov + 1) * 2 ^ 68 ≤ up 0 ∧ up 0 < (ov + 2) * 2 ^ 68 ∧
    (ov + 1) * 2 ^ 68 ≤ up 1 ∧ up 1 < (ov + 2) * 2 ^ 68 ∧
    (ov + 1) * 2 ^ 68 ≤ up 2 ∧ up 2 < (ov + 2) * 2 ^ 68 ∧
    (ov + 1) * 2 ^ 50 ≤ up 3 + 1 ∧ up 3 < (ov + 2) * 2 ^ 50

instance (ov : ℕ) (up : Fin 4 → ℕ) : Decidable (CeilFacts ov up) := by
  unfold CeilFacts
  infer_instance

/-- Executable check of one entry. -/
def ceilOk (ov : ℕ) : Option (Fin 4 → ℕ) → Bool
  | none => false
  | some up => decide (CeilFacts ov up)

/-- The whole table below `OVERFLOW_LIMIT`. -/
theorem ceil_table : ∀ ov : Fin 64, ceilOk ov (findWModulusCeil ov) = true := by decide +kernel

theorem of_ceilOk {ov : ℕ} {o : Option (Fin 4 → ℕ)} (h : ceilOk ov o = true) :
    ∃ up, o = some up ∧ CeilFacts ov up := by
  cases o with
  | none => cases h
  | some up => exact ⟨up, rfl, of_decide_eq_true h⟩

theorem findWModulusCeil_spec {ov : ℕ} (h : ov < 64) :
    ∃ up, findWModulusCeil ov = some up ∧ CeilFacts ov up := of_ceilOk (ceil_table ⟨ov, h⟩)

theorem sub_limb {adv : Advice N} {a b c : AV N} {up ka kb ku m : ℕ}
    (hc : c.val adv = bnToN up + wsum adv [(a, 1), (b, -1)])
    (ha : lv adv a < ka * m) (hb : lv adv b < kb * m) (hup : kb * m ≤ up + 1) (hup' : up < ku * m)
    (hm : (ka + ku) * m ≤ 2 ^ 253) :
    lv adv c + lv adv b = lv adv a + up ∧ lv adv c < (ka + ku) * m := by
  have hle : (ka + ku) * m = ka * m + ku * m := add_mul ..
  have := lv_of_nat (k := lv adv a + up - lv adv b) (m := (ka + ku) * m) (c := c) (adv := adv) ?_
    (by omega) hm
  · omega
  · rw [Nat.cast_sub (by omega)]
    push_cast
    rw [cast_lv, cast_lv, hc, bnToN_eq (by
      have : (2 : ℕ) ^ 253 < 2 ^ 512 := by norm_num
      omega)]
    simp [wsum]
    ring

theorem Spec.isub (a b : AInt) : Spec tables (isub a b) (fun adv r => ∀ ka, ka ≤ 2 ^ 37 →
    b.overflows < 64 → Bd ka adv a.limbs → Bd (b.overflows + 1) adv b.limbs →
      limbsVal adv r.limbs + limbsVal adv b.limbs ≡ limbsVal adv a.limbs [MOD fqMod] ∧ NatOk adv r ∧
      (a.overflows + b.overflows + 2 < 32 ∧ r.overflows = a.overflows + b.overflows + 2
          ∧ Bd (ka + b.overflows + 2) adv r.limbs
        ∨ r.overflows = 0 ∧ Bd 1 adv r.limbs)) := by
  unfold Circuit.isub Circuit.subLimb
  refine ((Spec.unwrapM _).bind fun up => (Spec.sumWithConstant _ _).bind fun l0 =>
    (Spec.sumWithConstant _ _).bind fun l1 => (Spec.sumWithConstant _ _).bind fun l2 =>
    (Spec.sumWithConstant _ _).bind fun l3 => Spec.conditionallyReduce _).mono ?_
  rintro adv r ⟨up, hup, l0, h0, l1, h1, l2, h2, l3, h3, hr⟩ ka hk hob ha hb
  obtain ⟨up', hup', hz, g0, g0', g1, g1', g2, g2', g3, g3'⟩ := findWModulusCeil_spec hob
  obtain rfl : up = up' := Option.some.inj (hup.symm.trans hup')
  have hz : _ ≡ 0 [MOD fqMod] := (Nat.modEq_zero_iff_dvd).2 (Nat.dvd_of_mod_eq_zero hz)
  have hk' : ka + (b.overflows + 2) ≤ 2 ^ 38 := by omega
  have hm : (ka + (b.overflows + 2)) * 2 ^ 68 ≤ 2 ^ 253 := by
    calc (ka + (b.overflows + 2)) * 2 ^ 68 ≤ 2 ^ 38 * 2 ^ 68 := Nat.mul_le_mul_right _ hk'
      _ ≤ 2 ^ 253 := by norm_num
  have hm' : (ka + (b.overflows + 2)) * 2 ^ 50 ≤ 2 ^ 253 :=
    le_trans (Nat.mul_le_mul_left _ (by norm_num)) hm
  obtain ⟨e0, b0⟩ := sub_limb h0 ha.b0 hb.b0 (g0.trans (Nat.le_succ _)) g0' hm
  obtain ⟨e1, b1⟩ := sub_limb h1 ha.b1 hb.b1 (g1.trans (Nat.le_succ _)) g1' hm
  obtain ⟨e2, b2⟩ := sub_limb h2 ha.b2 hb.b2 (g2.trans (Nat.le_succ _)) g2' hm
  obtain ⟨e3, b3⟩ := sub_limb h3 ha.b3 hb.b3 g3 g3' hm'
  have hbd : Bd (ka + b.overflows + 2) adv
      (AInt.new (vec4 l0 l1 l2 l3) (a.overflows + (b.overflows + 1) + 1)).limbs :=
    ⟨b0, b1, b2, b3⟩
  have := Reduced.close (hr _ hk' hbd (natOk_none rfl)) hbd
  refine ⟨(this.1.add_right _).trans ?_, this.2⟩
  have e : limbsVal adv (vec4 l0 l1 l2 l3) + limbsVal adv b.limbs = limbsVal adv a.limbs +
      (up 0 + 2 ^ 68 * up 1 + 2 ^ 136 * up 2 + 2 ^ 204 * up 3) := by
    rw [limbsVal_vec4]
    unfold limbsVal
    linear_combination e0 + 2 ^ 68 * e1 + 2 ^ 136 * e2 + 2 ^ 204 * e3
  simp only [AInt.new, e]
  simpa using hz.add_left (limbsVal adv a.limbs)

theorem neg_limb {adv : Advice N} {a c : AV N} {up ka ku m : ℕ}
    (hc : c.val adv = bnToN up + wsum adv [(a, -1)])
    (ha : lv adv a < ka * m) (hup : ka * m ≤ up + 1) (hup' : up < ku * m)
    (hm : ku * m ≤ 2 ^ 253) :
    lv adv c + lv adv a = up ∧ lv adv c < ku * m := by
  have := lv_of_nat (k := up - lv adv a) (m := ku * m) (c := c) (adv := adv) ?_
    (by omega) hm
  · omega
  · rw [Nat.cast_sub (by omega)]
    rw [cast_lv, hc, bnToN_eq (by
      have : (2 : ℕ) ^ 253 < 2 ^ 512 := by norm_num
      omega)]
    simp [wsum]
    ring

theorem Spec.ineg (a : AInt) : Spec tables (ineg a) (fun adv r =>
    a.overflows < 64 → Bd (a.overflows + 1) adv a.limbs →
      limbsVal adv r.limbs + limbsVal adv a.limbs ≡ 0 [MOD fqMod] ∧ NatOk adv r ∧
      (a.overflows + 1 < 32 ∧ r.overflows = a.overflows + 1 ∧ Bd (a.overflows + 2) adv r.limbs
        ∨ r.overflows = 0 ∧ Bd 1 adv r.limbs)) := by
  unfold Circuit.ineg Circuit.negLimb
  refine ((Spec.unwrapM _).bind fun up => (Spec.sumWithConstant _ _).bind fun l0 =>
    (Spec.sumWithConstant _ _).bind fun l1 => (Spec.sumWithConstant _ _).bind fun l2 =>
    (Spec.sumWithConstant _ _).bind fun l3 => Spec.conditionallyReduce _).mono ?_
  rintro adv r ⟨up, hup, l0, h0, l1, h1, l2, h2, l3, h3, hr⟩ hob ha
  obtain ⟨up', hup', hz, g0, g0', g1, g1', g2, g2', g3, g3'⟩ := findWModulusCeil_spec hob
  obtain rfl : up = up' := Option.some.inj (hup.symm.trans hup')
  have hz : _ ≡ 0 [MOD fqMod] := (Nat.modEq_zero_iff_dvd).2 (Nat.dvd_of_mod_eq_zero hz)
  have hk' : a.overflows + 2 ≤ 2 ^ 38 := by omega
  have hm : (a.overflows + 2) * 2 ^ 68 ≤ 2 ^ 253 := by
    calc (a.overflows + 2) * 2 ^ 68 ≤ 2 ^ 38 * 2 ^ 68 := Nat.mul_le_mul_right _ hk'
      _ ≤ 2 ^ 253 := by norm_num
  have hm' : (a.overflows + 2) * 2 ^ 50 ≤ 2 ^ 253 :=
    le_trans (Nat.mul_le_mul_left _ (by norm_num)) hm
  obtain ⟨e0, b0⟩ := neg_limb h0 ha.b0 (g0.trans (Nat.le_succ _)) g0' hm
  obtain ⟨e1, b1⟩ := neg_limb h1 ha.b1 (g1.trans (Nat.le_succ _)) g1' hm
  obtain ⟨e2, b2⟩ := neg_limb h2 ha.b2 (g2.trans (Nat.le_succ _)) g2' hm
  obtain ⟨e3, b3⟩ := neg_limb h3 ha.b3 g3 g3' hm'
  have hbd : Bd (a.overflows + 2) adv (AInt.new (vec4 l0 l1 l2 l3) (a.overflows + 1)).limbs :=
    ⟨b0, b1, b2, b3⟩
  have := Reduced.close (hr _ hk' hbd (natOk_none rfl)) hbd
  refine ⟨(this.1.add_right _).trans ?_, this.2⟩
  have e : limbsVal adv (vec4 l0 l1 l2 l3) + limbsVal adv a.limbs =
      (up 0 + 2 ^ 68 * up 1 + 2 ^ 136 * up 2 + 2 ^ 204 * up 3) := by
    rw [limbsVal_vec4]
    unfold limbsVal
    linear_combination e0 + 2 ^ 68 * e1 + 2 ^ 136 * e2 + 2 ^ 204 * e3
  simp only [AInt.new, e]
  exact hz

/-! ### The multiplication equation -/

theorem Spec.mulEqTail (l rem : Fin 4 → AV N) : Spec tables (mulEqTail l rem) (fun adv _ =>
    ∃ v0l v0h v1l v1h : ℕ, v0l < 2 ^ 68 ∧ v1l < 2 ^ 68 ∧ v0h < 2 ^ 49 ∧ v1h < 2 ^ 49 ∧
      (l 0).val adv + (l 1).val adv * 2 ^ 68 - (rem 0).val adv - (rem 1).val adv * 2 ^ 68 + 2 ^ 136
        = (v0l : N) * 2 ^ 136 + (v0h : N) * 2 ^ 204 ∧
      (l 2).val adv + (l 3).val adv * 2 ^ 68 - (rem 2).val adv - (rem 3).val adv * 2 ^ 68
        + (v0l : N) + (v0h : N) * 2 ^ 68 = (v1l : N) * 2 ^ 136 + (v1h : N) * 2 ^ 204 + 1) := by
  unfold Circuit.mulEqTail
  refine ((Spec.assignNFloorLeadingLimb _).bind fun v0h => (Spec.assignNonleadingLimb _).bind fun v0l =>
    (Spec.assignNFloorLeadingLimb _).bind fun v1h => (Spec.assignNonleadingLimb _).bind fun v1l =>
    (Spec.sumWithConstant _ _).bind fun u0 => (Spec.lineAdd3 ..).bind fun _ =>
    (Spec.sumWithConstant _ _).bind fun u1 => (Spec.lineAdd5 ..).bind fun _ => Spec.pure _).mono ?_
  rintro adv - ⟨v0h, b0h, v0l, b0l, v1h, b1h, v1l, b1l, u0, hu0, -, hl0, u1, hu1, -, hl1, -⟩
  refine ⟨_, _, _, _, b0l, b1l, b0h, b1h, ?_, ?_⟩ <;>
    simp only [cast_val, limbExp_eq, limbMod_cast, bnToN_limbMod, wsum, List.map_cons, List.map_nil,
      List.sum_cons, List.sum_nil] at hu0 hl0 hu1 hl1 ⊢
  · linear_combination -hl0 - hu0
  · linear_combination hl1 - hu1

theorem negWLimb_eq (i : Fin 4) : negWLimb i = ((bnToLimbs (intMod - fqMod) i : ℕ) : N) := by
  unfold negWLimb
  rw [bnToN_eq]
  exact (bnToLimbs_lt (by decide +kernel)).trans (by norm_num)

/-- What the limb part of the multiplication equation says. -/
def MulLimbsEq (adv : Advice N) (a b d r : Fin 4 → AV N) : Prop :=
  ∃ v0l v0h v1l v1h : ℕ, v0l < 2 ^ 68 ∧ v1l < 2 ^ 68 ∧ v0h < 2 ^ 49 ∧ v1h < 2 ^ 49 ∧
    termsSum adv (mulLimbTerms a b d 0) + termsSum adv (mulLimbTerms a b d 1) * 2 ^ 68
        - (r 0).val adv - (r 1).val adv * 2 ^ 68 + 2 ^ 136
      = (v0l : N) * 2 ^ 136 + (v0h : N) * 2 ^ 204 ∧
    termsSum adv (mulLimbTerms a b d 2) + termsSum adv (mulLimbTerms a b d 3) * 2 ^ 68
        - (r 2).val adv - (r 3).val adv * 2 ^ 68
        + (v0l : N) + (v0h : N) * 2 ^ 68 = (v1l : N) * 2 ^ 136 + (v1h : N) * 2 ^ 204 + 1

theorem Spec.mulEqLimbs (a b : AInt) (d : Fin 4 → AV N) (rem : AInt) :
    Spec tables (mulEqLimbs a b d rem) (fun adv _ => a.overflows < 64 ∧ b.overflows < 64 ∧
      rem.overflows < 64 ∧ MulLimbsEq adv a.limbs b.limbs d rem.limbs) := by
  unfold Circuit.mulEqLimbs
  refine ((Spec.assertM _).bind fun _ => (Spec.assertM _).bind fun _ => (Spec.assertM _).bind fun _ =>
    (Spec.mulAddWithNextLine _).bind fun l0 => (Spec.mulAddWithNextLine _).bind fun l1 =>
    (Spec.mulAddWithNextLine _).bind fun l2 => (Spec.mulAddWithNextLine _).bind fun l3 =>
      Spec.mulEqTail _ _).mono ?_
  rintro adv - ⟨-, oa, -, ob, -, or, l0, h0, l1, h1, l2, h2, l3, h3, v0l, v0h, v1l, v1h, q⟩
  refine ⟨oa, ob, or, v0l, v0h, v1l, v1h, ?_⟩
  simpa only [vec4, h0, h1, h2, h3] using q

theorem mulEq_sound {adv : Advice N} {a b d r : Fin 4 → AV N} {ka kb kr : ℕ} (hka : ka ≤ 64)
    (hkb : kb ≤ 64) (hkr : kr ≤ 64) (ha : Bd ka adv a) (hb : Bd kb adv b) (hr : Bd kr adv r)
    (hd0 : lv adv (d 0) < 2 ^ 68) (hd1 : lv adv (d 1) < 2 ^ 68) (hd2 : lv adv (d 2) < 2 ^ 68)
    (hd3 : lv adv (d 3) < 2 ^ 67) (hl : MulLimbsEq adv a b d r)
    (hn : ((limbsVal adv a : ℕ) : N) * ((limbsVal adv b : ℕ) : N)
      = ((limbsVal adv d : ℕ) : N) * (fqMod : N) + ((limbsVal adv r : ℕ) : N)) :
    limbsVal adv a * limbsVal adv b = limbsVal adv d * fqMod + limbsVal adv r := by
  obtain ⟨v0l, v0h, v1l, v1h, b0l, b1l, b0h, b1h, e0, e1⟩ := hl
  have ha := ha.mono hka
  have hb := hb.mono hkb
  have hr := hr.mono hkr
  have hnb : intMod - fqMod < 2 ^ 272 := by decide +kernel
  refine mul_math (n0 := bnToLimbs (intMod - fqMod) 0) (n1 := bnToLimbs (intMod - fqMod) 1)
    (n2 := bnToLimbs (intMod - fqMod) 2) (n3 := bnToLimbs (intMod - fqMod) 3)
    (by have := ha.b0; omega) (by have := ha.b1; omega) (by have := ha.b2; omega)
    (by have := ha.b3; omega) (by have := hb.b0; omega) (by have := hb.b1; omega)
    (by have := hb.b2; omega) (by have := hb.b3; omega) hd0 hd1 hd2 hd3
    (by have := hr.b0; omega) (by have := hr.b1; omega) (by have := hr.b2; omega)
    (by have := hr.b3; omega) b0l b1l b0h b1h (bnToLimbs_lt hnb) (bnToLimbs_lt hnb)
    (bnToLimbs_lt hnb) (bnToLimbs_lt hnb) ?_ ?_ ?_ hn
  · rw [limbs4_sum]
    decide +kernel
  · push_cast
    simp only [cast_lv, ← negWLimb_eq]
    simp only [termsSum, mulLimbTerms, List.map_cons, List.map_nil, List.sum_cons, List.sum_nil,
      add_zero, negWLimb_eq] at e0 ⊢
    linear_combination e0
  · push_cast
    simp only [cast_lv, ← negWLimb_eq]
    simp only [termsSum, mulLimbTerms, List.map_cons, List.map_nil, List.sum_cons, List.sum_nil,
      add_zero, negWLimb_eq] at e1 ⊢
    linear_combination e1

theorem Spec.mulEqNative {t : Tables} (a b : AInt) (d : Fin 4 → AV N) (rem : AInt) :
    Spec t (mulEqNative a b d rem) (fun adv r => NatOk adv a → NatOk adv b → NatOk adv rem →
      ((limbsVal adv a.limbs : ℕ) : N) * ((limbsVal adv b.limbs : ℕ) : N)
        = ((limbsVal adv d : ℕ) : N) * (fqMod : N) + ((limbsVal adv rem.limbs : ℕ) : N) ∧
      (r.1.limbs = a.limbs ∧ r.1.overflows = a.overflows ∧ NatOk adv r.1) ∧
      (r.2.1.limbs = b.limbs ∧ r.2.1.overflows = b.overflows ∧ NatOk adv r.2.1) ∧
      (r.2.2.limbs = rem.limbs ∧ r.2.2.overflows = rem.overflows ∧ NatOk adv r.2.2)) := by
  constructor
  intro ctx r ctx' h adv hs
  unfold Circuit.mulEqNative at h
  simp only [bind_run, Prod.exists, pure_run] at h
  obtain ⟨an, a', c1, h1, bn, b', c2, h2, dn, c3, h3, rn, rem', c4, h4, cells, c5, h5, rfl, rfl⟩ := h
  obtain ⟨s4, i, hc, hg, -, q0, q1, q2, q3, -⟩ := (Spec.oneLine ..).run _ _ _ h5 adv hs
  obtain ⟨s3, p4⟩ := (Spec.native _).run _ _ _ h4 adv s4
  obtain ⟨s2, p3⟩ := (Spec.sumWithConstant _ _).run _ _ _ h3 adv s3
  obtain ⟨s1, p2⟩ := (Spec.native _).run _ _ _ h2 adv s2
  obtain ⟨s0, p1⟩ := (Spec.native _).run _ _ _ h1 adv s1
  refine ⟨s0, fun na nb nr => ?_⟩
  obtain ⟨e1, f1⟩ := p1 na
  obtain ⟨e2, f2⟩ := p2 nb
  obtain ⟨e4, f4⟩ := p4 nr
  refine ⟨?_, f1, f2, f4⟩
  rw [zero_add, wsum_native] at p3
  simp only at e1 e2 e4
  rw [← e1, ← e2, ← e4, ← p3, ← wNative_eq]
  simp [copyHolds, gateEval, mkRow] at hg q0 q1 q2 q3
  rw [q0, q1, q2, q3]
  linear_combination hg

theorem Spec.squareEqNative {t : Tables} (a : AInt) (d : Fin 4 → AV N) (rem : AInt) :
    Spec t (squareEqNative a d rem) (fun adv r => NatOk adv a → NatOk adv rem →
      ((limbsVal adv a.limbs : ℕ) : N) * ((limbsVal adv a.limbs : ℕ) : N)
        = ((limbsVal adv d : ℕ) : N) * (fqMod : N) + ((limbsVal adv rem.limbs : ℕ) : N) ∧
      (r.1.limbs = a.limbs ∧ r.1.overflows = a.overflows ∧ NatOk adv r.1) ∧
      (r.2.limbs = rem.limbs ∧ r.2.overflows = rem.overflows ∧ NatOk adv r.2)) := by
  constructor
  intro ctx r ctx' h adv hs
  unfold Circuit.squareEqNative at h
  simp only [bind_run, Prod.exists, pure_run] at h
  obtain ⟨an, a', c1, h1, dn, c3, h3, rn, rem', c4, h4, cells, c5, h5, rfl, rfl⟩ := h
  obtain ⟨s4, i, hc, hg, -, q0, q1, q2, q3, -⟩ := (Spec.oneLine ..).run _ _ _ h5 adv hs
  obtain ⟨s3, p4⟩ := (Spec.native _).run _ _ _ h4 adv s4
  obtain ⟨s2, p3⟩ := (Spec.sumWithConstant _ _).run _ _ _ h3 adv s3
  obtain ⟨s0, p1⟩ := (Spec.native _).run _ _ _ h1 adv s2
  refine ⟨s0, fun na nr => ?_⟩
  obtain ⟨e1, f1⟩ := p1 na
  obtain ⟨e4, f4⟩ := p4 nr
  refine ⟨?_, f1, f4⟩
  rw [zero_add, wsum_native] at p3
  simp only at e1 e4
  rw [← e1, ← e4, ← p3, ← wNative_eq]
  simp [copyHolds, gateEval, mkRow] at hg q0 q1 q2 q3
  have : an.val adv * an.val adv = adv i 0 * adv i 1 := by rw [← q0, ← q1]
  rw [this, q2, q3]
  linear_combination hg

/-- The updated argument of an operation (only the cached native value may change). -/
def Same (adv : Advice N) (a r : AInt) : Prop :=
  r.limbs = a.limbs ∧ r.overflows = a.overflows ∧ NatOk adv r

theorem Spec.imul (a b : AInt) : Spec tables (imul a b) (fun adv r => ∀ ka kb, ka ≤ 64 → kb ≤ 64 →
    Bd ka adv a.limbs → Bd kb adv b.limbs → NatOk adv a → NatOk adv b →
      limbsVal adv r.1.limbs ≡ limbsVal adv a.limbs * limbsVal adv b.limbs [MOD fqMod] ∧
      r.1.overflows = 0 ∧ Bd 1 adv r.1.limbs ∧ NatOk adv r.1 ∧ Same adv a r.2.1 ∧ Same adv b r.2.2) := by
  constructor
  intro ctx r ctx' h adv hs
  unfold Circuit.imul at h
  simp only [bind_run, Prod.exists, pure_run] at h
  obtain ⟨rem, c1, h1, d, c2, h2, _, c3, h3, a', b', rem', c4, h4, rfl, rfl⟩ := h
  obtain ⟨s3, p4⟩ := (Spec.mulEqNative ..).run _ _ _ h4 adv hs
  obtain ⟨s2, -, -, -, p3⟩ := (Spec.mulEqLimbs ..).run _ _ _ h3 adv s3
  obtain ⟨s1, d0, d1, d2, d3⟩ := (Spec.assignD _).run _ _ _ h2 adv s2
  obtain ⟨s0, pb, po, pn⟩ := (Spec.assignW _).run _ _ _ h1 adv s1
  refine ⟨s0, fun ka kb hka hkb ha hb na nb => ?_⟩
  obtain ⟨e, fa, fb, fr⟩ := p4 na nb (natOk_none pn)
  have := mulEq_sound hka hkb (by norm_num) ha hb pb d0 d1 d2 d3 p3 e
  simp only at fa fb fr
  refine ⟨?_, fr.2.1.trans po, ?_, fr.2.2, fa, fb⟩
  · rw [fr.1, this]
    simp [Nat.ModEq]
  · rw [fr.1]; exact pb

theorem Spec.isquare (a : AInt) : Spec tables (isquare a) (fun adv r => ∀ ka, ka ≤ 64 →
    Bd ka adv a.limbs → NatOk adv a →
      limbsVal adv r.1.limbs ≡ limbsVal adv a.limbs * limbsVal adv a.limbs [MOD fqMod] ∧
      r.1.overflows = 0 ∧ Bd 1 adv r.1.limbs ∧ NatOk adv r.1 ∧ Same adv a r.2) := by
  constructor
  intro ctx r ctx' h adv hs
  unfold Circuit.isquare at h
  simp only [bind_run, Prod.exists, pure_run] at h
  obtain ⟨rem, c1, h1, d, c2, h2, _, c3, h3, a', rem', c4, h4, rfl, rfl⟩ := h
  obtain ⟨s3, p4⟩ := (Spec.squareEqNative ..).run _ _ _ h4 adv hs
  obtain ⟨s2, -, -, -, p3⟩ := (Spec.mulEqLimbs ..).run _ _ _ h3 adv s3
  obtain ⟨s1, d0, d1, d2, d3⟩ := (Spec.assignD _).run _ _ _ h2 adv s2
  obtain ⟨s0, pb, po, pn⟩ := (Spec.assignW _).run _ _ _ h1 adv s1
  refine ⟨s0, fun ka hka ha na => ?_⟩
  obtain ⟨e, fa, fr⟩ := p4 na (natOk_none pn)
  have := mulEq_sound hka hka (by norm_num) ha ha pb d0 d1 d2 d3 p3 e
  simp only at fa fr
  refine ⟨?_, fr.2.1.trans po, ?_, fr.2.2, fa⟩
  · rw [fr.1, this]
    simp [Nat.ModEq]
  · rw [fr.1]; exact pb

end Verif.Circuit
