import Verif.Integer.SoundOps

/-!
# Soundness of zero tests, division, constants and selection (helper lemmas)
-/

set_option exponentiation.threshold 600

namespace Verif.Circuit

theorem limbsVal_lt {k : ℕ} {adv : Advice N} {l : Fin 4 → AV N} (h : Bd k adv l) :
    limbsVal adv l < k * 2 ^ 255 := by
  obtain ⟨h0, h1, h2, h3⟩ := h
  unfold limbsVal
  omega

theorem limbsVal_lt_one {adv : Advice N} {l : Fin 4 → AV N} (h : Bd 1 adv l) :
    limbsVal adv l < 2 ^ 254 := by
  obtain ⟨h0, h1, h2, h3⟩ := h
  unfold limbsVal
  omega

theorem limbsVal_modEq_limb0 (adv : Advice N) (l : Fin 4 → AV N) :
    limbsVal adv l ≡ lv adv (l 0) [MOD 2 ^ 68] := by
  rw [show limbsVal adv l = lv adv (l 0) + 2 ^ 68 * (lv adv (l 1) + 2 ^ 68 * lv adv (l 2)
    + 2 ^ 136 * lv adv (l 3)) from by unfold limbsVal; ring]
  exact Nat.add_mul_mod_self_left _ _ _

/-- Native value and lowest limb determine the number. -/
theorem limbsVal_eq_of {k x : ℕ} {adv : Advice N} {l : Fin 4 → AV N} (hk : k ≤ 2 ^ 38)
    (h : Bd k adv l) (hx : x < 2 ^ 300) (hn : ((limbsVal adv l : ℕ) : N) = (x : N))
    (h0 : lv adv (l 0) = x % 2 ^ 68) : limbsVal adv l = x := by
  have hB : 2 ^ 253 * 2 ^ 68 ≤ frMod * 2 ^ 68 := Nat.mul_le_mul_right _ frMod_gt.le
  apply eq_of_crt (k := 68)
  · exact modEq_of_cast hn
  · refine (limbsVal_modEq_limb0 adv l).trans ?_
    rw [h0]
    exact Nat.mod_mod _ _
  · have h1 := limbsVal_lt h
    have h2 : k * 2 ^ 255 ≤ 2 ^ 38 * 2 ^ 255 := Nat.mul_le_mul_right _ hk
    exact (h1.trans_le h2).trans_le (le_trans (by norm_num) hB)
  · exact hx.trans_le (le_trans (by norm_num) hB)

theorem Spec.isPureZero {t : Tables} (a : AInt) : Spec t (isPureZero a) (fun adv r =>
    ∀ k, k ≤ 2 ^ 38 → Bd k adv a.limbs →
      r.val adv = if limbsVal adv a.limbs = 0 then 1 else 0) := by
  unfold Circuit.isPureZero
  refine ((Spec.sumWithConstant _ _).bind fun s => Spec.isZero s).mono ?_
  rintro adv r ⟨s, hs, hr⟩ k hk hb
  rw [hr, zeroFlag]
  congr 1
  have hs' : s.val adv = ((lv adv (a.limbs 0) + lv adv (a.limbs 1) + lv adv (a.limbs 2)
      + lv adv (a.limbs 3) : ℕ) : N) := by
    push_cast
    simp only [cast_lv]
    rw [hs]
    simp [wsum]
    ring
  have hlt := lv_eq hs' (by
    obtain ⟨h0, h1, h2, h3⟩ := hb
    have : k * 2 ^ 68 ≤ 2 ^ 38 * 2 ^ 68 := Nat.mul_le_mul_right _ hk
    omega)
  have hz : s.val adv = 0 ↔ lv adv s = 0 := (ZMod.val_eq_zero _).symm
  rw [hz, hlt]
  unfold limbsVal
  apply propext
  omega

theorem Spec.isPureWModulus {t : Tables} (a : AInt) : Spec t (isPureWModulus a) (fun adv r =>
    ∀ k, k ≤ 2 ^ 38 → Bd k adv a.limbs → NatOk adv a →
      r.1.val adv = (if limbsVal adv a.limbs = fqMod ∧ lv adv (a.limbs 0) < 2 ^ 68 then 1 else 0)
        ∧ Same adv a r.2) := by
  constructor
  intro ctx r ctx' h adv hs
  unfold Circuit.isPureWModulus at h
  simp only [bind_run, Prod.exists, pure_run] at h
  obtain ⟨na, a', c1, h1, nd, c2, h2, ne, c3, h3, ld, c4, h4, le, c5, h5, f, c6, h6, rfl, rfl⟩ := h
  obtain ⟨s5, p6⟩ := (Spec.mul ..).run _ _ _ h6 adv hs
  obtain ⟨s4, p5⟩ := (Spec.isZero _).run _ _ _ h5 adv s5
  obtain ⟨s3, p4⟩ := (Spec.sumWithConstant _ _).run _ _ _ h4 adv s4
  obtain ⟨s2, p3⟩ := (Spec.isZero _).run _ _ _ h3 adv s3
  obtain ⟨s1, p2⟩ := (Spec.sumWithConstant _ _).run _ _ _ h2 adv s2
  obtain ⟨s0, p1⟩ := (Spec.native _).run _ _ _ h1 adv s1
  refine ⟨s0, fun k hk hb hn => ?_⟩
  obtain ⟨e1, e2, e3, e4⟩ := p1 hn
  simp only at e1 e2 e3 e4
  refine ⟨?_, e2, e3, e4⟩
  have hw0 : ((wLimbs 0 : ℕ) : N) = bnToN (wLimbs 0) := (bnToN_eq (by decide +kernel)).symm
  have q2 : nd.val adv = ((limbsVal adv a.limbs : ℕ) : N) - (fqMod : N) := by
    rw [p2, wNative_eq]
    simp [wsum, e1]
    ring
  have q4 : ld.val adv = ((lv adv (a.limbs 0) : ℕ) : N) - ((wLimbs 0 : ℕ) : N) := by
    rw [p4, hw0, cast_lv, e2]
    simp [wsum]
    ring
  rw [p6, p3, p5]
  unfold zeroFlag
  rw [q2, q4]
  simp only [sub_eq_zero]
  have hw0' : wLimbs 0 = fqMod % 2 ^ 68 := by decide +kernel
  by_cases hv : limbsVal adv a.limbs = fqMod ∧ lv adv (a.limbs 0) < 2 ^ 68
  · have h0 : lv adv (a.limbs 0) = wLimbs 0 := by
      have := limbsVal_modEq_limb0 adv a.limbs
      rw [hv.1] at this
      rw [hw0', ← Nat.mod_eq_of_lt hv.2]
      exact this.symm
    rw [if_pos hv]
    simp [hv.1, h0]
  · rw [if_neg hv]
    by_cases hn' : ((limbsVal adv a.limbs : ℕ) : N) = (fqMod : N)
    · have : ¬ ((lv adv (a.limbs 0) : ℕ) : N) = ((wLimbs 0 : ℕ) : N) := by
        intro h0
        have h0' : lv adv (a.limbs 0) = wLimbs 0 := nat_eq_of_cast h0 (val_lt_n _) (by decide +kernel)
        refine hv ⟨limbsVal_eq_of hk hb (fqMod_lt.trans (by norm_num)) hn' (h0'.trans hw0'), ?_⟩
        rw [h0']
        exact wLimb0_lt
      simp [this]
    · simp [hn']

/-- The exact meaning of the zero flag: the (reduced) number is `0`, or it is `w` with a lowest limb
below `2^68`. -/
def ZeroRep (adv : Advice N) (l : Fin 4 → AV N) : Prop :=
  limbsVal adv l = 0 ∨ limbsVal adv l = fqMod ∧ lv adv (l 0) < 2 ^ 68

theorem zeroRep_iff {adv : Advice N} {l : Fin 4 → AV N} (h : Bd 1 adv l) :
    ZeroRep adv l ↔ limbsVal adv l ≡ 0 [MOD fqMod] := by
  have hlt := limbsVal_lt_one h
  have h2 : 2 ^ 254 < 2 * fqMod := by decide +kernel
  have h0 := h.b0
  rw [one_mul] at h0
  unfold ZeroRep
  rw [Nat.modEq_zero_iff_dvd]
  constructor
  · rintro (h | ⟨h, -⟩) <;> rw [h]
    exact dvd_zero _
  · rintro ⟨c, hc⟩
    have : c < 2 := by
      by_contra hc'
      have : fqMod * 2 ≤ fqMod * c := Nat.mul_le_mul_left _ (by omega)
      omega
    interval_cases c
    · left; omega
    · right; omega

theorem zeroRep_modEq {adv : Advice N} {l : Fin 4 → AV N} (h : ZeroRep adv l) :
    limbsVal adv l ≡ 0 [MOD fqMod] := by
  rcases h with h | ⟨h, -⟩ <;> rw [h]
  simp [Nat.ModEq]

open Classical in
theorem Spec.iisZero (a : AInt) : Spec tables (iisZero a) (fun adv r =>
    ∀ k, k ≤ 2 ^ 38 → Bd k adv a.limbs → NatOk adv a →
      r.1.val adv = (if ZeroRep adv r.2.limbs then 1 else 0) ∧ Reduced adv a r.2 ∧
      (a.overflows = 0 ∧ r.2.limbs = a.limbs ∧ r.2.overflows = 0
        ∨ 0 < a.overflows ∧ a.overflows < 64 ∧ r.2.overflows = 0 ∧ Bd 1 adv r.2.limbs)) := by
  constructor
  intro ctx r ctx' h adv hs
  unfold Circuit.iisZero at h
  simp only [bind_run, Prod.exists, pure_run] at h
  obtain ⟨a1, c1, h1, z, c2, h2, m, a2, c3, h3, f, c4, h4, rfl, rfl⟩ := h
  obtain ⟨s3, p4⟩ := (Spec.or ..).run _ _ _ h4 adv hs
  obtain ⟨s2, p3⟩ := (Spec.isPureWModulus _).run _ _ _ h3 adv s3
  obtain ⟨s1, p2⟩ := (Spec.isPureZero _).run _ _ _ h2 adv s2
  obtain ⟨s0, p1⟩ := (Spec.reduce _).run _ _ _ h1 adv s1
  refine ⟨s0, fun k hk hb hn => ?_⟩
  obtain ⟨hred, hcase⟩ := p1 k hk hb hn
  have hb1 : ∃ k', k' ≤ 2 ^ 38 ∧ Bd k' adv a1.limbs := by
    rcases hcase with ⟨-, rfl⟩ | ⟨-, -, -, hb'⟩
    · exact ⟨k, hk, hb⟩
    · exact ⟨1, by norm_num, hb'⟩
  obtain ⟨k', hk', hb'⟩ := hb1
  have q2 := p2 k' hk' hb'
  obtain ⟨q3, hl, ho, hnat⟩ := p3 k' hk' hb' hred.2
  simp only at q3 hl ho hnat
  refine ⟨?_, ⟨?_, hnat⟩, ?_⟩
  · rw [p4, q2, q3]
    simp only [ZeroRep, hl]
    have hw : fqMod ≠ 0 := by decide +kernel
    by_cases e1 : limbsVal adv a1.limbs = 0
    · have : ¬ (limbsVal adv a1.limbs = fqMod ∧ lv adv (a1.limbs 0) < 2 ^ 68) := by omega
      rw [if_pos e1, if_neg this, if_pos (.inl e1)]
      ring
    · by_cases e2 : limbsVal adv a1.limbs = fqMod ∧ lv adv (a1.limbs 0) < 2 ^ 68
      · rw [if_neg e1, if_pos e2, if_pos (.inr e2)]; ring
      · rw [if_neg e1, if_neg e2, if_neg (not_or.2 ⟨e1, e2⟩)]; ring
  · simp only [hl]; exact hred.1
  · rcases hcase with ⟨h0, rfl⟩ | ⟨h0, h1, h2, h3⟩
    · exact .inl ⟨h0, hl, ho.trans h0⟩
    · exact .inr ⟨h0, h1, ho.trans h2, by simp only [hl]; exact h3⟩

/-- `sub` followed by `reduce`: always a fresh bound. -/
theorem Spec.iassertEqual (a b : AInt) : Spec tables (iassertEqual a b) (fun adv _ => ∀ ka, ka ≤ 2 ^ 37 →
    b.overflows < 64 → Bd ka adv a.limbs → Bd (b.overflows + 1) adv b.limbs →
      limbsVal adv a.limbs ≡ limbsVal adv b.limbs [MOD fqMod]) := by
  constructor
  intro ctx r ctx' h adv hs
  unfold Circuit.iassertEqual at h
  simp only [bind_run, Prod.exists, pure_run] at h
  obtain ⟨df, c1, h1, df', c2, h2, dn, df'', c3, h3, _, c4, h4, h5⟩ := h
  obtain ⟨s4, p5⟩ := (Spec.assertConstant ..).run _ _ _ h5 adv hs
  obtain ⟨s3, p4⟩ := (Spec.assertConstant ..).run _ _ _ h4 adv s4
  obtain ⟨s2, p3⟩ := (Spec.native _).run _ _ _ h3 adv s3
  obtain ⟨s1, p2⟩ := (Spec.reduce _).run _ _ _ h2 adv s2
  obtain ⟨s0, p1⟩ := (Spec.isub _ _).run _ _ _ h1 adv s1
  refine ⟨s0, fun ka hka hob ha hb => ?_⟩
  obtain ⟨hmod, hnat, hcase⟩ := p1 ka hka hob ha hb
  have hbd : ∃ k, k ≤ 2 ^ 38 ∧ Bd k adv df.limbs := by
    rcases hcase with ⟨-, -, hb'⟩ | ⟨-, hb'⟩
    · exact ⟨_, by omega, hb'⟩
    · exact ⟨1, by norm_num, hb'⟩
  obtain ⟨k, hk, hbk⟩ := hbd
  obtain ⟨⟨hm2, hnat2⟩, hcase2⟩ := p2 k hk hbk hnat
  have hb1 : ∃ k, k ≤ 2 ^ 38 ∧ Bd k adv df'.limbs := by
    rcases hcase2 with ⟨-, rfl⟩ | ⟨-, -, -, hb'⟩
    · exact ⟨k, hk, hbk⟩
    · exact ⟨1, by norm_num, hb'⟩
  obtain ⟨k1, hk1, hb1⟩ := hb1
  obtain ⟨q1, q2, -, -⟩ := p3 hnat2
  simp only at q1 q2
  have hz : limbsVal adv df'.limbs = 0 := by
    refine limbsVal_eq_of hk1 hb1 (by norm_num) ?_ ?_
    · rw [← q1, p4]; simp
    · rw [q2] at p5
      simp [lv, p5]
  have h0 : limbsVal adv df.limbs ≡ 0 [MOD fqMod] := by rw [← hz]; exact hm2.symm
  exact (hmod.symm.trans (h0.add_right _)).trans (by rw [zero_add])

open Classical in
theorem Spec.iisEqual (a b : AInt) : Spec tables (iisEqual a b) (fun adv r => ∀ ka, ka ≤ 2 ^ 37 →
    b.overflows < 64 → Bd ka adv a.limbs → Bd (b.overflows + 1) adv b.limbs →
      r.val adv = if limbsVal adv a.limbs ≡ limbsVal adv b.limbs [MOD fqMod] then 1 else 0) := by
  constructor
  intro ctx r ctx' h adv hs
  unfold Circuit.iisEqual at h
  simp only [bind_run, Prod.exists, pure_run] at h
  obtain ⟨df, c1, h1, f, df', c2, h2, rfl, rfl⟩ := h
  obtain ⟨s1, p2⟩ := (Spec.iisZero _).run _ _ _ h2 adv hs
  obtain ⟨s0, p1⟩ := (Spec.isub _ _).run _ _ _ h1 adv s1
  refine ⟨s0, fun ka hka hob ha hb => ?_⟩
  obtain ⟨hmod, hnat, hcase⟩ := p1 ka hka hob ha hb
  have hbd : ∃ k, k ≤ 2 ^ 38 ∧ Bd k adv df.limbs := by
    rcases hcase with ⟨-, -, hb'⟩ | ⟨-, hb'⟩
    · exact ⟨_, by omega, hb'⟩
    · exact ⟨1, by norm_num, hb'⟩
  obtain ⟨k, hk, hbk⟩ := hbd
  obtain ⟨q1, ⟨q2, -⟩, hcase2⟩ := p2 k hk hbk hnat
  have hb1 : Bd 1 adv df'.limbs := by
    rcases hcase2 with ⟨h0, hl, -⟩ | ⟨-, -, -, hb'⟩
    · rcases hcase with ⟨-, h0', -⟩ | ⟨-, hb'⟩
      · omega
      · simp only at hl; rw [hl]; exact hb'
    · exact hb'
  rw [q1]
  simp only
  have : ZeroRep adv df'.limbs ↔ limbsVal adv a.limbs ≡ limbsVal adv b.limbs [MOD fqMod] := by
    rw [zeroRep_iff hb1]
    constructor
    · intro hz
      have h0 : limbsVal adv df.limbs ≡ 0 [MOD fqMod] := q2.symm.trans hz
      exact (hmod.symm.trans (h0.add_right _)).trans (by rw [zero_add])
    · intro he
      have : limbsVal adv df.limbs + limbsVal adv b.limbs ≡ 0 + limbsVal adv b.limbs [MOD fqMod] := by
        rw [zero_add]; exact hmod.trans he
      exact q2.trans (Nat.ModEq.add_right_cancel' _ this)
  simp only [this]

/-! ### Division -/

theorem scale_limb {adv : Advice N} {a c f : AV N} (hc : c.val adv = a.val adv * f.val adv)
    (hf : f.val adv = 0 ∨ f.val adv = 1) :
    lv adv c = if f.val adv = 0 then 0 else lv adv a := by
  unfold lv
  rcases hf with h | h <;> rw [hc, h] <;> simp

theorem scale_bd {adv : Advice N} {k : ℕ} (hk : 0 < k) {a l : Fin 4 → AV N} {f : AV N}
    (h : ∀ i, (l i).val adv = (a i).val adv * f.val adv) (hf : f.val adv = 0 ∨ f.val adv = 1)
    (ha : Bd k adv a) :
    Bd k adv l ∧ limbsVal adv l = if f.val adv = 0 then 0 else limbsVal adv a := by
  have e := fun i => scale_limb (h i) hf
  obtain ⟨b0, b1, b2, b3⟩ := ha
  unfold limbsVal
  rw [e 0, e 1, e 2, e 3]
  split
  · next h0 =>
    simp only [h0, if_true] at e
    exact ⟨⟨by rw [e 0]; omega, by rw [e 1]; omega, by rw [e 2]; omega, by rw [e 3]; omega⟩, by simp⟩
  · next h0 =>
    simp only [h0, if_false] at e
    exact ⟨⟨by rw [e 0]; exact b0, by rw [e 1]; exact b1, by rw [e 2]; exact b2,
      by rw [e 3]; exact b3⟩, rfl⟩

open Classical in
theorem Spec.idiv (a b : AInt) : Spec tables (idiv a b) (fun adv r => ∀ ka kb, 0 < ka → ka ≤ 64 → kb ≤ 64 →
    Bd ka adv a.limbs → Bd kb adv b.limbs → NatOk adv a → NatOk adv b →
      r.1.val adv = (if ZeroRep adv r.2.2.2.limbs then 1 else 0) ∧
      limbsVal adv r.2.2.2.limbs * limbsVal adv r.2.1.limbs ≡
        (if ZeroRep adv r.2.2.2.limbs then 0 else limbsVal adv a.limbs) [MOD fqMod] ∧
      (r.2.1.overflows = 0 ∧ Bd 1 adv r.2.1.limbs ∧ NatOk adv r.2.1) ∧
      Reduced adv a r.2.2.1 ∧ Reduced adv b r.2.2.2 ∧
      (a.overflows = 0 ∧ r.2.2.1.limbs = a.limbs ∧ r.2.2.1.overflows = 0
        ∨ 0 < a.overflows ∧ a.overflows < 64 ∧ r.2.2.1.overflows = 0 ∧ Bd 1 adv r.2.2.1.limbs) ∧
      (b.overflows = 0 ∧ r.2.2.2.limbs = b.limbs ∧ r.2.2.2.overflows = 0
        ∨ 0 < b.overflows ∧ b.overflows < 64 ∧ r.2.2.2.overflows = 0 ∧ Bd 1 adv r.2.2.2.limbs)) := by
  constructor
  intro ctx r ctx' h adv hs
  unfold Circuit.idiv at h
  simp only [bind_run, Prod.exists, pure_run] at h
  obtain ⟨z, b1, c1, h1, co, c2, h2, a1, c3, h3, l0, c4, h4, l1, c5, h5, l2, c6, h6, l3, c7, h7, df, c8,
    h8, c, c9, h9, d, c10, h10, _, c11, h11, b2, cc, a2, c12, h12, rfl, rfl⟩ := h
  obtain ⟨s11, p12⟩ := (Spec.mulEqNative ..).run _ _ _ h12 adv hs
  obtain ⟨s10, -, -, -, p11⟩ := (Spec.mulEqLimbs ..).run _ _ _ h11 adv s11
  obtain ⟨s9, d0, d1, d2, d3⟩ := (Spec.assignD _).run _ _ _ h10 adv s10
  obtain ⟨s8, pb, po, pn⟩ := (Spec.assignW _).run _ _ _ h9 adv s9
  obtain ⟨s7, -⟩ := (Spec.unwrapM _).run _ _ _ h8 adv s8
  obtain ⟨s6, p7⟩ := (Spec.mul ..).run _ _ _ h7 adv s7
  obtain ⟨s5, p6⟩ := (Spec.mul ..).run _ _ _ h6 adv s6
  obtain ⟨s4, p5⟩ := (Spec.mul ..).run _ _ _ h5 adv s5
  obtain ⟨s3, p4⟩ := (Spec.mul ..).run _ _ _ h4 adv s4
  obtain ⟨s2, p3⟩ := (Spec.reduce _).run _ _ _ h3 adv s3
  obtain ⟨s1, p2⟩ := (Spec.not _).run _ _ _ h2 adv s2
  obtain ⟨s0, p1⟩ := (Spec.iisZero _).run _ _ _ h1 adv s1
  refine ⟨s0, fun ka kb hka0 hka hkb ha hb na nb => ?_⟩
  obtain ⟨q1, q2, q3⟩ := p1 kb (by omega) hb nb
  simp only at q1 q2 q3
  obtain ⟨r1, r2⟩ := p3 ka (by omega) ha na
  have hbb : Bd 64 adv b1.limbs := by
    rcases q3 with ⟨-, hl, -⟩ | ⟨-, -, -, hb'⟩
    · rw [hl]; exact hb.mono hkb
    · exact hb'.mono (by norm_num)
  have haa : Bd 64 adv a1.limbs := by
    rcases r2 with ⟨-, rfl⟩ | ⟨-, -, -, hb'⟩
    · exact ha.mono hka
    · exact hb'.mono (by norm_num)
  have hco : co.val adv = if ZeroRep adv b1.limbs then 0 else 1 := by
    rw [p2, q1]; split <;> simp
  have hco01 : co.val adv = 0 ∨ co.val adv = 1 := by
    rw [hco]; split <;> simp
  obtain ⟨w1, w2⟩ := scale_bd (l := vec4 l0 l1 l2 l3) (a := a1.limbs) (f := co) (by norm_num : 0 < 64)
    (by intro i; fin_cases i <;> assumption) hco01 haa
  obtain ⟨e, fb, fc, fr⟩ := p12 q2.2 (natOk_none pn) (natOk_none rfl)
  have hmul := mulEq_sound le_rfl (by norm_num : 1 ≤ 64) le_rfl hbb pb w1 d0 d1 d2 d3 p11 e
  simp only at fb fc
  refine ⟨?_, ?_, ⟨fc.2.1.trans po, ?_, fc.2.2⟩, r1, ?_, ?_, ?_⟩
  · simp only [fb.1]; exact q1
  · simp only [fb.1, fc.1]
    rw [hmul]
    have e1 : limbsVal adv d * fqMod + limbsVal adv (AInt.new (vec4 l0 l1 l2 l3) a1.overflows).limbs
        ≡ limbsVal adv (vec4 l0 l1 l2 l3) [MOD fqMod] := by simp [Nat.ModEq, AInt.new]
    refine e1.trans ?_
    rw [w2, hco]
    by_cases hz : ZeroRep adv b1.limbs
    · simp [hz]; rfl
    · simpa [hz] using r1.1
  · rw [fc.1]; exact pb
  · exact ⟨by simp only [fb.1]; exact q2.1, fb.2.2⟩
  · rcases r2 with ⟨h0, rfl⟩ | h'
    · exact .inl ⟨h0, rfl, h0⟩
    · exact .inr h'
  · simp only [fb.1, fb.2.1]
    exact q3

/-! ### Constants, small multiples, selection, parity -/

theorem Spec.iassignConstant {t : Tables} (w : W) : Spec t (iassignConstant w) (fun adv r =>
    limbsVal adv r.limbs = w.val ∧ Bd 1 adv r.limbs ∧ r.overflows = 0 ∧ r.native = none) := by
  unfold Circuit.iassignConstant
  refine ((Spec.assignConstant _).bind fun l0 => (Spec.assignConstant _).bind fun l1 =>
    (Spec.assignConstant _).bind fun l2 => (Spec.assignConstant _).bind fun l3 => Spec.pure _).mono ?_
  rintro adv r ⟨l0, h0, l1, h1, l2, h2, l3, h3, rfl⟩
  have hlt : w.val < 2 ^ 254 := (ZMod.val_lt w).trans fqMod_lt
  have hb : ∀ i, bnToLimbs w.val i < 2 ^ 68 := fun i => bnToLimbs_lt (hlt.trans (by norm_num))
  have hl : ∀ i (l : AV N), l.val adv = bnToLimbsN (wToBn w) i → lv adv l = bnToLimbs w.val i := by
    intro i l h
    refine lv_eq ?_ ((hb i).trans (by norm_num))
    rw [h, bnToLimbsN, wToBn, bnToN_eq ((hb i).trans (by norm_num))]
  have h3' : bnToLimbs w.val 3 < 2 ^ 50 := by
    simp only [bnToLimbs, limbWidth_eq, Nat.shiftRight_eq_div_pow]
    omega
  refine ⟨?_, ⟨?_, ?_, ?_, ?_⟩, rfl, rfl⟩
  · simp only [AInt.new, limbsVal_vec4, hl _ _ h0, hl _ _ h1, hl _ _ h2, hl _ _ h3]
    exact limbs4_sum
  · simpa [AInt.new, vec4, hl _ _ h0] using hb 0
  · simpa [AInt.new, vec4, hl _ _ h1] using hb 1
  · simpa [AInt.new, vec4, hl _ _ h2] using hb 2
  · simpa [AInt.new, vec4, hl _ _ h3] using h3'

theorem small_limb {adv : Advice N} {a c : AV N} {b k m : ℕ} (hb0 : 0 < b)
    (hc : c.val adv = 0 + wsum adv [(a, (b : N))]) (ha : lv adv a < k * m)
    (hm : (k * b) * m ≤ 2 ^ 253) :
    lv adv c = b * lv adv a ∧ lv adv c < (k * b) * m := by
  refine lv_of_nat ?_ ?_ hm
  · push_cast
    rw [cast_lv, hc]
    simp [wsum]
  · calc b * lv adv a < b * (k * m) := Nat.mul_lt_mul_of_pos_left ha hb0
      _ = _ := by ring

theorem Spec.imulSmallConstant (a : AInt) (b : ℕ) : Spec tables (imulSmallConstant a b) (fun adv r =>
    ∀ k, 0 < k → k ≤ 2 ^ 32 → 0 < b → Bd k adv a.limbs → NatOk adv a →
      limbsVal adv r.1.limbs ≡ b * limbsVal adv a.limbs [MOD fqMod] ∧ NatOk adv r.1 ∧ Reduced adv a r.2 ∧
      (r.1.overflows = r.2.overflows * b ∧ r.2.overflows * b < 32 ∧ Bd (k * b) adv r.1.limbs
        ∨ r.1.overflows = 0 ∧ Bd 1 adv r.1.limbs) ∧
      (r.2 = a ∨ r.2.overflows = 0 ∧ Bd 1 adv r.2.limbs)) := by
  constructor
  intro ctx r ctx' h adv hs
  unfold Circuit.imulSmallConstant at h
  simp only [bind_run, Prod.exists, pure_run] at h
  obtain ⟨_, c1, h1, a1, c2, h2, l0, c3, h3, l1, c4, h4, l2, c5, h5, l3, c6, h6, r1, c7, h7, rfl, rfl⟩ := h
  obtain ⟨s6, p7⟩ := (Spec.conditionallyReduce _).run _ _ _ h7 adv hs
  obtain ⟨s5, p6⟩ := (Spec.sumWithConstant _ _).run _ _ _ h6 adv s6
  obtain ⟨s4, p5⟩ := (Spec.sumWithConstant _ _).run _ _ _ h5 adv s5
  obtain ⟨s3, p4⟩ := (Spec.sumWithConstant _ _).run _ _ _ h4 adv s4
  obtain ⟨s2, p3⟩ := (Spec.sumWithConstant _ _).run _ _ _ h3 adv s3
  have p2 : Sat tables c1 adv ∧ ∀ k, k ≤ 2 ^ 38 → Bd k adv a.limbs → NatOk adv a →
      Reduced adv a a1 ∧ (a1 = a ∨ a1.overflows = 0 ∧ Bd 1 adv a1.limbs) := by
    split at h2
    · obtain ⟨s1, p2⟩ := (Spec.reduce _).run _ _ _ h2 adv s2
      refine ⟨s1, fun k hk hb hn => ?_⟩
      obtain ⟨q1, ⟨-, q2⟩ | ⟨-, -, q2⟩⟩ := p2 k hk hb hn
      · exact ⟨q1, .inl q2⟩
      · exact ⟨q1, .inr q2⟩
    · rw [pure_run] at h2
      obtain ⟨rfl, rfl⟩ := h2
      exact ⟨s2, fun k hk hb hn => ⟨⟨rfl, hn⟩, .inl rfl⟩⟩
  obtain ⟨s1, p2⟩ := p2
  obtain ⟨s0, p1⟩ := (Spec.assertM _).run _ _ _ h1 adv s1
  refine ⟨s0, fun k hk0 hk hb0 hb hn => ?_⟩
  have hb64 : b < 64 := p1
  obtain ⟨⟨q1, q1n⟩, q2⟩ := p2 k (by omega) hb hn
  have hbd1 : Bd k adv a1.limbs := by
    rcases q2 with rfl | ⟨-, q2⟩
    · exact hb
    · exact q2.mono hk0
  have hkb : k * b ≤ 2 ^ 38 := by
    calc k * b ≤ 2 ^ 32 * 2 ^ 6 := Nat.mul_le_mul hk (by omega)
      _ = 2 ^ 38 := by norm_num
  have hm : (k * b) * 2 ^ 68 ≤ 2 ^ 253 := by
    calc (k * b) * 2 ^ 68 ≤ 2 ^ 38 * 2 ^ 68 := Nat.mul_le_mul_right _ hkb
      _ ≤ 2 ^ 253 := by norm_num
  have hm' : (k * b) * 2 ^ 50 ≤ 2 ^ 253 := le_trans (Nat.mul_le_mul_left _ (by norm_num)) hm
  obtain ⟨e0, b0⟩ := small_limb hb0 p3 hbd1.b0 hm
  obtain ⟨e1, b1⟩ := small_limb hb0 p4 hbd1.b1 hm
  obtain ⟨e2, b2⟩ := small_limb hb0 p5 hbd1.b2 hm
  obtain ⟨e3, b3⟩ := small_limb hb0 p6 hbd1.b3 hm'
  have hbd : Bd (k * b) adv (AInt.new (vec4 l0 l1 l2 l3) (a1.overflows * b)).limbs :=
    ⟨b0, b1, b2, b3⟩
  have hcl := Reduced.close (p7 _ hkb hbd (natOk_none rfl)) hbd
  have e : limbsVal adv (vec4 l0 l1 l2 l3) = b * limbsVal adv a1.limbs := by
    rw [limbsVal_vec4, e0, e1, e2, e3]
    unfold limbsVal
    ring
  refine ⟨?_, hcl.2.1, ⟨q1, q1n⟩, ?_, q2⟩
  · refine hcl.1.trans ?_
    simp only [AInt.new, e]
    exact q1.mul_left b
  · rcases hcl.2.2 with ⟨g1, g2, g3⟩ | g
    · exact .inl ⟨g2, g1, g3⟩
    · exact .inr g

theorem Spec.ibisec {t : Tables} (cond : AV N) (a b : AInt) : Spec t (ibisec cond a b) (fun adv r =>
    (cond.val adv = 1 → ∀ i, lv adv (r.limbs i) = lv adv (a.limbs i)) ∧
    (cond.val adv = 0 → ∀ i, lv adv (r.limbs i) = lv adv (b.limbs i)) ∧
    r.overflows = max a.overflows b.overflows ∧ r.native = none) := by
  unfold Circuit.ibisec
  refine ((Spec.bisec ..).bind fun l0 => (Spec.bisec ..).bind fun l1 =>
    (Spec.bisec ..).bind fun l2 => (Spec.bisec ..).bind fun l3 => Spec.pure _).mono ?_
  rintro adv r ⟨l0, h0, l1, h1, l2, h2, l3, h3, rfl⟩
  refine ⟨?_, ?_, ?_, rfl⟩
  · intro hc i
    rw [hc] at h0 h1 h2 h3
    unfold lv
    congr 1
    fin_cases i <;> simp [AInt.new, vec4, *]
  · intro hc i
    rw [hc] at h0 h1 h2 h3
    unfold lv
    congr 1
    fin_cases i <;> simp [AInt.new, vec4, *]
  · simp only [AInt.new]
    split <;> omega

theorem limbsVal_congr {adv : Advice N} {l l' : Fin 4 → AV N}
    (h : ∀ i, lv adv (l i) = lv adv (l' i)) : limbsVal adv l = limbsVal adv l' := by
  unfold limbsVal
  rw [h, h, h, h]

theorem Bd.congr {k : ℕ} {adv : Advice N} {l l' : Fin 4 → AV N} (hb : Bd k adv l')
    (h : ∀ i, lv adv (l i) = lv adv (l' i)) : Bd k adv l := by
  obtain ⟨b0, b1, b2, b3⟩ := hb
  exact ⟨by rw [h]; exact b0, by rw [h]; exact b1, by rw [h]; exact b2, by rw [h]; exact b3⟩

theorem Spec.getLastBit (a : AInt) : Spec tables (getLastBit a) (fun adv r =>
    r.val adv = ((limbsVal adv a.limbs % 2 : ℕ) : N)) := by
  unfold Circuit.getLastBit
  refine ((Spec.assignNonleadingLimb _).bind fun d => (Spec.oneLine ..).bind fun cells =>
    (Spec.assertBit _).bind fun _ => Spec.pure _).mono ?_
  rintro adv r ⟨d, hd, cells, ⟨i, hc, hg, -, h0, -, h2, -⟩, -, hbit, rfl⟩
  simp [copyHolds, gateEval, mkRow] at hg h0 h2
  have hcell : (cells 1).val adv = adv i 1 := by simp [AV.val, hc]
  have hpar : limbsVal adv a.limbs % 2 = lv adv (a.limbs 0) % 2 := by unfold limbsVal; omega
  rw [hpar]
  have hl : ∀ b : ℕ, b < 2 → (cells 1).val adv = (b : N) → lv adv (a.limbs 0) = lv adv d * 2 + b := by
    intro b hb hbv
    have hd' : lv adv d < 2 ^ 68 := hd
    refine lv_eq ?_ (by omega)
    push_cast
    rw [cast_lv, h0, h2, ← hbv, hcell]
    linear_combination -hg
  rcases hbit with h | h
  · have := hl 0 (by norm_num) (by rw [h]; simp)
    rw [h, this]
    simp
  · have := hl 1 (by norm_num) (by rw [h]; simp)
    rw [h, this]
    simp [Nat.add_mod]

end Verif.Circuit
