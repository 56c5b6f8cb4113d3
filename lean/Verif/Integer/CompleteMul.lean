import Verif.Integer.CompleteOps

/-!
# Completeness of the integer chip (helper lemmas): multiplication
-/

set_option exponentiation.threshold 600

namespace Verif.Circuit

/-- The honest carries of the multiplication equation exist and are in range, for a remainder with limbs up to
four times the unit, provided that the low carry is not negative. -/
theorem mul_honest {a0 a1 a2 a3 b0 b1 b2 b3 d0 d1 d2 d3 r0 r1 r2 r3 n0 n1 n2 n3 : ℕ}
    (ha0 : a0 < 2 ^ 74) (ha1 : a1 < 2 ^ 74) (ha2 : a2 < 2 ^ 74) (ha3 : a3 < 2 ^ 56)
    (hb0 : b0 < 2 ^ 74) (hb1 : b1 < 2 ^ 74) (hb2 : b2 < 2 ^ 74) (hb3 : b3 < 2 ^ 56)
    (hd0 : d0 < 2 ^ 68) (hd1 : d1 < 2 ^ 68) (hd2 : d2 < 2 ^ 68) (hd3 : d3 < 2 ^ 67)
    (hr0 : r0 < 2 ^ 70) (hr1 : r1 < 2 ^ 70) (hr2 : r2 < 2 ^ 70) (hr3 : r3 < 2 ^ 52)
    (hlow : r0 + 2 ^ 68 * r1 ≤ a0 * b0 + n0 * d0 + 2 ^ 68 * (a0 * b1 + n1 * d0 + (a1 * b0 + n0 * d1)) + 2 ^ 136)
    (hn0 : n0 < 2 ^ 68) (hn1 : n1 < 2 ^ 68) (hn2 : n2 < 2 ^ 68) (hn3 : n3 < 2 ^ 68)
    (hnw : n0 + 2 ^ 68 * n1 + 2 ^ 136 * n2 + 2 ^ 204 * n3 + fqMod = 2 ^ 272)
    (he : (a0 + 2 ^ 68 * a1 + 2 ^ 136 * a2 + 2 ^ 204 * a3)
        * (b0 + 2 ^ 68 * b1 + 2 ^ 136 * b2 + 2 ^ 204 * b3)
      = (d0 + 2 ^ 68 * d1 + 2 ^ 136 * d2 + 2 ^ 204 * d3) * fqMod
        + (r0 + 2 ^ 68 * r1 + 2 ^ 136 * r2 + 2 ^ 204 * r3)) :
    ∃ V0 V1 : ℕ, V0 < 2 ^ 117 ∧ V1 < 2 ^ 117 ∧
      a0 * b0 + n0 * d0 + 2 ^ 68 * (a0 * b1 + n1 * d0 + (a1 * b0 + n0 * d1)) + 2 ^ 136
        = r0 + 2 ^ 68 * r1 + 2 ^ 136 * V0 ∧
      a0 * b2 + n2 * d0 + (a1 * b1 + n1 * d1) + (a2 * b0 + n0 * d2)
        + 2 ^ 68 * (a0 * b3 + n3 * d0 + (a1 * b2 + n2 * d1) + (a2 * b1 + n1 * d2) + (a3 * b0 + n0 * d3))
        + V0 = 1 + r2 + 2 ^ 68 * r3 + 2 ^ 136 * V1 := by
  have prodA : ∀ {x y : ℕ}, x < 2 ^ 74 → y < 2 ^ 74 → x * y < 2 ^ 148 := fun hx hy =>
    (Nat.mul_lt_mul'' hx hy).trans_le (by norm_num)
  have prodD : ∀ {x y : ℕ}, x < 2 ^ 68 → y < 2 ^ 68 → x * y < 2 ^ 136 := fun hx hy =>
    (Nat.mul_lt_mul'' hx hy).trans_le (by norm_num)
  have hb3' : b3 < 2 ^ 74 := by omega
  have ha3' : a3 < 2 ^ 74 := by omega
  have hd3' : d3 < 2 ^ 68 := by omega
  have hw : (fqMod : ℤ) = 2 ^ 272 - (n0 + 2 ^ 68 * n1 + 2 ^ 136 * n2 + 2 ^ 204 * n3) := by
    have : ((n0 + 2 ^ 68 * n1 + 2 ^ 136 * n2 + 2 ^ 204 * n3 + fqMod : ℕ) : ℤ) = ((2 ^ 272 : ℕ) : ℤ) := by
      rw [hnw]
    push_cast at this
    linear_combination this
  have hz := congrArg (Nat.cast (R := ℤ)) he
  push_cast at hz
  rw [hw] at hz
  obtain ⟨L0, hL0⟩ : ∃ L0, L0 = a0 * b0 + n0 * d0 := ⟨_, rfl⟩
  obtain ⟨L1, hL1⟩ : ∃ L1, L1 = a0 * b1 + n1 * d0 + (a1 * b0 + n0 * d1) := ⟨_, rfl⟩
  obtain ⟨L2, hL2⟩ : ∃ L2, L2 = a0 * b2 + n2 * d0 + (a1 * b1 + n1 * d1) + (a2 * b0 + n0 * d2) := ⟨_, rfl⟩
  obtain ⟨L3, hL3⟩ : ∃ L3, L3 = a0 * b3 + n3 * d0 + (a1 * b2 + n2 * d1) + (a2 * b1 + n1 * d2)
      + (a3 * b0 + n0 * d3) := ⟨_, rfl⟩
  have bL0 : L0 < 2 ^ 151 := by
    have := prodA ha0 hb0; have := prodD hn0 hd0; omega
  have bL1 : L1 < 2 ^ 151 := by
    have := prodA ha0 hb1; have := prodA ha1 hb0; have := prodD hn1 hd0; have := prodD hn0 hd1; omega
  have bL2 : L2 < 2 ^ 151 := by
    have := prodA ha0 hb2; have := prodA ha1 hb1; have := prodA ha2 hb0
    have := prodD hn2 hd0; have := prodD hn1 hd1; have := prodD hn0 hd2; omega
  have bL3 : L3 < 2 ^ 151 := by
    have := prodA ha0 hb3'; have := prodA ha1 hb2; have := prodA ha2 hb1; have := prodA ha3' hb0
    have := prodD hn3 hd0; have := prodD hn2 hd1; have := prodD hn1 hd2; have := prodD hn0 hd3'; omega
  obtain ⟨V1, hV1⟩ : ∃ V1 : ℤ, V1 = (d0 + 2 ^ 68 * d1 + 2 ^ 136 * d2 + 2 ^ 204 * d3) -
      ((a1 * b3 + a2 * b2 + a3 * b1 + d1 * n3 + d2 * n2 + d3 * n1)
      + 2 ^ 68 * (a2 * b3 + a3 * b2 + d2 * n3 + d3 * n2) + 2 ^ 136 * (a3 * b3 + d3 * n3)) := ⟨_, rfl⟩
  have hsum : (L0 : ℤ) + 2 ^ 68 * L1 + 2 ^ 136 * (L2 + 2 ^ 68 * L3) = 2 ^ 272 * V1 + r0 + 2 ^ 68 * r1
      + 2 ^ 136 * (r2 + 2 ^ 68 * r3) := by
    rw [hV1]
    subst hL0 hL1 hL2 hL3
    push_cast
    linear_combination hz
  rw [← hL0, ← hL1, ← hL2, ← hL3]
  rw [← hL0, ← hL1] at hlow
  clear hz he hV1 hL0 hL1 hL2 hL3 hw hnw
  obtain ⟨K, hK⟩ : ∃ K : ℤ, K = 2 ^ 136 * V1 + (r2 + 2 ^ 68 * r3) - (L2 + 2 ^ 68 * L3) := ⟨_, rfl⟩
  have hK1 : (L0 : ℤ) + 2 ^ 68 * L1 = r0 + 2 ^ 68 * r1 + 2 ^ 136 * K := by
    rw [hK]; linear_combination hsum
  have hK0 : -1 ≤ K := by omega
  have hK2 : K < 2 ^ 100 := by omega
  have hV0 : 0 ≤ V1 := by omega
  have hV2 : V1 < 2 ^ 100 := by omega
  refine ⟨(K + 1).toNat, V1.toNat, by omega, by omega, by omega, by omega⟩

theorem two136_ne : (2 : N) ^ 136 ≠ 0 := by
  apply pow_ne_zero
  intro h
  have : ((2 : ℕ) : N) = ((0 : ℕ) : N) := by rw [Nat.cast_zero, ← h]; rfl
  have := nat_eq_of_cast this (by decide +kernel) (by decide +kernel)
  omega

theorem val_cast_lt {x : ℕ} (h : x < 2 ^ 253) : ((x : ℕ) : N).val = x :=
  ZMod.val_natCast_of_lt (h.trans frMod_gt)

theorem CSpec.mulEqTail (l rem : Fin 4 → AV N) (V0 V1 : ℕ) (h0 : V0 < 2 ^ 117) (h1 : V1 < 2 ^ 117)
    (e0 : (l 0).value + 2 ^ 68 * (l 1).value + 2 ^ 136 = (rem 0).value + 2 ^ 68 * (rem 1).value
      + 2 ^ 136 * (V0 : N))
    (e1 : (l 2).value + 2 ^ 68 * (l 3).value + (V0 : N) = 1 + (rem 2).value + 2 ^ 68 * (rem 3).value
      + 2 ^ 136 * (V1 : N)) :
    CSpec tables (mulEqTail l rem) (fun c => (∀ i, ValidAV c (l i)) ∧ ∀ i, ValidAV c (rem i))
      (fun _ _ => True) := by
  constructor
  rintro ctx hg ⟨hl, hr⟩
  have hv0 : (((l 1).value - (rem 1).value) * bnToN limbMod + (l 0).value - (rem 0).value + limbExp 2)
      * (limbExp 2)⁻¹ = (V0 : N) := by
    have : limbExp 2 = 2 ^ 136 := by rw [limbExp_eq, limbMod_cast]; ring
    rw [this, bnToN_limbMod, limbMod_cast]
    rw [mul_inv_eq_iff_eq_mul₀ two136_ne]
    linear_combination e0
  have hv1 : ((V0 : N) - 1 + (l 2).value - (rem 2).value + ((l 3).value - (rem 3).value) * bnToN limbMod)
      * (limbExp 2)⁻¹ = (V1 : N) := by
    have : limbExp 2 = 2 ^ 136 := by rw [limbExp_eq, limbMod_cast]; ring
    rw [this, bnToN_limbMod, limbMod_cast]
    rw [mul_inv_eq_iff_eq_mul₀ two136_ne]
    linear_combination e1
  unfold Circuit.mulEqTail
  rw [hv0, hv1]
  have hn0 : nToBn (V0 : N) = V0 := val_cast_lt (h0.trans (by norm_num))
  have hn1 : nToBn (V1 : N) = V1 := val_cast_lt (h1.trans (by norm_num))
  rw [hn0, hn1, limbMod_eq]
  have hb0 : bnToN (V0 / 2 ^ 68) = ((V0 / 2 ^ 68 : ℕ) : N) := bnToN_eq (by omega)
  have hb0' : bnToN (V0 % 2 ^ 68) = ((V0 % 2 ^ 68 : ℕ) : N) := bnToN_eq (by omega)
  have hb1 : bnToN (V1 / 2 ^ 68) = ((V1 / 2 ^ 68 : ℕ) : N) := bnToN_eq (by omega)
  have hb1' : bnToN (V1 % 2 ^ 68) = ((V1 % 2 ^ 68 : ℕ) : N) := bnToN_eq (by omega)
  rw [hb0, hb0', hb1, hb1']
  have s0 : (V0 : N) = ((V0 / 2 ^ 68 : ℕ) : N) * 2 ^ 68 + ((V0 % 2 ^ 68 : ℕ) : N) := by
    have : V0 = V0 / 2 ^ 68 * 2 ^ 68 + V0 % 2 ^ 68 := by omega
    have := congrArg (Nat.cast (R := N)) this
    push_cast at this ⊢
    exact this
  have s1 : (V1 : N) = ((V1 / 2 ^ 68 : ℕ) : N) * 2 ^ 68 + ((V1 % 2 ^ 68 : ℕ) : N) := by
    have : V1 = V1 / 2 ^ 68 * 2 ^ 68 + V1 % 2 ^ 68 := by omega
    have := congrArg (Nat.cast (R := N)) this
    push_cast at this ⊢
    exact this
  obtain ⟨v0h, c1, f1, g1, x1, y1, z1⟩ := (CSpec.assignNFloorLeadingLimb ((V0 / 2 ^ 68 : ℕ) : N)
    (by rw [val_cast_lt (by omega)]; omega)).run ctx hg trivial
  obtain ⟨v0l, c2, f2, g2, x2, y2, z2⟩ := (CSpec.assignNonleadingLimb ((V0 % 2 ^ 68 : ℕ) : N)
    (by rw [val_cast_lt (by omega)]; omega)).run c1 g1 trivial
  obtain ⟨v1h, c3, f3, g3, x3, y3, z3⟩ := (CSpec.assignNFloorLeadingLimb ((V1 / 2 ^ 68 : ℕ) : N)
    (by rw [val_cast_lt (by omega)]; omega)).run c2 g2 trivial
  obtain ⟨v1l, c4, f4, g4, x4, y4, z4⟩ := (CSpec.assignNonleadingLimb ((V1 % 2 ^ 68 : ℕ) : N)
    (by rw [val_cast_lt (by omega)]; omega)).run c3 g3 trivial
  have x14 := x1.trans (x2.trans (x3.trans x4))
  obtain ⟨u0, c5, f5, g5, x5, y5, z5⟩ := (CSpec.sumWithConstant (t := tables) [(l 0, 1), (l 1, bnToN (2 ^ 68)),
    (rem 0, -1), (rem 1, -bnToN (2 ^ 68))] (limbExp 2)).run c4 g4 (by
      have h1 := fun i => (hl i).ext x14
      have h2 := fun i => (hr i).ext x14
      simp [h1, h2])
  have hbl : bnToN (2 ^ 68) = (2 : N) ^ 68 := by
    rw [← limbMod_eq, bnToN_limbMod, limbMod_cast]
  rw [hbl] at z5
  obtain ⟨_, c6, f6, g6, x6, -⟩ := (CSpec.lineAdd3 (t := tables) u0 v0l v0h (-1) (limbExp 2) (limbExp 3) 0 (by
      rw [z5, z1, z2]
      simp only [limbExp_eq, limbMod_cast, hsum_cons, hsum_nil]
      linear_combination -2 ^ 136 * s0 - e0)).run c5 g5
      ⟨y5, y2.ext (x3.trans (x4.trans x5)), y1.ext (x2.trans (x3.trans (x4.trans x5)))⟩
  obtain ⟨u1, c7, f7, g7, x7, y7, z7⟩ := (CSpec.sumWithConstant (t := tables) [(l 2, 1), (l 3, bnToN (2 ^ 68)),
    (rem 2, -1), (rem 3, -bnToN (2 ^ 68))] 0).run c6 g6 (by
      have h1 := fun i => (hl i).ext (x14.trans (x5.trans x6))
      have h2 := fun i => (hr i).ext (x14.trans (x5.trans x6))
      simp [h1, h2])
  rw [hbl] at z7
  have x57 := x5.trans (x6.trans x7)
  obtain ⟨_, c8, f8, g8, x8, -⟩ := (CSpec.lineAdd5 (t := tables) u1 v0l v0h v1l v1h 1 (limbExp 0) (limbExp 1)
      (-limbExp 2) (-limbExp 3) (-1) (by
      rw [z7, z1, z2, z3, z4]
      simp only [limbExp_eq, limbMod_cast, hsum_cons, hsum_nil]
      linear_combination e1 - s0 + 2 ^ 136 * s1)).run c7 g7
      ⟨y7, y2.ext (x3.trans (x4.trans x57)), y1.ext (x2.trans (x3.trans (x4.trans x57))), y4.ext x57,
        y3.ext (x4.trans x57)⟩
  refine ⟨(), c8, ?_, g8, x14.trans (x57.trans x8), trivial⟩
  rw [bind_some f1, bind_some f2, bind_some f3, bind_some f4, bind_some f5, bind_some f6, bind_some f7,
    bind_some f8]
  rfl

theorem cast_lv_wit {ctx : Ctx N} {a : AV N} (h : ValidAV ctx a) : ((lv ctx.wit a : ℕ) : N) = a.value := by
  rw [cast_lv, val_wit h]

/-- The low carry of the multiplication equation is not negative. -/
def LowCarry (adv : Advice N) (a b d r : Fin 4 → AV N) : Prop :=
  lv adv (r 0) + 2 ^ 68 * lv adv (r 1) ≤ lv adv (a 0) * lv adv (b 0) + bnToLimbs (intMod - fqMod) 0 * lv adv (d 0)
    + 2 ^ 68 * (lv adv (a 0) * lv adv (b 1) + bnToLimbs (intMod - fqMod) 1 * lv adv (d 0)
      + (lv adv (a 1) * lv adv (b 0) + bnToLimbs (intMod - fqMod) 0 * lv adv (d 1))) + 2 ^ 136

theorem CSpec.mulEqLimbs' (a b : AInt) (d : Fin 4 → AV N) (rem : AInt) (oa : a.overflows < 64)
    (ob : b.overflows < 64) (or : rem.overflows < 64) : CSpec tables (mulEqLimbs a b d rem)
    (fun c => (∀ i, ValidAV c (a.limbs i)) ∧ (∀ i, ValidAV c (b.limbs i)) ∧ (∀ i, ValidAV c (d i)) ∧
      (∀ i, ValidAV c (rem.limbs i)) ∧ Bd 64 c.wit a.limbs ∧ Bd 64 c.wit b.limbs ∧
      (lv c.wit (d 0) < 2 ^ 68 ∧ lv c.wit (d 1) < 2 ^ 68 ∧ lv c.wit (d 2) < 2 ^ 68 ∧
        lv c.wit (d 3) < 2 ^ 67) ∧ Bd 4 c.wit rem.limbs ∧
      LowCarry c.wit a.limbs b.limbs d rem.limbs ∧
      limbsVal c.wit a.limbs * limbsVal c.wit b.limbs = limbsVal c.wit d * fqMod + limbsVal c.wit rem.limbs)
    (fun _ _ => True) := by
  constructor
  rintro ctx hg ⟨ha, hb, hd, hr, ba, bb, ⟨d0, d1, d2, d3⟩, br, hlow, he⟩
  have hnb : intMod - fqMod < 2 ^ 272 := by decide +kernel
  obtain ⟨V0, V1, hV0, hV1, e0, e1⟩ := mul_honest
    (n0 := bnToLimbs (intMod - fqMod) 0) (n1 := bnToLimbs (intMod - fqMod) 1)
    (n2 := bnToLimbs (intMod - fqMod) 2) (n3 := bnToLimbs (intMod - fqMod) 3)
    (by have := ba.b0; omega) (by have := ba.b1; omega) (by have := ba.b2; omega)
    (by have := ba.b3; omega) (by have := bb.b0; omega) (by have := bb.b1; omega)
    (by have := bb.b2; omega) (by have := bb.b3; omega) d0 d1 d2 d3
    (by have := br.b0; omega) (by have := br.b1; omega) (by have := br.b2; omega)
    (by have := br.b3; omega) hlow (bnToLimbs_lt hnb) (bnToLimbs_lt hnb)
    (bnToLimbs_lt hnb) (bnToLimbs_lt hnb) (by rw [limbs4_sum]; decide +kernel) he
  replace e0 := congrArg (Nat.cast (R := N)) e0
  replace e1 := congrArg (Nat.cast (R := N)) e1
  push_cast at e0 e1
  simp only [cast_lv_wit (ha _), cast_lv_wit (hb _), cast_lv_wit (hd _), cast_lv_wit (hr _),
    ← negWLimb_eq] at e0 e1
  have hterm : ∀ i, ∀ x ∈ mulLimbTerms a.limbs b.limbs d i, ValidTerm ctx x := by
    intro i
    fin_cases i <;> simp [mulLimbTerms, ValidTerm, ha, hb, hd]
  obtain ⟨l0, c0, f0, g0, x0, y0, z0⟩ := (CSpec.mulAddWithNextLine (t := tables)
    (mulLimbTerms a.limbs b.limbs d 0) (by simp [mulLimbTerms])).run ctx hg (hterm 0)
  obtain ⟨l1, c1, f1, g1, x1, y1, z1⟩ := (CSpec.mulAddWithNextLine (t := tables)
    (mulLimbTerms a.limbs b.limbs d 1) (by simp [mulLimbTerms])).run c0 g0 (fun x hx => (hterm 1 x hx).ext x0)
  have x01 := x0.trans x1
  obtain ⟨l2, c2, f2, g2, x2, y2, z2⟩ := (CSpec.mulAddWithNextLine (t := tables)
    (mulLimbTerms a.limbs b.limbs d 2) (by simp [mulLimbTerms])).run c1 g1 (fun x hx => (hterm 2 x hx).ext x01)
  have x02 := x01.trans x2
  obtain ⟨l3, c3, f3, g3, x3, y3, z3⟩ := (CSpec.mulAddWithNextLine (t := tables)
    (mulLimbTerms a.limbs b.limbs d 3) (by simp [mulLimbTerms])).run c2 g2 (fun x hx => (hterm 3 x hx).ext x02)
  have x03 := x02.trans x3
  simp only [hterms, mulLimbTerms, List.map_cons, List.map_nil, List.sum_cons, List.sum_nil, add_zero]
    at z0 z1 z2 z3
  obtain ⟨_, c4, f4, g4, x4, -⟩ := (CSpec.mulEqTail (vec4 l0 l1 l2 l3) rem.limbs V0 V1 hV0 hV1
    (by simp only [vec4, z0, z1]; linear_combination e0)
    (by simp only [vec4, z2, z3]; linear_combination e1)).run c3 g3
    ⟨valid_vec4 (y0.ext (x1.trans (x2.trans x3))) (y1.ext (x2.trans x3)) (y2.ext x3) y3,
      fun i => (hr i).ext x03⟩
  refine ⟨(), c4, ?_, g4, x03.trans x4, trivial⟩
  unfold Circuit.mulEqLimbs
  rw [bind_some (assertM_run (by exact oa) _), bind_some (assertM_run (by exact ob) _),
    bind_some (assertM_run (by exact or) _), bind_some f0, bind_some f1, bind_some f2, bind_some f3]
  exact f4

theorem CSpec.mulEqLimbs (a b : AInt) (d : Fin 4 → AV N) (rem : AInt) (oa : a.overflows < 64)
    (ob : b.overflows < 64) (or : rem.overflows < 64) : CSpec tables (mulEqLimbs a b d rem)
    (fun c => (∀ i, ValidAV c (a.limbs i)) ∧ (∀ i, ValidAV c (b.limbs i)) ∧ (∀ i, ValidAV c (d i)) ∧
      (∀ i, ValidAV c (rem.limbs i)) ∧ Bd 64 c.wit a.limbs ∧ Bd 64 c.wit b.limbs ∧
      (lv c.wit (d 0) < 2 ^ 68 ∧ lv c.wit (d 1) < 2 ^ 68 ∧ lv c.wit (d 2) < 2 ^ 68 ∧
        lv c.wit (d 3) < 2 ^ 67) ∧ Bd 1 c.wit rem.limbs ∧
      limbsVal c.wit a.limbs * limbsVal c.wit b.limbs = limbsVal c.wit d * fqMod + limbsVal c.wit rem.limbs)
    (fun _ _ => True) := by
  refine (CSpec.mulEqLimbs' a b d rem oa ob or).mono ?_ (fun _ _ h => h)
  rintro c ⟨h1, h2, h3, h4, h5, h6, h7, h8, h9⟩
  refine ⟨h1, h2, h3, h4, h5, h6, h7, h8.mono (by norm_num), ?_, h9⟩
  unfold LowCarry
  have := h8.b0
  have := h8.b1
  refine le_trans ?_ (Nat.le_add_left _ _)
  omega

theorem CSpec.mulEqNative (a b : AInt) (d : Fin 4 → AV N) (rem : AInt) :
    CSpec tables (mulEqNative a b d rem)
    (fun c => VInt c a ∧ VInt c b ∧ (∀ i, ValidAV c (d i)) ∧ VInt c rem ∧
      limbsVal c.wit a.limbs * limbsVal c.wit b.limbs = limbsVal c.wit d * fqMod + limbsVal c.wit rem.limbs)
    (fun c r => (VInt c r.1 ∧ SameInt a r.1) ∧ (VInt c r.2.1 ∧ SameInt b r.2.1) ∧
      (VInt c r.2.2 ∧ SameInt rem r.2.2)) := by
  constructor
  rintro ctx hg ⟨ha, hb, hd, hr, he⟩
  obtain ⟨⟨an, a'⟩, c0, f0, g0, x0, y0, z0, l0, o0, i0⟩ := (CSpec.native a).run ctx hg ha
  obtain ⟨⟨bn, b'⟩, c1, f1, g1, x1, y1, z1, l1, o1, i1⟩ := (CSpec.native b).run c0 g0 (hb.ext x0)
  have x01 := x0.trans x1
  obtain ⟨dn, c2, f2, g2, x2, y2, -⟩ := (CSpec.sumWithConstant (t := tables) (nativeTerms d) 0).run c1 g1
    (by have := fun i => (hd i).ext x01; simp [nativeTerms, this])
  have z2 : dn.value = ((limbsVal c2.wit d : ℕ) : N) := by
    obtain ⟨-, h2⟩ := (Spec.sumWithConstant _ _).run _ _ _ f2 _ g2.sat
    rw [zero_add, wsum_native, val_wit y2] at h2
    exact h2
  have x02 := x01.trans x2
  obtain ⟨⟨rn, rem'⟩, c3, f3, g3, x3, y3, z3, l3, o3, i3⟩ := (CSpec.native rem).run c2 g2 (hr.ext x02)
  have x03 := x02.trans x3
  simp only at y0 z0 l0 o0 i0 y1 z1 l1 o1 i1 y3 z3 l3 o3 i3
  rw [limbsVal_ext ha.valid x0] at z0
  rw [limbsVal_ext hb.valid x01] at z1
  rw [limbsVal_ext hd x02] at z2
  rw [limbsVal_ext hr.valid x03] at z3
  have heq := congrArg (Nat.cast (R := N)) he
  push_cast at heq
  obtain ⟨cells, c4, f4, g4, x4, -⟩ := (CSpec.oneLine (t := tables) [(.assigned an, 0), (.assigned bn, 0),
    (.assigned dn, -wNative), (.assigned rn, -1)] 0 [1] (by simp) (by simp) (by
      simp [gateEval, mkRow, lineVal, Schema.value]
      rw [z0, z1, z2, z3, wNative_eq]
      linear_combination heq)).run c3 g3 (by
      have h1 := y0.ext (x1.trans (x2.trans x3))
      have h2 := y1.ext (x2.trans x3)
      have h3 := y2.ext x3
      simp [ValidSchema, h1, h2, h3, y3])
  refine ⟨(a', b', rem'), c4, ?_, g4, x03.trans x4, ⟨i0.ext (x1.trans (x2.trans (x3.trans x4))), l0, o0⟩,
    ⟨i1.ext (x2.trans (x3.trans x4)), l1, o1⟩, ⟨i3.ext x4, l3, o3⟩⟩
  unfold Circuit.mulEqNative
  simp only [bind_some f0, bind_some f1, bind_some f2, bind_some f3, bind_some f4]
  rfl

theorem CSpec.squareEqNative (a : AInt) (d : Fin 4 → AV N) (rem : AInt) :
    CSpec tables (squareEqNative a d rem)
    (fun c => VInt c a ∧ (∀ i, ValidAV c (d i)) ∧ VInt c rem ∧
      limbsVal c.wit a.limbs * limbsVal c.wit a.limbs = limbsVal c.wit d * fqMod + limbsVal c.wit rem.limbs)
    (fun c r => (VInt c r.1 ∧ SameInt a r.1) ∧ (VInt c r.2 ∧ SameInt rem r.2)) := by
  constructor
  rintro ctx hg ⟨ha, hd, hr, he⟩
  obtain ⟨⟨an, a'⟩, c0, f0, g0, x0, y0, z0, l0, o0, i0⟩ := (CSpec.native a).run ctx hg ha
  obtain ⟨dn, c2, f2, g2, x2, y2, -⟩ := (CSpec.sumWithConstant (t := tables) (nativeTerms d) 0).run c0 g0
    (by have := fun i => (hd i).ext x0; simp [nativeTerms, this])
  have z2 : dn.value = ((limbsVal c2.wit d : ℕ) : N) := by
    obtain ⟨-, h2⟩ := (Spec.sumWithConstant _ _).run _ _ _ f2 _ g2.sat
    rw [zero_add, wsum_native, val_wit y2] at h2
    exact h2
  have x02 := x0.trans x2
  obtain ⟨⟨rn, rem'⟩, c3, f3, g3, x3, y3, z3, l3, o3, i3⟩ := (CSpec.native rem).run c2 g2 (hr.ext x02)
  have x03 := x02.trans x3
  simp only at y0 z0 l0 o0 i0 y3 z3 l3 o3 i3
  rw [limbsVal_ext ha.valid x0] at z0
  rw [limbsVal_ext hd x02] at z2
  rw [limbsVal_ext hr.valid x03] at z3
  have heq := congrArg (Nat.cast (R := N)) he
  push_cast at heq
  obtain ⟨cells, c4, f4, g4, x4, -⟩ := (CSpec.oneLine (t := tables) [(.assigned an, 0), (.assigned an, 0),
    (.assigned dn, -wNative), (.assigned rn, -1)] 0 [1] (by simp) (by simp) (by
      simp [gateEval, mkRow, lineVal, Schema.value]
      rw [z0, z2, z3, wNative_eq]
      linear_combination heq)).run c3 g3 (by
      have h1 := y0.ext (x2.trans x3)
      have h3 := y2.ext x3
      simp [ValidSchema, h1, h3, y3])
  refine ⟨(a', rem'), c4, ?_, g4, x03.trans x4, ⟨i0.ext (x2.trans (x3.trans x4)), l0, o0⟩,
    ⟨i3.ext x4, l3, o3⟩⟩
  unfold Circuit.squareEqNative
  simp only [bind_some f0, bind_some f2, bind_some f3, bind_some f4]
  rfl

/-- The quotient assigned by the honest prover. -/
theorem CSpec.assignD' (v : ℕ) (hv : v < 2 ^ 271) : CSpec tables (Circuit.assignD v) (fun _ => True)
    (fun c r => (∀ i, ValidAV c (r i)) ∧ limbsVal c.wit r = v ∧
      (lv c.wit (r 0) < 2 ^ 68 ∧ lv c.wit (r 1) < 2 ^ 68 ∧ lv c.wit (r 2) < 2 ^ 68 ∧
        lv c.wit (r 3) < 2 ^ 67)) := by
  constructor
  intro ctx hg _
  obtain ⟨r, c, e, g, x, h1, h2⟩ := (CSpec.assignD v hv).run ctx hg trivial
  obtain ⟨-, h3⟩ := (Spec.assignD v).run _ _ _ e _ g.sat
  refine ⟨r, c, e, g, x, h1, ?_, h3⟩
  unfold limbsVal
  rw [lv_wit (h1 0), lv_wit (h1 1), lv_wit (h1 2), lv_wit (h1 3), h2, h2, h2, h2]
  exact limbs4_sum

theorem SameInt.hint {ctx ctx' : Ctx N} {a a' : AInt} (h : HInt ctx a) (he : Ext ctx ctx')
    (hv : VInt ctx' a') (hs : SameInt a a') : HInt ctx' a' := by
  have h' := h.ext he
  obtain ⟨s1, s2⟩ := hs
  exact ⟨hv.valid, hv.validN, ⟨by rw [s1, s2]; exact h'.ann.bound, hv.native, by rw [s2]; exact h'.ann.counter⟩,
    by rw [s1, s2]; exact h'.canon⟩

theorem quot_lt {x y : ℕ} (hx : x < 64 * 2 ^ 255) (hy : y < 64 * 2 ^ 255) : x * y / fqMod < 2 ^ 271 := by
  rw [Nat.div_lt_iff_lt_mul (by decide +kernel)]
  have h1 := Nat.mul_lt_mul'' hx hy
  have h2 : 2 ^ 271 * 2 ^ 253 ≤ 2 ^ 271 * fqMod := Nat.mul_le_mul_left _ fqMod_gt.le
  exact h1.trans_le (le_trans (by norm_num) h2)

theorem bnToW_mod_val (x : ℕ) : (bnToW (x % fqMod)).val = x % fqMod := by
  have hlt : x % fqMod < fqMod := Nat.mod_lt _ (by decide +kernel)
  rw [bnToW_eq (hlt.trans (fqMod_lt.trans (by norm_num)))]
  exact ZMod.val_natCast_of_lt hlt

end Verif.Circuit
