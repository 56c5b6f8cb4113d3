import Verif.Ecc.Complete

/-!
# The division by `2 y` in the tangent slope: when it panics, when it is complete (helper lemmas)

`mul_small_constant` leaves the counter of a fresh integer at zero although its limbs are up to three times the
unit, so that `div` gets a numerator that is not below the modulus.
-/

set_option exponentiation.threshold 600

namespace Verif.Circuit

open Verif.Ecc

open Classical in
theorem CSpec.iisZeroLoose (a : AInt) (ho : a.overflows < 64) : CSpec tables (Circuit.iisZero a)
    (fun c => VInt c a ∧ Bd 64 c.wit a.limbs)
    (fun c r => ValidAV c r.1 ∧ r.1.value = (if ZeroRep c.wit r.2.limbs then 1 else 0) ∧
      VInt c r.2 ∧ r.2.overflows = 0 ∧ Reduced c.wit a r.2 ∧ (a.overflows = 0 → r.2.limbs = a.limbs) ∧
      (a.overflows ≠ 0 → limbsVal c.wit r.2.limbs < fqMod ∧ Bd 1 c.wit r.2.limbs)) := by
  constructor
  rintro ctx hg ⟨ha, hb⟩
  obtain ⟨a1, c1, f1, g1, x1, h1, i1, j1⟩ := (CSpec.reduce a ho).run ctx hg ⟨ha, hb⟩
  obtain ⟨z, c2, f2, g2, x2, y2⟩ := (CSpec.isPureZero a1).run c1 g1 h1
  obtain ⟨⟨m, a2⟩, c3, f3, g3, x3, y3, v3, s3⟩ := (CSpec.isPureWModulus a1).run c2 g2 (h1.ext x2)
  simp only at y3 v3 s3
  obtain ⟨r, c4, f4, g4, x4, y4, -⟩ := (CSpec.or (t := tables) z m).run c3 g3 ⟨y2.ext x3, y3⟩
  have hrun : Circuit.iisZero a ctx = some ((r, a2), c4) := by
    unfold Circuit.iisZero
    simp only [bind_some f1, bind_some f2, bind_some f3, bind_some f4]
    rfl
  have x24 := x2.trans (x3.trans x4)
  obtain ⟨-, hs⟩ := (Spec.iisZero a).run _ _ _ hrun _ g4.sat
  obtain ⟨q1, q2, q3⟩ := hs 64 (by norm_num) (hb.ext ha.valid (x1.trans x24)) (ha.ext (x1.trans x24)).native
  dsimp only at q1 q2 q3
  refine ⟨(r, a2), c4, hrun, g4, x1.trans x24, y4, ?_, v3.ext x4, ?_, q2, ?_, ?_⟩
  · rw [← q1, val_wit y4]
  · rcases q3 with h | h
    · exact h.2.2
    · exact h.2.2.1
  · intro h0
    rcases q3 with h | h
    · exact h.2.1
    · omega
  · intro h0
    refine ⟨?_, ?_⟩
    · dsimp only
      rw [s3.1, limbsVal_ext h1.valid x24]
      exact j1 h0
    · rcases q3 with h | h
      · omega
      · exact h.2.2.2

/-- What `div` does after the quotient is known. -/
def divTail (z : AV N) (a b a' : AInt) (C : W) (d : ℕ) : M N (AV N × AInt × AInt × AInt) := do
  let c ← assignW C
  let d ← assignD d
  mulEqLimbs b c d a'
  let (b, c, _) ← mulEqNative b c d a'
  return (z, c, a, b)

open Classical in
/-- `div` of a loose numerator up to the computation of the quotient. -/
theorem idiv_prep {a b : AInt} {ctx : Ctx N} (hg : Good tables ctx) (ha : VInt ctx a) (ba : Bd 4 ctx.wit a.limbs)
    (oa : a.overflows = 0) (hb : VInt ctx b) (bb : Bd 64 ctx.wit b.limbs) (ob : b.overflows < 64) :
    ∃ z b1 a' c7, Good tables c7 ∧ Ext ctx c7 ∧ ValidAV c7 z ∧
      z.value = (if ZeroRep c7.wit b1.limbs then 1 else 0) ∧ VInt c7 b1 ∧ b1.overflows = 0 ∧
      Reduced c7.wit b b1 ∧ (b.overflows = 0 → b1.limbs = b.limbs) ∧
      (b.overflows ≠ 0 → limbsVal c7.wit b1.limbs < fqMod ∧ Bd 1 c7.wit b1.limbs) ∧
      VInt c7 a' ∧ a'.overflows = 0 ∧
      (∀ i, lv c7.wit (a'.limbs i) = if ZeroRep c7.wit b1.limbs then 0 else lv c7.wit (a.limbs i)) ∧
      idiv a b ctx = (unwrapM (bnSub ((((limbsVal c7.wit b1.limbs : ℕ) : W)⁻¹ *
          ((limbsVal c7.wit a'.limbs : ℕ) : W)).val * limbsVal c7.wit b1.limbs) (limbsVal c7.wit a'.limbs)) >>=
        fun diff => divTail z a b1 a' (((limbsVal c7.wit b1.limbs : ℕ) : W)⁻¹ *
          ((limbsVal c7.wit a'.limbs : ℕ) : W)) (diff / fqMod)) c7 := by
  obtain ⟨⟨z, b1⟩, c1, f1, g1, x1, y1, w1, h1, o1, k1, m1, n1⟩ := (CSpec.iisZeroLoose b ob).run ctx hg ⟨hb, bb⟩
  simp only at y1 w1 h1 o1 k1 m1 n1
  obtain ⟨co, c2, f2, g2, x2, y2, w2⟩ := (CSpec.sumWithConstant (t := tables) [(z, -1)] 1).run c1 g1
    (by simp [y1])
  have f3 : Circuit.reduce a c2 = some (a, c2) := by
    unfold Circuit.reduce
    rw [if_pos oa]
    rfl
  have x12 := x1.trans x2
  obtain ⟨l0, c4, f4, g4, x4, y4, w4⟩ := (CSpec.mul (t := tables) (a.limbs 0) co).run c2 g2
    ⟨(ha.ext x12).valid 0, y2⟩
  obtain ⟨l1, c5, f5, g5, x5, y5, w5⟩ := (CSpec.mul (t := tables) (a.limbs 1) co).run c4 g4
    ⟨(ha.ext (x12.trans x4)).valid 1, y2.ext x4⟩
  have x45 := x4.trans x5
  obtain ⟨l2, c6, f6, g6, x6, y6, w6⟩ := (CSpec.mul (t := tables) (a.limbs 2) co).run c5 g5
    ⟨(ha.ext (x12.trans x45)).valid 2, y2.ext x45⟩
  have x46 := x45.trans x6
  obtain ⟨l3, c7, f7, g7, x7, y7, w7⟩ := (CSpec.mul (t := tables) (a.limbs 3) co).run c6 g6
    ⟨(ha.ext (x12.trans x46)).valid 3, y2.ext x46⟩
  have x47 := x46.trans x7
  have x17 := x2.trans x47
  have x07 := x1.trans x17
  have hval : ∀ i, ValidAV c7 (vec4 l0 l1 l2 l3 i) :=
    valid_vec4 (y4.ext (x5.trans (x6.trans x7))) (y5.ext (x6.trans x7)) (y6.ext x7) y7
  have va : VInt c7 (AInt.new (vec4 l0 l1 l2 l3) a.overflows) := VInt.of_none hval rfl
  have hzr : ZeroRep c7.wit b1.limbs ↔ ZeroRep c1.wit b1.limbs := by
    unfold ZeroRep lv
    rw [limbsVal_ext h1.valid x17, val_wit_ext (h1.valid 0) x17]
  have hco : co.value = if ZeroRep c7.wit b1.limbs then 0 else 1 := by
    rw [w2, hsum_cons, hsum_nil, w1]
    simp only [hzr]
    split <;> ring
  have hlv : ∀ i, lv c7.wit (vec4 l0 l1 l2 l3 i) = if ZeroRep c7.wit b1.limbs then 0 else lv c7.wit (a.limbs i) := by
    intro i
    have hv : (vec4 l0 l1 l2 l3 i).value = (a.limbs i).value * co.value := by fin_cases i <;> assumption
    rw [lv_wit (hval i), hv, hco, lv_wit ((ha.ext x07).valid i)]
    split <;> simp
  have ebn : b1.bn = limbsVal c7.wit b1.limbs := HInt.bn_eq (h1.ext x17).valid
  have ebw : b1.w = ((limbsVal c7.wit b1.limbs : ℕ) : W) := w_eq_cast (h1.ext x17).valid
  have ean : (AInt.new (vec4 l0 l1 l2 l3) a.overflows).bn = limbsVal c7.wit (vec4 l0 l1 l2 l3) := HInt.bn_eq va.valid
  have eaw : (AInt.new (vec4 l0 l1 l2 l3) a.overflows).w = ((limbsVal c7.wit (vec4 l0 l1 l2 l3) : ℕ) : W) :=
    w_eq_cast va.valid
  refine ⟨z, b1, AInt.new (vec4 l0 l1 l2 l3) a.overflows, c7, g7, x07, y1.ext x17, ?_, h1.ext x17, o1, ?_, m1, ?_, va, oa,
    hlv, ?_⟩
  · rw [w1]; simp only [hzr]
  · obtain ⟨r1, -⟩ := k1
    refine ⟨?_, (h1.ext x17).native⟩
    rw [limbsVal_ext h1.valid x17, limbsVal_ext (fun i => (hb.valid i).ext x1) x17]
    exact r1
  · intro h
    obtain ⟨n2, n3⟩ := n1 h
    exact ⟨by rw [limbsVal_ext h1.valid x17]; exact n2, n3.ext h1.valid x17⟩
  · unfold Circuit.idiv Circuit.not
    simp only [bind_some f1, bind_some f2, bind_some f3, bind_some f4, bind_some f5, bind_some f6, bind_some f7,
      ebw, eaw, ean, ebn, wToBn]
    rfl

/-- `mul_small_constant` of an integer with counter zero: the limbs are multiplied, the counter stays zero. -/
theorem CSpec.imulSmallConstant_fresh (a : AInt) (b : ℕ) (hb : b < 64) (oa : a.overflows = 0) :
    CSpec tables (imulSmallConstant a b) (fun c => HInt c a)
      (fun c r => VInt c r.1 ∧ r.1.overflows = 0 ∧ (∀ i, lv c.wit (r.1.limbs i) = b * lv c.wit (a.limbs i)) ∧ r.2 = a) := by
  constructor
  intro ctx hg ha
  obtain ⟨l0, c1, f1, g1, x1, y1, w1⟩ := (CSpec.sumWithConstant (t := tables) [(a.limbs 0, (b : N))] 0).run ctx hg
    (by simp [ha.valid 0])
  obtain ⟨l1, c2, f2, g2, x2, y2, w2⟩ := (CSpec.sumWithConstant (t := tables) [(a.limbs 1, (b : N))] 0).run c1 g1
    (by simp [(ha.valid 1).ext x1])
  obtain ⟨l2, c3, f3, g3, x3, y3, w3⟩ := (CSpec.sumWithConstant (t := tables) [(a.limbs 2, (b : N))] 0).run c2 g2
    (by simp [(ha.valid 2).ext (x1.trans x2)])
  obtain ⟨l3, c4, f4, g4, x4, y4, w4⟩ := (CSpec.sumWithConstant (t := tables) [(a.limbs 3, (b : N))] 0).run c3 g3
    (by simp [(ha.valid 3).ext (x1.trans (x2.trans x3))])
  have x14 := x2.trans (x3.trans x4)
  have hval : ∀ i, ValidAV c4 (vec4 l0 l1 l2 l3 i) :=
    valid_vec4 (y1.ext x14) (y2.ext (x3.trans x4)) (y3.ext x4) y4
  have ha4 := ha.ext (x1.trans x14)
  refine ⟨(AInt.new (vec4 l0 l1 l2 l3) (a.overflows * b), a), c4, ?_, g4, x1.trans x14, VInt.of_none hval rfl,
    by simp [AInt.new, oa], ?_, rfl⟩
  · unfold Circuit.imulSmallConstant
    have h0 : Circuit.assertM (F := N) (b < overflowLimit) ctx = some ((), ctx) := by
      unfold Circuit.assertM
      rw [if_pos (by simpa [overflowLimit] using hb)]
    have h1 : (if a.overflows * b ≥ overflowLimit then Circuit.reduce a else Pure.pure a : M N AInt) ctx = some (a, ctx) := by
      rw [oa, if_neg (by simp [overflowLimit])]
      rfl
    have h2 : Circuit.conditionallyReduce (AInt.new (vec4 l0 l1 l2 l3) (a.overflows * b)) c4 =
        some (AInt.new (vec4 l0 l1 l2 l3) (a.overflows * b), c4) := by
      unfold Circuit.conditionallyReduce
      rw [oa, if_neg (by simp [AInt.new, overflowThreshold])]
      rfl
    simp only [bind_some h0, bind_some h1, bind_some f1, bind_some f2, bind_some f3, bind_some f4, bind_some h2]
    rfl
  · intro i
    have hbd : Bd 1 c4.wit a.limbs := by simpa [oa] using ha4.ann.bound
    have hlt : lv c4.wit (a.limbs i) < 2 ^ 68 := by
      fin_cases i
      · simpa using hbd.b0
      · simpa using hbd.b1
      · simpa using hbd.b2
      · exact lt_trans (by simpa using hbd.b3) (by norm_num)
    have hv : (vec4 l0 l1 l2 l3 i).value = (a.limbs i).value * (b : N) := by
      rw [hsum_cons, hsum_nil, zero_add, mul_comm, add_zero] at w1 w2 w3 w4
      fin_cases i <;> assumption
    show lv c4.wit (vec4 l0 l1 l2 l3 i) = _
    rw [lv_wit (hval i), hv]
    rw [lv_wit (ha4.valid i)] at hlt ⊢
    rw [ZMod.val_mul, ZMod.val_natCast, mul_comm]
    have h1 := frMod_gt
    rw [Nat.mod_eq_of_lt (a := b) (by omega)]
    apply Nat.mod_eq_of_lt
    calc b * (a.limbs i).value.val < 64 * 2 ^ 68 := by
          have := Nat.mul_le_mul_left (k := b) hlt.le
          have : b * 2 ^ 68 < 64 * 2 ^ 68 := by omega
          omega
      _ < frMod := by omega

theorem limbsVal_scale {adv : Advice N} {l l' : Fin 4 → AV N} {b : ℕ} (h : ∀ i, lv adv (l' i) = b * lv adv (l i)) :
    limbsVal adv l' = b * limbsVal adv l := by
  unfold limbsVal
  simp only [h]
  ring

/-- The honest computation of the slope panics when the product of the slope and the denominator is, as an integer,
below three times the canonical square of `x`. -/
theorem curvature_panics {p : APt} {vx vy : W} {vz : N} {ctx : Ctx N} (hg : Good tables ctx) (hp : HPt ctx p vx vy vz)
    (ox : p.x.overflows = 0) (oy : p.y.overflows = 0) (hc : p.curv = none) (hy : vy ≠ 0) {s : W} (hs : s * (2 * vy) = 3 * vx ^ 2)
    (hlt : s.val * (2 * vy.val) < 3 * (vx ^ 2).val) : curvature p ctx = none := by
  obtain ⟨⟨x2, x⟩, c1, f1, g1, e1, h1, o1, -⟩ := (CSpec.isquare_hv p.x vx).run ctx hg hp.x
  dsimp only at h1 o1
  obtain ⟨⟨num, x2'⟩, c2, f2, g2, e2, v2, o2, w2, -⟩ := (CSpec.imulSmallConstant_fresh x2 3 (by norm_num) o1).run c1 g1 h1.h
  obtain ⟨⟨den, y⟩, c3, f3, g3, e3, v3, o3, w3, -⟩ := (CSpec.imulSmallConstant_fresh p.y 2 (by norm_num) oy).run c2 g2
    (hp.y.ext (e1.trans e2)).h
  dsimp only at v2 o2 w2 v3 o3 w3
  have q2 := limbsVal_scale w2
  have q3 := limbsVal_scale w3
  have hX : limbsVal c2.wit x2.limbs = (vx ^ 2).val := by
    have hh := h1.ext e2
    rw [← hh.val, residue, ZMod.val_natCast, Nat.mod_eq_of_lt (hh.h.canon o1)]
  have hY : limbsVal c3.wit p.y.limbs = vy.val := by
    have hh := hp.y.ext (e1.trans (e2.trans e3))
    rw [← hh.val, residue, ZMod.val_natCast, Nat.mod_eq_of_lt (hh.h.canon oy)]
  have b2 : Bd 4 c2.wit num.limbs := by
    have hb : Bd 1 c2.wit x2.limbs := by simpa [o1] using (h1.ext e2).h.ann.bound
    have := hb.b0; have := hb.b1; have := hb.b2; have := hb.b3
    exact ⟨by rw [w2]; omega, by rw [w2]; omega, by rw [w2]; omega, by rw [w2]; omega⟩
  have b3 : Bd 64 c3.wit den.limbs := by
    have hb : Bd 1 c3.wit p.y.limbs := by simpa [oy] using (hp.y.ext (e1.trans (e2.trans e3))).h.ann.bound
    have := hb.b0; have := hb.b1; have := hb.b2; have := hb.b3
    exact ⟨by rw [w3]; omega, by rw [w3]; omega, by rw [w3]; omega, by rw [w3]; omega⟩
  have v2' := v2.ext e3
  obtain ⟨z, b1, a', c7, g7, e7, -, -, h7, -, -, m7, -, v7, -, w7, hrun⟩ := idiv_prep g3 v2' (b2.ext v2.valid e3) o2 v3 b3
    (by omega)
  have hB : limbsVal c7.wit b1.limbs = 2 * vy.val := by
    rw [m7 o3, limbsVal_ext v3.valid e7, q3, hY]
  have hvy : vy.val ≠ 0 := by rwa [Ne, ZMod.val_eq_zero]
  have hz : ¬ ZeroRep c7.wit b1.limbs := by
    rintro (h | ⟨h, -⟩)
    · omega
    · rw [hB] at h
      have : fqMod % 2 = 1 := by decide +kernel
      omega
  have hA : limbsVal c7.wit a'.limbs = 3 * (vx ^ 2).val := by
    have : limbsVal c7.wit a'.limbs = limbsVal c7.wit num.limbs := by
      unfold limbsVal
      simp only [w7, if_neg hz]
    rw [this, limbsVal_ext v2'.valid e7, limbsVal_ext v2.valid e3, q2, hX]
  have h2y : (2 * vy : W) ≠ 0 := mul_ne_zero two_ne hy
  have hs' : (((limbsVal c7.wit b1.limbs : ℕ) : W)⁻¹ * ((limbsVal c7.wit a'.limbs : ℕ) : W)) = s := by
    rw [hB, hA]
    push_cast
    rw [ZMod.natCast_zmod_val, ZMod.natCast_zmod_val, ← hs, mul_comm s, inv_mul_cancel_left₀ h2y]
  have hn : idiv num den c3 = none := by
    rw [hrun, hs', hA, hB]
    simp only [bnSub, if_neg (not_le.2 hlt)]
    rfl
  unfold curvature
  simp only [hc]
  rw [bind_some f1]
  dsimp only
  rw [bind_some f2]
  dsimp only
  rw [bind_some f3]
  dsimp only
  show (idiv num den >>= _) c3 = none
  simp only [Bind.bind, StateT.bind, hn]
  rfl

end Verif.Circuit
