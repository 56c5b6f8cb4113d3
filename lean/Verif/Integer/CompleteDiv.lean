import Verif.Integer.CompleteMul

/-!
# Completeness of the integer chip (helper lemmas): products, zero tests, division, selection
-/

set_option exponentiation.threshold 600

namespace Verif.Circuit

theorem CSpec.imul (a b : AInt) (oa : a.overflows < 64) (ob : b.overflows < 64) : CSpec tables (imul a b)
    (fun c => VInt c a ∧ Bd 64 c.wit a.limbs ∧ VInt c b ∧ Bd 64 c.wit b.limbs)
    (fun c r => HInt c r.1 ∧ r.1.overflows = 0 ∧ (VInt c r.2.1 ∧ SameInt a r.2.1) ∧
      (VInt c r.2.2 ∧ SameInt b r.2.2)) := by
  constructor
  rintro ctx hg ⟨ha, ba, hb, bb⟩
  have ea := HInt.bn_eq ha.valid
  have eb := HInt.bn_eq hb.valid
  obtain ⟨rem, c1, f1, g1, x1, y1, o1, n1, v1⟩ := (CSpec.assignW (bnToW (a.bn * b.bn % fqMod))).run ctx hg
    trivial
  obtain ⟨d, c2, f2, g2, x2, y2, v2, b2⟩ := (CSpec.assignD' (a.bn * b.bn / fqMod)
    (by rw [ea, eb]; exact quot_lt (limbsVal_lt ba) (limbsVal_lt bb))).run c1 g1 trivial
  have x12 := x1.trans x2
  have br : Bd 1 c2.wit rem.limbs := by
    have := (y1.ext x2).ann.bound
    rwa [o1] at this
  have heq : limbsVal c2.wit a.limbs * limbsVal c2.wit b.limbs
      = limbsVal c2.wit d * fqMod + limbsVal c2.wit rem.limbs := by
    rw [limbsVal_ext ha.valid x12, limbsVal_ext hb.valid x12, v2, limbsVal_ext y1.valid x2, v1,
      bnToW_mod_val, ea, eb, mul_comm (_ / _)]
    exact (Nat.div_add_mod _ _).symm
  have ha2 := ha.ext x12
  have hb2 := hb.ext x12
  have hr2 := (y1.ext x2)
  obtain ⟨_, c3, f3, g3, x3, -⟩ := (CSpec.mulEqLimbs a b d rem oa ob (by omega)).run c2 g2
    ⟨ha2.valid, hb2.valid, y2, hr2.valid, ba.ext ha.valid x12, bb.ext hb.valid x12, b2, br, heq⟩
  obtain ⟨⟨a', b', rem'⟩, c4, f4, g4, x4, pa, pb, pr⟩ := (CSpec.mulEqNative a b d rem).run c3 g3
    ⟨ha2.ext x3, hb2.ext x3, fun i => (y2 i).ext x3, hr2.vint.ext x3, by
      rw [limbsVal_ext ha2.valid x3, limbsVal_ext hb2.valid x3, limbsVal_ext y2 x3,
        limbsVal_ext hr2.valid x3]
      exact heq⟩
  refine ⟨(rem', a', b'), c4, ?_, g4, x12.trans (x3.trans x4),
    SameInt.hint y1 (x2.trans (x3.trans x4)) pr.1 pr.2, pr.2.2.trans o1, pa, pb⟩
  unfold Circuit.imul
  simp only [bind_some f1, bind_some f2, bind_some f3, bind_some f4]
  rfl

theorem CSpec.isquare (a : AInt) (oa : a.overflows < 64) : CSpec tables (isquare a)
    (fun c => VInt c a ∧ Bd 64 c.wit a.limbs)
    (fun c r => HInt c r.1 ∧ r.1.overflows = 0 ∧ (VInt c r.2 ∧ SameInt a r.2)) := by
  constructor
  rintro ctx hg ⟨ha, ba⟩
  have ea := HInt.bn_eq ha.valid
  obtain ⟨rem, c1, f1, g1, x1, y1, o1, n1, v1⟩ := (CSpec.assignW (bnToW (a.bn * a.bn % fqMod))).run ctx hg
    trivial
  obtain ⟨d, c2, f2, g2, x2, y2, v2, b2⟩ := (CSpec.assignD' (a.bn * a.bn / fqMod)
    (by rw [ea]; exact quot_lt (limbsVal_lt ba) (limbsVal_lt ba))).run c1 g1 trivial
  have x12 := x1.trans x2
  have br : Bd 1 c2.wit rem.limbs := by
    have := (y1.ext x2).ann.bound
    rwa [o1] at this
  have heq : limbsVal c2.wit a.limbs * limbsVal c2.wit a.limbs
      = limbsVal c2.wit d * fqMod + limbsVal c2.wit rem.limbs := by
    rw [limbsVal_ext ha.valid x12, v2, limbsVal_ext y1.valid x2, v1,
      bnToW_mod_val, ea, mul_comm (_ / _)]
    exact (Nat.div_add_mod _ _).symm
  have ha2 := ha.ext x12
  have hr2 := (y1.ext x2)
  obtain ⟨_, c3, f3, g3, x3, -⟩ := (CSpec.mulEqLimbs a a d rem oa oa (by omega)).run c2 g2
    ⟨ha2.valid, ha2.valid, y2, hr2.valid, ba.ext ha.valid x12, ba.ext ha.valid x12, b2, br, heq⟩
  obtain ⟨⟨a', rem'⟩, c4, f4, g4, x4, pa, pr⟩ := (CSpec.squareEqNative a d rem).run c3 g3
    ⟨ha2.ext x3, fun i => (y2 i).ext x3, hr2.vint.ext x3, by
      rw [limbsVal_ext ha2.valid x3, limbsVal_ext y2 x3, limbsVal_ext hr2.valid x3]
      exact heq⟩
  refine ⟨(rem', a'), c4, ?_, g4, x12.trans (x3.trans x4),
    SameInt.hint y1 (x2.trans (x3.trans x4)) pr.1 pr.2, pr.2.2.trans o1, pa⟩
  unfold Circuit.isquare
  simp only [bind_some f1, bind_some f2, bind_some f3, bind_some f4]
  rfl

theorem CSpec.isPureZero (a : AInt) : CSpec tables (isPureZero a) (fun c => VInt c a)
    (fun c r => ValidAV c r) := by
  constructor
  rintro ctx hg ha
  obtain ⟨s, c1, f1, g1, x1, y1, -⟩ := (CSpec.sumWithConstant (t := tables) [(a.limbs 0, 1), (a.limbs 1, 1),
    (a.limbs 2, 1), (a.limbs 3, 1)] 0).run ctx hg (by have := ha.valid; simp [*])
  obtain ⟨r, c2, f2, g2, x2, y2, -⟩ := (CSpec.isZero (t := tables) s).run c1 g1 y1
  refine ⟨r, c2, ?_, g2, x1.trans x2, y2⟩
  unfold Circuit.isPureZero
  simp only [bind_some f1]
  exact f2

theorem CSpec.and' (a b : AV N) : CSpec tables (Circuit.and a b) (fun c => ValidAV c a ∧ ValidAV c b)
    (fun c r => ValidAV c r) :=
  (CSpec.mul a b).mono (fun _ h => h) (fun _ _ h => h.1)

theorem CSpec.isPureWModulus (a : AInt) : CSpec tables (isPureWModulus a) (fun c => VInt c a)
    (fun c r => ValidAV c r.1 ∧ VInt c r.2 ∧ SameInt a r.2) := by
  constructor
  rintro ctx hg ha
  obtain ⟨⟨na, a'⟩, c1, f1, g1, x1, y1, -, l1, o1, v1⟩ := (CSpec.native a).run ctx hg ha
  simp only at y1 l1 o1 v1
  obtain ⟨nd, c2, f2, g2, x2, y2, -⟩ := (CSpec.sumWithConstant (t := tables) [(na, 1)] (-wNative)).run c1 g1
    (by simp [*])
  obtain ⟨p, c3, f3, g3, x3, y3, -⟩ := (CSpec.isZero (t := tables) nd).run c2 g2 y2
  have v3 := v1.ext (x2.trans x3)
  obtain ⟨ld, c4, f4, g4, x4, y4, -⟩ := (CSpec.sumWithConstant (t := tables) [(a'.limbs 0, 1)]
    (-bnToN (wLimbs 0))).run c3 g3 (by simp [v3.valid])
  obtain ⟨q, c5, f5, g5, x5, y5, -⟩ := (CSpec.isZero (t := tables) ld).run c4 g4 y4
  obtain ⟨r, c6, f6, g6, x6, y6⟩ := (CSpec.and' p q).run c5 g5 ⟨y3.ext (x4.trans x5), y5⟩
  refine ⟨(r, a'), c6, ?_, g6, x1.trans (x2.trans (x3.trans (x4.trans (x5.trans x6)))), y6,
    v3.ext (x4.trans (x5.trans x6)), l1, o1⟩
  unfold Circuit.isPureWModulus
  simp only [bind_some f1, bind_some f2, bind_some f3, bind_some f4, bind_some f5, bind_some f6]
  rfl

open Classical in
theorem CSpec.iisZero (a : AInt) : CSpec tables (iisZero a) (fun c => HInt c a)
    (fun c r => ValidAV c r.1 ∧ r.1.value = (if limbsVal c.wit a.limbs ≡ 0 [MOD fqMod] then 1 else 0) ∧
      HInt c r.2 ∧ r.2.overflows = 0 ∧ limbsVal c.wit r.2.limbs < fqMod ∧
      limbsVal c.wit r.2.limbs ≡ limbsVal c.wit a.limbs [MOD fqMod]) := by
  constructor
  rintro ctx hg ha
  obtain ⟨a1, c1, f1, g1, x1, h1, o1, k1, m1⟩ := (CSpec.reduceH a).run ctx hg ha
  obtain ⟨z, c2, f2, g2, x2, y2⟩ := (CSpec.isPureZero a1).run c1 g1 h1.vint
  obtain ⟨⟨m, a2⟩, c3, f3, g3, x3, y3, v3, s3⟩ := (CSpec.isPureWModulus a1).run c2 g2 (h1.vint.ext x2)
  simp only at y3 v3 s3
  obtain ⟨r, c4, f4, g4, x4, y4, -⟩ := (CSpec.or (t := tables) z m).run c3 g3 ⟨y2.ext x3, y3⟩
  have hrun : Circuit.iisZero a ctx = some ((r, a2), c4) := by
    unfold Circuit.iisZero
    simp only [bind_some f1, bind_some f2, bind_some f3, bind_some f4]
    rfl
  have x24 := x2.trans (x3.trans x4)
  have h2 : HInt c4 a2 := SameInt.hint h1 x24 (v3.ext x4) s3
  have he : limbsVal c4.wit a2.limbs = limbsVal c1.wit a1.limbs := by
    rw [s3.1, limbsVal_ext h1.valid x24]
  have hm : limbsVal c4.wit a2.limbs ≡ limbsVal c4.wit a.limbs [MOD fqMod] := by
    rw [he, limbsVal_ext (ha.ext x1).valid x24]
    exact m1
  refine ⟨(r, a2), c4, hrun, g4, x1.trans x24, y4, ?_, h2, s3.2.trans o1, ?_, hm⟩
  · have ha4 := ha.ext (x1.trans x24)
    obtain ⟨-, hs⟩ := (Spec.iisZero a).run _ _ _ hrun _ g4.sat
    obtain ⟨q, -, -⟩ := hs (a.overflows + 1) (by have := ha.ann.counter; omega) ha4.ann.bound ha4.ann.native
    simp only at q ⊢
    rw [val_wit y4] at q
    rw [q]
    have hb1 : Bd 1 c4.wit a2.limbs := by
      have := h2.ann.bound
      rwa [s3.2, o1] at this
    have : ZeroRep c4.wit a2.limbs ↔ limbsVal c4.wit a.limbs ≡ 0 [MOD fqMod] := by
      rw [zeroRep_iff hb1]
      exact ⟨fun h => hm.symm.trans h, fun h => hm.trans h⟩
    simp only [this]
  · simp only
    rw [he]; exact k1

theorem CSpec.iassertEqual (a b : AInt) (h : a.overflows + b.overflows < 62) :
    CSpec tables (iassertEqual a b)
    (fun c => HInt c a ∧ HInt c b ∧ limbsVal c.wit a.limbs ≡ limbsVal c.wit b.limbs [MOD fqMod])
    (fun _ _ => True) := by
  constructor
  rintro ctx hg ⟨ha, hb, he⟩
  obtain ⟨df, c1, f1, g1, x1, h1⟩ := (CSpec.isub a b h).run ctx hg ⟨ha, hb⟩
  obtain ⟨df', c2, f2, g2, x2, h2, o2, k2, m2⟩ := (CSpec.reduceH df).run c1 g1 h1
  obtain ⟨⟨dn, df''⟩, c3, f3, g3, x3, y3, z3, l3, o3, v3⟩ := (CSpec.native df').run c2 g2 h2.vint
  simp only at y3 z3 l3 o3 v3
  have hz : limbsVal c2.wit df'.limbs = 0 := by
    obtain ⟨-, hs⟩ := (Spec.isub a b).run _ _ _ f1 _ g1.sat
    have ha1 := ha.ext x1
    have hb1 := hb.ext x1
    obtain ⟨hm, -⟩ := hs (a.overflows + 1) (by omega) (by omega) ha1.ann.bound hb1.ann.bound
    have he1 : limbsVal c1.wit a.limbs ≡ limbsVal c1.wit b.limbs [MOD fqMod] := by
      rw [limbsVal_ext ha.valid x1, limbsVal_ext hb.valid x1]; exact he
    have h0 : limbsVal c1.wit df.limbs ≡ 0 [MOD fqMod] := by
      have := hm.trans he1
      rw [← zero_add (limbsVal c1.wit b.limbs)] at this
      refine Nat.ModEq.add_right_cancel' (limbsVal c1.wit b.limbs) ?_
      simpa using this
    rw [← limbsVal_ext h1.valid x2] at h0
    have := m2.trans h0
    unfold Nat.ModEq at this
    rwa [Nat.mod_eq_of_lt k2, Nat.zero_mod] at this
  have hz3 : limbsVal c3.wit df'.limbs = 0 := by rw [limbsVal_ext h2.valid x3]; exact hz
  obtain ⟨_, c4, f4, g4, x4, -⟩ := (CSpec.assertConstant (t := tables) dn 0
    (by rw [z3, hz3]; simp)).run c3 g3 y3
  have h0 : (df''.limbs 0).value = 0 := by
    have hv := v3.valid 0
    rw [l3] at hv ⊢
    rw [← val_wit hv, ← ZMod.val_eq_zero]
    have : lv c3.wit (df'.limbs 0) = 0 := by unfold limbsVal at hz3; omega
    exact this
  obtain ⟨_, c5, f5, g5, x5, -⟩ := (CSpec.assertConstant (t := tables) (df''.limbs 0) 0 h0).run c4 g4
    ((v3.ext x4).valid 0)
  refine ⟨(), c5, ?_, g5, x1.trans (x2.trans (x3.trans (x4.trans x5))), trivial⟩
  unfold Circuit.iassertEqual
  simp only [bind_some f1, bind_some f2, bind_some f3, bind_some f4]
  exact f5

theorem CSpec.iisEqual (a b : AInt) (h : a.overflows + b.overflows < 62) :
    CSpec tables (iisEqual a b) (fun c => HInt c a ∧ HInt c b) (fun c r => ValidAV c r) := by
  constructor
  rintro ctx hg ⟨ha, hb⟩
  obtain ⟨df, c1, f1, g1, x1, h1⟩ := (CSpec.isub a b h).run ctx hg ⟨ha, hb⟩
  obtain ⟨⟨r, d'⟩, c2, f2, g2, x2, y2, -⟩ := (CSpec.iisZero df).run c1 g1 h1
  refine ⟨r, c2, ?_, g2, x1.trans x2, y2⟩
  unfold Circuit.iisEqual
  simp only [bind_some f1, bind_some f2]
  rfl

theorem w_eq_cast {ctx : Ctx N} {a : AInt} (h : ∀ i, ValidAV ctx (a.limbs i)) :
    a.w = ((limbsVal ctx.wit a.limbs : ℕ) : W) := by
  unfold AInt.w
  rw [HInt.bn_eq h]
  have hlt : limbsVal ctx.wit a.limbs % fqMod < fqMod := Nat.mod_lt _ (by decide +kernel)
  rw [bnToW_eq (hlt.trans (fqMod_lt.trans (by norm_num))), ZMod.natCast_mod]

/-- The honest quotient of a division. -/
theorem div_honest {A B : ℕ} (hA : A < fqMod) (hB : B < fqMod) (h : B = 0 → A = 0) {c : W}
    (hc : c = ((B : ℕ) : W)⁻¹ * ((A : ℕ) : W)) :
    A ≤ c.val * B ∧ B * c.val = (c.val * B - A) / fqMod * fqMod + A ∧ (c.val * B - A) / fqMod < 2 ^ 271 := by
  have hmod : c.val * B % fqMod = A := by
    have h1 : ((c.val * B : ℕ) : W) = ((A : ℕ) : W) := by
      push_cast
      rw [ZMod.natCast_zmod_val, hc]
      by_cases h0 : ((B : ℕ) : W) = 0
      · have hB0 : B = 0 := by
          rw [ZMod.natCast_eq_zero_iff] at h0
          exact Nat.eq_zero_of_dvd_of_lt h0 hB
        rw [h hB0]
        simp
      · field_simp
    rw [ZMod.natCast_eq_natCast_iff] at h1
    unfold Nat.ModEq at h1
    rw [h1, Nat.mod_eq_of_lt hA]
  have hle : A ≤ c.val * B := by rw [← hmod]; exact Nat.mod_le _ _
  have hdiv : (c.val * B - A) / fqMod = c.val * B / fqMod := by
    conv_lhs => rw [← hmod]
    have h1 := Nat.div_add_mod (c.val * B) fqMod
    have : c.val * B - c.val * B % fqMod = fqMod * (c.val * B / fqMod) := by omega
    rw [this, Nat.mul_div_cancel_left _ (by decide +kernel)]
  refine ⟨hle, ?_, ?_⟩
  · rw [hdiv]
    have h1 := Nat.div_add_mod (c.val * B) fqMod
    rw [hmod] at h1
    rw [mul_comm B, mul_comm (_ / _)]
    exact h1.symm
  · rw [hdiv, Nat.div_lt_iff_lt_mul (by decide +kernel)]
    have h1 : c.val * B < fqMod * fqMod := Nat.mul_lt_mul'' (ZMod.val_lt c) hB
    have h2 : fqMod * fqMod ≤ 2 ^ 271 * fqMod := Nat.mul_le_mul_right _ (fqMod_lt.le.trans (by norm_num))
    omega

open Classical in
theorem CSpec.idiv (a b : AInt) : CSpec tables (idiv a b) (fun c => HInt c a ∧ HInt c b)
    (fun c r => ValidAV c r.1 ∧ HInt c r.2.1 ∧ r.2.1.overflows = 0 ∧ HInt c r.2.2.1 ∧ HInt c r.2.2.2 ∧
      (limbsVal c.wit b.limbs ≡ 0 [MOD fqMod] → limbsVal c.wit r.2.1.limbs = 0)) := by
  constructor
  rintro ctx hg ⟨ha, hb⟩
  obtain ⟨⟨z, b1⟩, c1, f1, g1, x1, y1, w1, h1, o1, k1, m1⟩ := (CSpec.iisZero b).run ctx hg hb
  simp only at y1 w1 h1 o1 k1 m1
  obtain ⟨co, c2, f2, g2, x2, y2, w2⟩ := (CSpec.sumWithConstant (t := tables) [(z, -1)] 1).run c1 g1
    (by simp [y1])
  obtain ⟨a1, c3, f3, g3, x3, h3, o3, k3, m3⟩ := (CSpec.reduceH a).run c2 g2 (ha.ext (x1.trans x2))
  obtain ⟨l0, c4, f4, g4, x4, y4, w4⟩ := (CSpec.mul (t := tables) (a1.limbs 0) co).run c3 g3
    ⟨h3.valid 0, y2.ext x3⟩
  obtain ⟨l1, c5, f5, g5, x5, y5, w5⟩ := (CSpec.mul (t := tables) (a1.limbs 1) co).run c4 g4
    ⟨(h3.ext x4).valid 1, y2.ext (x3.trans x4)⟩
  have x45 := x4.trans x5
  obtain ⟨l2, c6, f6, g6, x6, y6, w6⟩ := (CSpec.mul (t := tables) (a1.limbs 2) co).run c5 g5
    ⟨(h3.ext x45).valid 2, y2.ext (x3.trans x45)⟩
  have x46 := x45.trans x6
  obtain ⟨l3, c7, f7, g7, x7, y7, w7⟩ := (CSpec.mul (t := tables) (a1.limbs 3) co).run c6 g6
    ⟨(h3.ext x46).valid 3, y2.ext (x3.trans x46)⟩
  have x47 := x46.trans x7
  have hval : ∀ i, ValidAV c7 (vec4 l0 l1 l2 l3 i) :=
    valid_vec4 (y4.ext (x5.trans (x6.trans x7))) (y5.ext (x6.trans x7)) (y6.ext x7) y7
  have x27 := x3.trans x47
  have x17 := x2.trans x27
  -- values
  obtain ⟨B, hB⟩ : ∃ B, limbsVal c1.wit b1.limbs = B := ⟨_, rfl⟩
  have hz : (limbsVal c1.wit b.limbs ≡ 0 [MOD fqMod]) ↔ B = 0 := by
    rw [← hB]
    constructor
    · intro h
      have := m1.trans h
      unfold Nat.ModEq at this
      rwa [Nat.mod_eq_of_lt k1, Nat.zero_mod] at this
    · intro h
      rw [h] at m1
      exact m1.symm
  have hco : co.value = if B = 0 then 0 else 1 := by
    rw [w2, hsum_cons, hsum_nil, w1]
    by_cases h : B = 0
    · rw [if_pos h, if_pos (hz.2 h)]; ring
    · rw [if_neg h, if_neg (fun hh => h (hz.1 hh))]; ring
  have hcov : co.val c7.wit = if B = 0 then 0 else 1 := by rw [val_wit (y2.ext x27), hco]
  have hco01 : co.val c7.wit = 0 ∨ co.val c7.wit = 1 := by rw [hcov]; split <;> simp
  have h37 := h3.ext x47
  have b37 : Bd 1 c7.wit a1.limbs := by
    have := h37.ann.bound
    rwa [o3] at this
  obtain ⟨ba', va'⟩ := scale_bd (adv := c7.wit) (l := vec4 l0 l1 l2 l3) (a := a1.limbs) (f := co)
    Nat.one_pos (by
      intro i
      rw [val_wit (hval i), val_wit (h37.valid i), val_wit (y2.ext x27)]
      fin_cases i <;> assumption) hco01 b37
  obtain ⟨A, hA⟩ : ∃ A, limbsVal c7.wit (vec4 l0 l1 l2 l3) = A := ⟨_, rfl⟩
  have hAlt : A < fqMod := by
    rw [← hA, va']
    split
    · decide +kernel
    · rw [limbsVal_ext h3.valid x47]; exact k3
  have hA0 : B = 0 → A = 0 := by
    intro h
    rw [← hA, va', hcov, if_pos h, if_pos rfl]
  have hBlt : B < fqMod := hB ▸ k1
  have hB7 : limbsVal c7.wit b1.limbs = B := by rw [limbsVal_ext h1.valid x17, hB]
  have h17 := h1.ext x17
  have eb : b1.bn = B := by rw [HInt.bn_eq h17.valid, hB7]
  have ebw : b1.w = ((B : ℕ) : W) := by rw [w_eq_cast h17.valid, hB7]
  have hval' : ∀ i, ValidAV c7 ((AInt.new (vec4 l0 l1 l2 l3) a1.overflows).limbs i) := hval
  have ea : (AInt.new (vec4 l0 l1 l2 l3) a1.overflows).bn = A := (HInt.bn_eq hval').trans hA
  have eaw : (AInt.new (vec4 l0 l1 l2 l3) a1.overflows).w = ((A : ℕ) : W) := by
    rw [w_eq_cast hval']
    simp only [AInt.new]
    rw [hA]
  obtain ⟨C, hC⟩ : ∃ C : W, C = ((B : ℕ) : W)⁻¹ * ((A : ℕ) : W) := ⟨_, rfl⟩
  obtain ⟨q1, q2, q3⟩ := div_honest hAlt hBlt hA0 hC
  have hsub : bnSub (C.val * B) A = some (C.val * B - A) := by unfold bnSub; rw [if_pos q1]
  obtain ⟨cc, c8, f8, g8, x8, h8, o8, n8, v8⟩ := (CSpec.assignW C).run c7 g7 trivial
  obtain ⟨d, c9, f9, g9, x9, y9, v9, b9⟩ := (CSpec.assignD' _ q3).run c8 g8 trivial
  have x79 := x8.trans x9
  have h19 := h17.ext x79
  have h89 := h8.ext x9
  have heq : limbsVal c9.wit b1.limbs * limbsVal c9.wit cc.limbs = limbsVal c9.wit d * fqMod +
      limbsVal c9.wit (AInt.new (vec4 l0 l1 l2 l3) a1.overflows).limbs := by
    rw [limbsVal_ext h17.valid x79, hB7, limbsVal_ext h8.valid x9, v8, v9, limbsVal_ext hval' x79]
    simp only [AInt.new]
    rw [hA]
    exact q2
  have va9 : VInt c9 (AInt.new (vec4 l0 l1 l2 l3) a1.overflows) :=
    VInt.of_none (fun i => (hval' i).ext x79) rfl
  obtain ⟨_, c10, f10, g10, x10, -⟩ := (CSpec.mulEqLimbs b1 cc d (AInt.new (vec4 l0 l1 l2 l3) a1.overflows)
    (by omega) (by omega) (by simp only [AInt.new]; omega)).run c9 g9
    ⟨h19.valid, h89.valid, y9, va9.valid, h19.ann.bound.to64 (by omega), h89.ann.bound.to64 (by omega), b9,
      Bd.ext (l := vec4 l0 l1 l2 l3) ba' hval x79, heq⟩
  obtain ⟨⟨b2, cc', a2⟩, c11, f11, g11, x11, pb, pc, pa⟩ := (CSpec.mulEqNative b1 cc d
    (AInt.new (vec4 l0 l1 l2 l3) a1.overflows)).run c10 g10
    ⟨h19.vint.ext x10, h89.vint.ext x10, fun i => (y9 i).ext x10, va9.ext x10, by
      rw [limbsVal_ext h19.valid x10, limbsVal_ext h89.valid x10, limbsVal_ext y9 x10,
        limbsVal_ext va9.valid x10]
      exact heq⟩
  have x711 := x79.trans (x10.trans x11)
  refine ⟨(z, cc', a1, b2), c11, ?_, g11, x1.trans (x17.trans x711), y1.ext (x17.trans x711),
    SameInt.hint h8 (x9.trans (x10.trans x11)) pc.1 pc.2, pc.2.2.trans o8, h3.ext (x47.trans x711),
    SameInt.hint h1 (x17.trans x711) pb.1 pb.2, ?_⟩
  swap
  · intro h
    dsimp only
    rw [limbsVal_ext (fun i => (hb.valid i).ext x1) (x17.trans x711)] at h
    rw [pc.2.1, limbsVal_ext h8.valid (x9.trans (x10.trans x11)), v8, hC, hA0 (hz.1 h)]
    simp
  unfold Circuit.idiv Circuit.not
  simp only [bind_some f1, bind_some f2, bind_some f3, bind_some f4, bind_some f5, bind_some f6, bind_some f7,
    ebw, eaw, ea, eb, ← hC, wToBn, hsub, bind_some (unwrapM_run _ _), bind_some f8, bind_some f9,
    bind_some f10, bind_some f11]
  rfl

theorem CSpec.iassignConstant (w : W) : CSpec tables (iassignConstant w) (fun _ => True)
    (fun c r => HInt c r ∧ r.overflows = 0 ∧ limbsVal c.wit r.limbs = w.val) := by
  constructor
  rintro ctx hg -
  obtain ⟨l0, c0, f0, g0, x0, y0, -⟩ := (CSpec.assignConstant (t := tables)
    (bnToLimbsN (wToBn w) 0)).run ctx hg trivial
  obtain ⟨l1, c1, f1, g1, x1, y1, -⟩ := (CSpec.assignConstant (t := tables)
    (bnToLimbsN (wToBn w) 1)).run c0 g0 trivial
  obtain ⟨l2, c2, f2, g2, x2, y2, -⟩ := (CSpec.assignConstant (t := tables)
    (bnToLimbsN (wToBn w) 2)).run c1 g1 trivial
  obtain ⟨l3, c3, f3, g3, x3, y3, -⟩ := (CSpec.assignConstant (t := tables)
    (bnToLimbsN (wToBn w) 3)).run c2 g2 trivial
  have hrun : Circuit.iassignConstant w ctx = some (AInt.new (vec4 l0 l1 l2 l3) 0, c3) := by
    unfold Circuit.iassignConstant
    simp only [bind_some f0, bind_some f1, bind_some f2, bind_some f3]
    rfl
  have hv : ∀ i, ValidAV c3 ((AInt.new (vec4 l0 l1 l2 l3) 0).limbs i) :=
    valid_vec4 (y0.ext (x1.trans (x2.trans x3))) (y1.ext (x2.trans x3)) (y2.ext x3) y3
  obtain ⟨-, q1, q2, -, -⟩ := (Spec.iassignConstant w).run _ _ _ hrun _ g3.sat
  have vi : VInt c3 (AInt.new (vec4 l0 l1 l2 l3) 0) := VInt.of_none hv rfl
  exact ⟨_, c3, hrun, g3, x0.trans (x1.trans (x2.trans x3)), ⟨hv, vi.validN,
    ⟨q2, vi.native, by norm_num [AInt.new]⟩, fun _ => by rw [q1]; exact ZMod.val_lt w⟩, rfl, q1⟩

theorem CSpec.ibisec (cond : AV N) (a b : AInt) (hc : cond.value = 0 ∨ cond.value = 1) :
    CSpec tables (ibisec cond a b)
    (fun c => ValidAV c cond ∧ HInt c a ∧ HInt c b) (fun c r => HInt c r) := by
  constructor
  rintro ctx hg ⟨hcv, ha, hb⟩
  obtain ⟨l0, c0, f0, g0, x0, y0, -⟩ := (CSpec.bisec (t := tables) cond (a.limbs 0) (b.limbs 0)).run ctx hg
    ⟨hcv, ha.valid 0, hb.valid 0⟩
  obtain ⟨l1, c1, f1, g1, x1, y1, -⟩ := (CSpec.bisec (t := tables) cond (a.limbs 1) (b.limbs 1)).run c0 g0
    ⟨hcv.ext x0, (ha.ext x0).valid 1, (hb.ext x0).valid 1⟩
  have x01 := x0.trans x1
  obtain ⟨l2, c2, f2, g2, x2, y2, -⟩ := (CSpec.bisec (t := tables) cond (a.limbs 2) (b.limbs 2)).run c1 g1
    ⟨hcv.ext x01, (ha.ext x01).valid 2, (hb.ext x01).valid 2⟩
  have x02 := x01.trans x2
  obtain ⟨l3, c3, f3, g3, x3, y3, -⟩ := (CSpec.bisec (t := tables) cond (a.limbs 3) (b.limbs 3)).run c2 g2
    ⟨hcv.ext x02, (ha.ext x02).valid 3, (hb.ext x02).valid 3⟩
  have x03 := x02.trans x3
  obtain ⟨o, ho⟩ : ∃ o, o = if a.overflows > b.overflows then a.overflows else b.overflows := ⟨_, rfl⟩
  have hrun : Circuit.ibisec cond a b ctx = some (AInt.new (vec4 l0 l1 l2 l3) o, c3) := by
    unfold Circuit.ibisec
    simp only [bind_some f0, bind_some f1, bind_some f2, bind_some f3, ← ho]
    rfl
  have hv : ∀ i, ValidAV c3 ((AInt.new (vec4 l0 l1 l2 l3) o).limbs i) :=
    valid_vec4 (y0.ext (x1.trans (x2.trans x3))) (y1.ext (x2.trans x3)) (y2.ext x3) y3
  obtain ⟨-, q1, q2, -, -⟩ := (Spec.ibisec cond a b).run _ _ _ hrun _ g3.sat
  have vi : VInt c3 (AInt.new (vec4 l0 l1 l2 l3) o) := VInt.of_none hv rfl
  have ha3 := ha.ext x03
  have hb3 := hb.ext x03
  have hoa : a.overflows ≤ o := by rw [ho]; split <;> omega
  have hob : b.overflows ≤ o := by rw [ho]; split <;> omega
  have ho64 : o < 64 := by
    have := ha.ann.counter
    have := hb.ann.counter
    rw [ho]; split <;> omega
  refine ⟨_, c3, hrun, g3, x03, ⟨hv, vi.validN, ⟨?_, vi.native, ho64⟩, ?_⟩⟩
  · rcases hc with h | h
    · exact (hb3.ann.bound.mono (by simp only [AInt.new]; omega)).congr (q2 (by rw [val_wit (hcv.ext x03), h]))
    · exact (ha3.ann.bound.mono (by simp only [AInt.new]; omega)).congr (q1 (by rw [val_wit (hcv.ext x03), h]))
  · intro h0
    simp only [AInt.new] at h0
    rcases hc with h | h
    · rw [limbsVal_congr (q2 (by rw [val_wit (hcv.ext x03), h]))]
      exact hb3.canon (by omega)
    · rw [limbsVal_congr (q1 (by rw [val_wit (hcv.ext x03), h]))]
      exact ha3.canon (by omega)

theorem CSpec.getLastBit' (a : AInt) : CSpec tables (Circuit.getLastBit a)
    (fun c => ValidAV c (a.limbs 0) ∧ (a.limbs 0).value.val < 2 ^ 68) (fun c r => ValidAV c r) := by
  constructor
  rintro ctx hg ⟨ha, hb⟩
  rw [← lv_wit ha] at hb
  have hlv : nToBn (a.limbs 0).value = lv ctx.wit (a.limbs 0) := (lv_wit ha).symm
  obtain ⟨x, hx⟩ : ∃ x, lv ctx.wit (a.limbs 0) = x := ⟨_, rfl⟩
  rw [hx] at hlv hb
  have hbn : bnToN (x / 2) = ((x / 2 : ℕ) : N) := bnToN_eq (by
    refine lt_of_le_of_lt (Nat.div_le_self _ _) (hb.trans (by norm_num)))
  obtain ⟨d, c1, f1, g1, x1, y1, w1⟩ := (CSpec.assignNonleadingLimb ((x / 2 : ℕ) : N)
    (by rw [val_cast_lt (by omega)]; omega)).run ctx hg trivial
  obtain ⟨bit, hbit⟩ : ∃ bit : N, bit = if x % 2 = 1 then 1 else 0 := ⟨_, rfl⟩
  have hxv : (a.limbs 0).value = ((x : ℕ) : N) := by
    rw [← hx, cast_lv, val_wit ha]
  have hbit' : bit = ((x % 2 : ℕ) : N) := by
    rw [hbit]
    rcases Nat.mod_two_eq_zero_or_one x with h | h <;> simp [h]
  obtain ⟨cells, c2, f2, g2, x2, y2⟩ := (CSpec.oneLine (t := tables) [(.assigned d, 2), (.unassigned bit, 1),
    (.assigned (a.limbs 0), -1)] 0 [] (by simp) (by simp) (by
      simp [gateEval, mkRow, lineVal, Schema.value]
      rw [w1, hxv, hbit']
      have : x = x / 2 * 2 + x % 2 := by omega
      have := congrArg (Nat.cast (R := N)) this
      push_cast at this ⊢
      linear_combination -this)).run c1 g1 (by simp [ValidSchema, y1, ha.ext x1])
  have hc1 : (cells 1).value = bit := (y2 1).2
  obtain ⟨_, c3, f3, g3, x3, -⟩ := (CSpec.assertBit (t := tables) (cells 1) (by
    rw [hc1, hbit]; split <;> simp)).run c2 g2 (y2 1).1
  refine ⟨cells 1, c3, ?_, g3, x1.trans (x2.trans x3), (y2 1).1.ext x3⟩
  unfold Circuit.getLastBit
  simp only [hlv, hbn, ← hbit, bind_some f1, bind_some f2, bind_some f3]
  rfl

theorem CSpec.getLastBit (a : AInt) (h0 : a.overflows = 0) : CSpec tables (getLastBit a)
    (fun c => HInt c a) (fun c r => ValidAV c r) := by
  refine (CSpec.getLastBit' a).mono ?_ (fun _ _ h => h)
  intro c ha
  refine ⟨ha.valid 0, ?_⟩
  have hb := ha.ann.bound.b0
  rw [h0, lv_wit (ha.valid 0)] at hb
  simpa using hb

end Verif.Circuit
