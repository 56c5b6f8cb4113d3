import Verif.Ecc.Props

/-!
# Points with other limbs

The range checks of `assign_w` allow every integer below `2^254`, not only those below the base-field prime. `assignPointLimbs` builds
the circuit of `assign_point` with coordinates given by such integers: an assignment a dishonest prover may choose. It is not a
definition of the code; it is what the witnesses of C70 are made of.
-/

namespace Verif.Circuit

open Verif.Ecc

/-- `assign_w` with the limbs of an arbitrary number. -/
def assignLimbs (x : ℕ) : M N AInt := do
  let l3 ← assignWCeilLeadingLimb (bnToLimbsN x 3)
  let l2 ← assignNonleadingLimb (bnToLimbsN x 2)
  let l1 ← assignNonleadingLimb (bnToLimbsN x 1)
  let l0 ← assignNonleadingLimb (bnToLimbsN x 0)
  return AInt.new (vec4 l0 l1 l2 l3) 0

/-- `assign_point` with the limbs of arbitrary numbers. -/
def assignPointLimbs (vx vy : ℕ) (vz : N) : M N APt := do
  let x ← assignLimbs vx
  let y ← assignLimbs vy
  let z ← assign vz
  let b ← iassignConstant 3
  let (y2, y) ← isquare y
  let (x2, x) ← isquare x
  let (x3, _, x) ← imul x2 x
  let right ← iadd x3 b
  let eq ← iisEqual y2 right
  let e ← or eq z
  assertTrue e
  return ⟨x, y, z, none⟩

theorem Rel.assignLimbs (v : W) (x : ℕ) : Rel (Circuit.assignW v) (Circuit.assignLimbs x) SameCells := by
  exact (Rel.assignWCeilLeadingLimb _ _).bind fun _ _ h3 => (Rel.assignNonleadingLimb _ _).bind fun _ _ h2 =>
    (Rel.assignNonleadingLimb _ _).bind fun _ _ h1 => (Rel.assignNonleadingLimb _ _).bind fun _ _ h0 =>
    Rel.pure (.new (same_vec4 h0 h1 h2 h3) rfl)

/-- The same rows and copy constraints as `assign_point`. -/
theorem Rel.assignPointLimbs (x y : W) (z : N) (x' y' : ℕ) (z' : N) :
    Rel (Circuit.assignPointRaw x y z) (Circuit.assignPointLimbs x' y' z') SamePt :=
  (Rel.assignLimbs _ _).bind fun _ _ q1 => (Rel.assignLimbs _ _).bind fun _ _ q2 => (Rel.assign _ _).bind fun _ _ q3 =>
    (Rel.iassignConstant _).bind fun _ _ q4 => (Rel.isquare q2).bind fun _ _ q5 =>
    (Rel.isquare q1).bind fun _ _ q6 => (Rel.imul q6.1 q6.2).bind fun _ _ q7 =>
    (Rel.iadd q7.1 q4).bind fun _ _ q8 => (Rel.iisEqual q5.1 q8).bind fun _ _ q9 =>
    (Rel.or q9 q3).bind fun _ _ q10 => (Rel.assertConstant q10 _).bind fun _ _ _ =>
    Rel.pure ⟨q7.2.2, q5.2, q3, .none⟩

/-- An assigned integer whose cells hold the number `n`, below `2^254`. -/
structure Holding (c : Ctx N) (a : AInt) (n : ℕ) : Prop where
  v : VInt c a
  ok : IntOk c.wit a (n : W)
  o : a.overflows = 0
  val : limbsVal c.wit a.limbs = n

theorem Holding.same {c c' : Ctx N} {a a' : AInt} {n : ℕ} (h : Holding c a n) (he : Ext c c') (hv : VInt c' a') (hs : SameInt a a')
    (ho : IntOk c'.wit a' (n : W)) : Holding c' a' n :=
  ⟨hv, ho, by rw [hs.2, h.o], by rw [hs.1, limbsVal_ext h.v.valid he, h.val]⟩

theorem Holding.ext {c c' : Ctx N} {a : AInt} {n : ℕ} (h : Holding c a n) (he : Ext c c') : Holding c' a n := by
  have hl := limbsVal_ext h.v.valid he
  refine ⟨h.v.ext he, ⟨⟨?_, (h.v.ext he).native, h.ok.1.counter⟩, h.ok.2.1, ?_⟩, h.o, by rw [hl, h.val]⟩
  · have hb := h.ok.1.bound
    have : ∀ i, lv c'.wit (a.limbs i) = lv c.wit (a.limbs i) := fun i => by
      unfold lv
      rw [val_wit_ext (h.v.valid i) he]
    exact ⟨by rw [this]; exact hb.1, by rw [this]; exact hb.2, by rw [this]; exact hb.3, by rw [this]; exact hb.4⟩
  · unfold residue
    rw [hl, h.val]

theorem CSpec.assignLimbs {x : ℕ} (hx : x < 2 ^ 254) : CSpec tables (Circuit.assignLimbs x) (fun _ => True) (fun c r => Holding c r x) := by
  constructor
  intro ctx hg _
  have hlt' : x < 2 ^ 272 := hx.trans (Nat.pow_lt_pow_right (by norm_num) (by norm_num))
  have hv := bnToLimbsN_val hlt'
  have hb : ∀ i, (bnToLimbsN x i).val < 2 ^ 68 := fun i => by rw [hv]; exact bnToLimbs_lt hlt'
  have h3 : (bnToLimbsN x 3).val < 2 ^ 50 := by
    rw [hv]
    simp only [bnToLimbs, limbWidth_eq, Nat.shiftRight_eq_div_pow]
    omega
  obtain ⟨l3, c3, e3, g3, x3, v3, w3⟩ := (CSpec.assignWCeilLeadingLimb _ h3).run ctx hg trivial
  obtain ⟨l2, c2, e2, g2, x2, v2, w2⟩ := (CSpec.assignNonleadingLimb _ (hb 2)).run c3 g3 trivial
  obtain ⟨l1, c1, e1, g1, x1, v1, w1⟩ := (CSpec.assignNonleadingLimb _ (hb 1)).run c2 g2 trivial
  obtain ⟨l0, c0, e0, g0, x0, v0, w0⟩ := (CSpec.assignNonleadingLimb _ (hb 0)).run c1 g1 trivial
  have hvalid : ∀ i, ValidAV c0 ((AInt.new (vec4 l0 l1 l2 l3) 0).limbs i) := by
    intro i
    fin_cases i
    · exact v0
    · exact v1.ext x0
    · exact v2.ext (x1.trans x0)
    · exact v3.ext (x2.trans (x1.trans x0))
  have hval : limbsVal c0.wit (AInt.new (vec4 l0 l1 l2 l3) 0).limbs = x := by
    unfold limbsVal
    rw [lv_wit (hvalid 0), lv_wit (hvalid 1), lv_wit (hvalid 2), lv_wit (hvalid 3)]
    simp only [AInt.new, vec4, w0, w1, w2, w3, hv]
    exact limbs4_sum
  have hbd : Bd 1 c0.wit (AInt.new (vec4 l0 l1 l2 l3) 0).limbs := by
    refine ⟨?_, ?_, ?_, ?_⟩ <;> rw [lv_wit (hvalid _)] <;> simp only [AInt.new, vec4, w0, w1, w2, w3, one_mul]
    · exact hb 0
    · exact hb 1
    · exact hb 2
    · exact h3
  refine ⟨_, c0, ?_, g0, x3.trans (x2.trans (x1.trans x0)), ⟨hvalid, fun _ h => ?_, natOk_none rfl⟩, ⟨⟨hbd, natOk_none rfl, by norm_num [AInt.new]⟩, by norm_num [AInt.new], ?_⟩, rfl, hval⟩
  · unfold Circuit.assignLimbs
    rw [bind_some e3, bind_some e2, bind_some e1, bind_some e0]
    rfl
  · simp [AInt.new] at h
  · unfold residue
    rw [hval]

theorem CSpec.assignPointLimbs {vx vy : ℕ} (hx : vx < 2 ^ 254) (hy : vy < 2 ^ 254) (vz : N) (h : (vy : W) ^ 2 = (vx : W) ^ 3 + 3 ∨ vz = 1) :
    CSpec tables (Circuit.assignPointLimbs vx vy vz) (fun _ => True)
      (fun c r => Holding c r.x vx ∧ Holding c r.y vy ∧ ValidAV c r.z ∧ r.z.value = vz ∧ r.curv = none) := by
  constructor
  intro ctx hg _
  obtain ⟨x, c1, f1, g1, e1, h1⟩ := (CSpec.assignLimbs hx).run ctx hg trivial
  obtain ⟨y, c2, f2, g2, e2, h2⟩ := (CSpec.assignLimbs hy).run c1 g1 trivial
  obtain ⟨z, c3, f3, g3, e3, h3, v3⟩ := (CSpec.assign (t := tables) vz).run c2 g2 trivial
  obtain ⟨b, c4, f4, g4, e4, h4, o4⟩ := (CSpec.iassignConstant_hv 3).run c3 g3 trivial
  have hy4 := h2.ext (e3.trans e4)
  obtain ⟨y2, c5, f5, g5, e5, h5, o5, h5', s5⟩ := (CSpec.isquare y hy4.ok.1.counter).run c4 g4 ⟨hy4.v, hy4.ok.bd64⟩
  obtain ⟨-, k5⟩ := (Spec.isquare_val y).run _ _ _ f5 _ g5.sat
  obtain ⟨⟨k5, -⟩, k5'⟩ := k5 _ (hy4.ext e5).ok
  have hx5 := h1.ext (e2.trans (e3.trans (e4.trans e5)))
  obtain ⟨x2, c6, f6, g6, e6, h6, o6, h6', s6⟩ := (CSpec.isquare x hx5.ok.1.counter).run c5 g5 ⟨hx5.v, hx5.ok.bd64⟩
  obtain ⟨-, k6⟩ := (Spec.isquare_val x).run _ _ _ f6 _ g6.sat
  obtain ⟨⟨k6, -⟩, k6'⟩ := k6 _ (hx5.ext e6).ok
  have hx6 := hx5.same e6 h6' s6 k6'
  obtain ⟨x3, c7, f7, g7, e7, h7, o7, -, h7', s7⟩ := (CSpec.imul x2.1 x2.2 k6.1.counter k6'.1.counter).run c6 g6
    ⟨h6.vint, k6.bd64, h6', k6'.bd64⟩
  obtain ⟨-, k7⟩ := (Spec.imul_val x2.1 x2.2).run _ _ _ f7 _ g7.sat
  have hv6 : HV c6 x2.1 ((vx : W) ^ 2) := ⟨h6, by omega, k6.val⟩
  obtain ⟨k7, -, k7'⟩ := k7 _ _ (hv6.ext e7).ok (hx6.ext e7).ok
  have hv7 : HV c7 x3.1 ((vx : W) ^ 2 * vx) := ⟨h7, by omega, k7.val⟩
  have hv5 : HV c5 y2.1 ((vy : W) ^ 2) := ⟨h5, by omega, k5.val⟩
  obtain ⟨rt, c8, f8, g8, e8, h8, o8⟩ := (CSpec.iadd_hv x3.1 b _ _).run c7 g7 ⟨hv7, h4.ext (e5.trans (e6.trans e7))⟩
  obtain ⟨eq, c9, f9, g9, e9, h9, v9⟩ := (CSpec.iisEqual_hv y2.1 rt _ _ (by rw [o5, o8]; split <;> omega)).run c8 g8
    ⟨hv5.ext (e6.trans (e7.trans e8)), h8⟩
  have e49 := e4.trans (e5.trans (e6.trans (e7.trans (e8.trans e9))))
  obtain ⟨w, c10, f10, g10, e10, h10, v10⟩ := (CSpec.or (t := tables) eq z).run c9 g9 ⟨h9, h3.ext e49⟩
  obtain ⟨_, c11, f11, g11, e11, -⟩ := (CSpec.assertConstant (t := tables) w 1 (by
    rw [v10, v9, v3]
    rcases h with h | h
    · rw [if_pos (by rw [h]; ring)]; ring
    · rw [h]; ring)).run c10 g10 h10
  have e1011 := e10.trans e11
  refine ⟨⟨x3.2.2, y2.2, z, none⟩, c11, ?_, g11, e1.trans (e2.trans (e3.trans (e49.trans e1011))),
    (hx6.same e7 h7' s7 k7').ext (e8.trans (e9.trans e1011)),
    (hy4.same e5 h5' s5 k5').ext (e6.trans (e7.trans (e8.trans (e9.trans e1011)))), h3.ext (e49.trans e1011), v3, rfl⟩
  unfold Circuit.assignPointLimbs
  obtain ⟨y2, y'⟩ := y2
  obtain ⟨x2, x'⟩ := x2
  obtain ⟨x3, x2', x''⟩ := x3
  dsimp only at *
  rw [bind_some f1, bind_some f2, bind_some f3, bind_some f4, bind_some f5]
  dsimp only
  rw [bind_some f6]
  dsimp only
  rw [bind_some f7]
  dsimp only
  rw [bind_some f8, bind_some f9, bind_some f10]
  unfold assertTrue
  rw [bind_some f11]
  rfl

end Verif.Circuit
