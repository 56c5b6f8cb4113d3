import Verif.Ecc.Curvature
import Verif.Integer.ProgramComplete

/-!
# Completeness of the group law of the ECC chip, where the tangent slope can be computed

`TangentSafe` is a sufficient condition for the honest computation of the slope `3 x^2 / 2 y` to neither panic nor
produce unsatisfied constraints.
-/

set_option exponentiation.threshold 600

namespace Verif.Circuit

open Verif.Ecc

/-- The slope of the tangent. -/
def tangent (x y : W) : W := (2 * y)⁻¹ * (3 * x ^ 2)

/-- The honest division `3 x^2 / 2 y` does not underflow, neither for the doubled limbs of `y` nor for a reduced
denominator. -/
def TangentSafe (x y : W) : Prop := y = 0 ∨
  (3 * (x ^ 2).val ≤ (tangent x y).val * (2 * y.val) ∧
    3 * ((x ^ 2).val % 2 ^ 136) ≤ 2 ^ 136 + 2 ^ 68 * (2 * (y.val % 2 ^ 68) * ((tangent x y).val / 2 ^ 68 % 2 ^ 68))) ∧
  (3 * (x ^ 2).val ≤ (tangent x y).val * (2 * y).val ∧
    3 * ((x ^ 2).val % 2 ^ 136) ≤ 2 ^ 136 + 2 ^ 68 * ((2 * y).val % 2 ^ 68 * ((tangent x y).val / 2 ^ 68 % 2 ^ 68)))

/-- The counter of a coordinate that was not obtained from `neg`. -/
def EvenCount (o : ℕ) : Prop := o ≤ 30 ∧ o % 2 = 0

/-- An honest curvature. -/
structure HCv (c : Ctx N) (k : ACurv) : Prop where
  v : HInt c k.v
  lt : k.v.overflows < 32
  z : ValidAV c k.z
  bit : k.z.value = 0 ∨ k.z.value = 1

/-- An honest point. -/
structure HP (c : Ctx N) (p : APt) : Prop where
  x : HInt c p.x
  xo : EvenCount p.x.overflows
  y : HInt c p.y
  yo : EvenCount p.y.overflows
  z : ValidAV c p.z
  bit : p.z.value = 0 ∨ p.z.value = 1
  curv : ∀ k, p.curv = some k → HCv c k

theorem HCv.ext {c c' : Ctx N} {k : ACurv} (h : HCv c k) (he : Ext c c') : HCv c' k :=
  ⟨h.v.ext he, h.lt, h.z.ext he, h.bit⟩

theorem HP.ext {c c' : Ctx N} {p : APt} (h : HP c p) (he : Ext c c') : HP c' p :=
  ⟨h.x.ext he, h.xo, h.y.ext he, h.yo, h.z.ext he, h.bit, fun k hk => (h.curv k hk).ext he⟩

/-- The last part of `div`. -/
theorem divTail_run {z : AV N} {a b1 a' : AInt} {C : W} {d : ℕ} {ctx : Ctx N} (hg : Good tables ctx)
    (hb : VInt ctx b1) (bb : Bd 64 ctx.wit b1.limbs) (ob : b1.overflows = 0) (ha : VInt ctx a')
    (ba : Bd 4 ctx.wit a'.limbs) (oa : a'.overflows = 0)
    (he : limbsVal ctx.wit b1.limbs * C.val = d * fqMod + limbsVal ctx.wit a'.limbs) (hd : d < 2 ^ 271)
    (hl : lv ctx.wit (a'.limbs 0) + 2 ^ 68 * lv ctx.wit (a'.limbs 1) ≤
      2 ^ 136 + 2 ^ 68 * (lv ctx.wit (b1.limbs 0) * (C.val / 2 ^ 68 % 2 ^ 68))) :
    ∃ cc b2 c', divTail z a b1 a' C d ctx = some ((z, cc, a, b2), c') ∧ Good tables c' ∧ Ext ctx c' ∧ HInt c' cc ∧
      cc.overflows = 0 ∧ limbsVal c'.wit cc.limbs = C.val := by
  obtain ⟨cc, c8, f8, g8, x8, h8, o8, n8, v8⟩ := (CSpec.assignW C).run ctx hg trivial
  obtain ⟨d', c9, f9, g9, x9, y9, v9, b9⟩ := (CSpec.assignD' _ hd).run c8 g8 trivial
  have x79 := x8.trans x9
  have h19 := hb.ext x79
  have h89 := h8.ext x9
  have va9 := ha.ext x79
  have heq : limbsVal c9.wit b1.limbs * limbsVal c9.wit cc.limbs = limbsVal c9.wit d' * fqMod +
      limbsVal c9.wit a'.limbs := by
    rw [limbsVal_ext hb.valid x79, limbsVal_ext h8.valid x9, v8, v9, limbsVal_ext ha.valid x79]
    exact he
  have hlow : LowCarry c9.wit b1.limbs cc.limbs d' a'.limbs := by
    unfold LowCarry lv
    rw [val_wit_ext (ha.valid 0) x79, val_wit_ext (ha.valid 1) x79]
    change lv ctx.wit (a'.limbs 0) + 2 ^ 68 * lv ctx.wit (a'.limbs 1) ≤ _
    refine hl.trans ?_
    rw [val_wit_ext (hb.valid 0) x79]
    have hc1 : lv c9.wit (cc.limbs 1) = C.val / 2 ^ 68 % 2 ^ 68 := by
      have hv : limbsVal c9.wit cc.limbs = C.val := by rw [limbsVal_ext h8.valid x9, v8]
      have hbd : Bd 1 c9.wit cc.limbs := by simpa [o8] using h89.ann.bound
      have := hbd.b0; have := hbd.b1; have := hbd.b2; have := hbd.b3
      rw [← hv]
      unfold limbsVal
      omega
    have e1 : (AV.val (cc.limbs 1) c9.wit).val = C.val / 2 ^ 68 % 2 ^ 68 := hc1
    rw [e1]
    change _ ≤ lv ctx.wit (b1.limbs 0) * _ + _ + 2 ^ 68 * (lv ctx.wit (b1.limbs 0) * (C.val / 2 ^ 68 % 2 ^ 68) + _ + _) + _
    generalize lv ctx.wit (b1.limbs 0) * (C.val / 2 ^ 68 % 2 ^ 68) = q
    rw [Nat.mul_add, Nat.mul_add]
    generalize 2 ^ 68 * q = q'
    omega
  obtain ⟨_, c10, f10, g10, x10, -⟩ := (CSpec.mulEqLimbs' b1 cc d' a' (by omega) (by omega) (by omega)).run c9 g9
    ⟨h19.valid, h89.valid, y9, va9.valid, bb.ext hb.valid x79, h89.ann.bound.to64 (by omega), b9,
      ba.ext ha.valid x79, hlow, heq⟩
  obtain ⟨⟨b2, cc', a2⟩, c11, f11, g11, x11, pb, pc, pa⟩ := (CSpec.mulEqNative b1 cc d' a').run c10 g10
    ⟨h19.ext x10, h89.vint.ext x10, fun i => (y9 i).ext x10, va9.ext x10, by
      rw [limbsVal_ext h19.valid x10, limbsVal_ext h89.valid x10, limbsVal_ext y9 x10,
        limbsVal_ext va9.valid x10]
      exact heq⟩
  refine ⟨cc', b2, c11, ?_, g11, x79.trans (x10.trans x11), SameInt.hint h8 (x9.trans (x10.trans x11)) pc.1 pc.2,
    pc.2.2.trans o8, ?_⟩
  · unfold divTail
    simp only [bind_some f8, bind_some f9, bind_some f10, bind_some f11]
    rfl
  · rw [pc.2.1, limbsVal_ext h8.valid (x9.trans (x10.trans x11)), v8]

/-- Doubling the limbs of an honest `y`. -/
theorem CSpec.double_y (a : AInt) (v : W) (oa : a.overflows < 32) :
    CSpec tables (imulSmallConstant a 2) (fun c => HInt c a ∧ residue c.wit a = v)
      (fun c r => VInt c r.1 ∧ Bd 64 c.wit r.1.limbs ∧ r.1.overflows < 64 ∧ r.2 = a ∧
        ((limbsVal c.wit r.1.limbs : ℕ) : W) = 2 * v ∧
        (r.1.overflows = 0 → (limbsVal c.wit r.1.limbs < fqMod ∧ Bd 1 c.wit r.1.limbs) ∨
          limbsVal c.wit r.1.limbs = 2 * v.val ∧ lv c.wit (r.1.limbs 0) = 2 * (v.val % 2 ^ 68))) := by
  constructor
  rintro ctx hg ⟨ha, hv⟩
  by_cases h0 : a.overflows = 0
  · obtain ⟨r, c1, f1, g1, x1, v1, o1, w1, e1⟩ := (CSpec.imulSmallConstant_fresh a 2 (by norm_num) h0).run ctx hg ha
    have ha1 := ha.ext x1
    have hbd : Bd 1 c1.wit a.limbs := by simpa [h0] using ha1.ann.bound
    have q1 := limbsVal_scale w1
    have hval : limbsVal c1.wit a.limbs = v.val := by
      rw [← hv, residue, ZMod.val_natCast, limbsVal_ext ha.valid x1, Nat.mod_eq_of_lt (ha.canon h0)]
    refine ⟨r, c1, f1, g1, x1, v1, ?_, by omega, e1, ?_, fun _ => .inr ⟨by rw [q1, hval], ?_⟩⟩
    · have := hbd.b0; have := hbd.b1; have := hbd.b2; have := hbd.b3
      exact ⟨by rw [w1]; omega, by rw [w1]; omega, by rw [w1]; omega, by rw [w1]; omega⟩
    · rw [q1, hval]
      push_cast
      rw [ZMod.natCast_zmod_val]
    · rw [w1, ← hval]
      have := hbd.b0
      unfold limbsVal
      omega
  · obtain ⟨l0, l1, l2, l3, c0, c1, c2, c3, e0, e1, e2, e3, gg, x, hval, hv'⟩ :=
      sum4_run (f := fun i => [(a.limbs i, 2)]) (k := fun _ => 0) hg (by have := ha.valid; simp [*])
    have ha4 := ha.ext x
    have hlv : ∀ i, lv c3.wit (vec4 l0 l1 l2 l3 i) = 2 * lv c3.wit (a.limbs i) := by
      intro i
      have hb := ha4.ann.bound
      have hlt : lv c3.wit (a.limbs i) < 64 * 2 ^ 68 := by
        have hb := hb.mono (show a.overflows + 1 ≤ 64 by omega)
        fin_cases i
        · simpa using hb.b0
        · simpa using hb.b1
        · simpa using hb.b2
        · exact lt_trans (by simpa using hb.b3) (by norm_num)
      have hx := hv' i
      rw [wsum_cons, wsum_nil, zero_add, add_zero, val_wit (hval i), val_wit (ha4.valid i)] at hx
      rw [lv_wit (hval i), hx]
      rw [lv_wit (ha4.valid i)] at hlt ⊢
      dsimp only
      have h2 : ((2 : N) * (a.limbs i).value) = ((2 * (a.limbs i).value.val : ℕ) : N) := by
        push_cast
        rw [ZMod.natCast_zmod_val]
      rw [h2, ZMod.val_natCast, Nat.mod_eq_of_lt]
      have := frMod_gt
      omega
    have hb2 : Bd (2 * a.overflows + 2) c3.wit (vec4 l0 l1 l2 l3) := by
      have hb := ha4.ann.bound
      have := hb.b0; have := hb.b1; have := hb.b2; have := hb.b3
      exact ⟨by rw [hlv]; omega, by rw [hlv]; omega, by rw [hlv]; omega, by rw [hlv]; omega⟩
    have hvi : VInt c3 (AInt.new (vec4 l0 l1 l2 l3) (a.overflows * 2)) := VInt.of_none hval rfl
    have hlimbs : limbsVal c3.wit (vec4 l0 l1 l2 l3) = 2 * limbsVal c3.wit a.limbs := limbsVal_scale hlv
    have h0' : Circuit.assertM (F := N) (2 < overflowLimit) ctx = some ((), ctx) := by
      unfold Circuit.assertM
      rw [if_pos (by simp [overflowLimit])]
    have h1' : (if a.overflows * 2 ≥ overflowLimit then Circuit.reduce a else Pure.pure a : M N AInt) ctx = some (a, ctx) := by
      rw [if_neg (by simp [overflowLimit]; omega)]
      rfl
    have hres : ((limbsVal c3.wit (vec4 l0 l1 l2 l3) : ℕ) : W) = 2 * v := by
      rw [hlimbs, ← hv, residue, limbsVal_ext ha.valid x]
      push_cast
      rfl
    have e0' : Circuit.sumWithConstant [(a.limbs 0, ((2 : ℕ) : N))] 0 ctx = some (l0, c0) := by simpa using e0
    have e1' : Circuit.sumWithConstant [(a.limbs 1, ((2 : ℕ) : N))] 0 c0 = some (l1, c1) := by simpa using e1
    have e2' : Circuit.sumWithConstant [(a.limbs 2, ((2 : ℕ) : N))] 0 c1 = some (l2, c2) := by simpa using e2
    have e3' : Circuit.sumWithConstant [(a.limbs 3, ((2 : ℕ) : N))] 0 c2 = some (l3, c3) := by simpa using e3
    by_cases ho : a.overflows * 2 < 32
    · refine ⟨(AInt.new (vec4 l0 l1 l2 l3) (a.overflows * 2), a), c3, ?_, gg, x, hvi, hb2.mono (by omega), ?_, rfl, hres, ?_⟩
      · unfold Circuit.imulSmallConstant
        have h2 : Circuit.conditionallyReduce (AInt.new (vec4 l0 l1 l2 l3) (a.overflows * 2)) c3 =
            some (AInt.new (vec4 l0 l1 l2 l3) (a.overflows * 2), c3) := by
          unfold Circuit.conditionallyReduce
          rw [if_neg (by simp [AInt.new, overflowThreshold]; omega)]
          rfl
        simp only [bind_some h0', bind_some h1', bind_some e0', bind_some e1', bind_some e2', bind_some e3', bind_some h2]
        rfl
      · simp only [AInt.new]; omega
      · simp only [AInt.new]; omega
    · obtain ⟨r, c4, f4, g4, x4, v4, -, k4⟩ := (CSpec.reduce (AInt.new (vec4 l0 l1 l2 l3) (a.overflows * 2))
        (by simp only [AInt.new]; omega)).run c3 gg ⟨hvi, hb2.mono (by omega)⟩
      have hlt := k4 (by simp only [AInt.new]; omega)
      obtain ⟨-, hs⟩ := (Spec.reduce _).run _ _ _ f4 _ g4.sat
      obtain ⟨⟨r1, -⟩, q3⟩ := hs 64 (by norm_num) (Bd.ext (hb2.mono (by omega)) hval x4) (hvi.ext x4).native
      have hb4 : r.overflows = 0 ∧ Bd 1 c4.wit r.limbs := by
        rcases q3 with ⟨h, -⟩ | ⟨-, -, h, h'⟩
        · exact absurd h (by simp only [AInt.new]; omega)
        · exact ⟨h, h'⟩
      refine ⟨(r, a), c4, ?_, g4, x.trans x4, v4, hb4.2.mono (by norm_num), by rw [hb4.1]; norm_num, rfl, ?_,
        fun _ => .inl ⟨hlt, hb4.2⟩⟩
      · unfold Circuit.imulSmallConstant
        have h2 : Circuit.conditionallyReduce (AInt.new (vec4 l0 l1 l2 l3) (a.overflows * 2)) c3 = some (r, c4) := by
          unfold Circuit.conditionallyReduce
          rw [if_pos (by simp [AInt.new, overflowThreshold]; omega)]
          exact f4
        simp only [bind_some h0', bind_some h1', bind_some e0', bind_some e1', bind_some e2', bind_some e3', bind_some h2]
        rfl
      · rw [modEq_cast r1, ← hres, limbsVal_ext (l := (AInt.new (vec4 l0 l1 l2 l3) (a.overflows * 2)).limbs) hval x4]
        rfl

theorem dvd_sub_of_cast {C : W} {B A : ℕ} (hC : C * (B : W) = (A : W)) (hle : A ≤ C.val * B) : fqMod ∣ C.val * B - A := by
  rw [← ZMod.natCast_eq_zero_iff, Nat.cast_sub hle, Nat.cast_mul, ZMod.natCast_zmod_val, hC, sub_self]

/-- What is known of the slope `k` kept with a point after `curvature`: a slope that was there is kept, and the slope
computed where `y` is zero is zero. -/
structure KnownCurv (c : Ctx N) (p p' : APt) (k : ACurv) : Prop where
  eq : p'.curv = some k
  zero : p.curv = .none → residue c.wit p.y = 0 → residue c.wit k.v = 0
  keep : ∀ k', p.curv = some k' → k = k'

theorem KnownCurv.ext {c c' : Ctx N} {p p' : APt} {k : ACurv} (h : KnownCurv c p p' k) (hp : HP c p) (hk : HCv c k)
    (he : Ext c c') : KnownCurv c' p p' k :=
  ⟨h.eq, fun h1 h2 => by
    unfold residue at h2 ⊢
    rw [limbsVal_ext hp.y.valid he] at h2
    rw [limbsVal_ext hk.v.valid he]
    exact h.zero h1 h2, h.keep⟩

/-- `curvature` succeeds with satisfied constraints when the tangent is safe or already known. -/
theorem CSpec.curvature (p : APt) : CSpec tables (Circuit.curvature p)
    (fun c => HP c p ∧ (p.curv = .none → TangentSafe (residue c.wit p.x) (residue c.wit p.y)))
    (fun c r => HCv c r.1 ∧ HP c r.2 ∧ r.2.x.overflows = p.x.overflows ∧ r.2.y.overflows = p.y.overflows ∧ r.2.z = p.z ∧
      KnownCurv c p r.2 r.1) := by
  constructor
  rintro ctx hg ⟨hp, hsafe⟩
  cases hc : p.curv with
  | some k =>
    refine ⟨(k, p), ctx, ?_, hg, Ext.refl _, hp.curv k hc, hp, rfl, rfl, rfl, hc, fun h => by simp [hc] at h, fun k' h => by
      rw [hc] at h; exact (Option.some.inj h)⟩
    unfold Circuit.curvature
    rw [hc]
    rfl
  | none =>
    have hsafe := hsafe hc
    obtain ⟨vx, hvx⟩ : ∃ v, residue ctx.wit p.x = v := ⟨_, rfl⟩
    obtain ⟨vy, hvy⟩ : ∃ v, residue ctx.wit p.y = v := ⟨_, rfl⟩
    rw [hvx, hvy] at hsafe
    have hx : HV ctx p.x vx := ⟨hp.x, by have := hp.xo.1; omega, hvx⟩
    obtain ⟨⟨x2, x⟩, c1, f1, g1, e1, h1, o1, hx1, ox1⟩ := (CSpec.isquare_hv p.x vx).run ctx hg hx
    dsimp only at h1 o1 hx1 ox1
    obtain ⟨⟨num, x2'⟩, c2, f2, g2, e2, v2, o2, w2, -⟩ := (CSpec.imulSmallConstant_fresh x2 3 (by norm_num) o1).run c1 g1 h1.h
    obtain ⟨⟨den, y⟩, c3, f3, g3, e3, v3, b3, o3, hy3, r3, t3⟩ := (CSpec.double_y p.y vy (by have := hp.yo.1; omega)).run c2 g2
      ⟨hp.y.ext (e1.trans e2), by rw [← hvy]; unfold residue; rw [limbsVal_ext hp.y.valid (e1.trans e2)]⟩
    dsimp only at v2 o2 w2 v3 b3 o3 hy3 r3 t3
    subst hy3
    have q2 := limbsVal_scale w2
    have hX : limbsVal c2.wit x2.limbs = (vx ^ 2).val := by
      have hh := h1.ext e2
      rw [← hh.val, residue, ZMod.val_natCast, Nat.mod_eq_of_lt (hh.h.canon o1)]
    have hbx : Bd 1 c2.wit x2.limbs := by simpa [o1] using (h1.ext e2).h.ann.bound
    have b2 : Bd 4 c2.wit num.limbs := by
      have := hbx.b0; have := hbx.b1; have := hbx.b2; have := hbx.b3
      exact ⟨by rw [w2]; omega, by rw [w2]; omega, by rw [w2]; omega, by rw [w2]; omega⟩
    have v2' := v2.ext e3
    obtain ⟨z, b1, a', c7, g7, e7, z7, zv7, h7, o7, k7, m7, n7, v7, oa7, w7, hrun⟩ := idiv_prep g3 v2' (b2.ext v2.valid e3) o2 v3 b3 o3
    have e27 := e3.trans e7
    have hBres : ((limbsVal c7.wit b1.limbs : ℕ) : W) = 2 * vy := by
      rw [modEq_cast k7.1, limbsVal_ext v3.valid e7, r3]
    -- the denominator is either canonical or twice the canonical `y`
    have hform : (limbsVal c7.wit b1.limbs < fqMod ∧ Bd 1 c7.wit b1.limbs) ∨
        limbsVal c7.wit b1.limbs = 2 * vy.val ∧ lv c7.wit (b1.limbs 0) = 2 * (vy.val % 2 ^ 68) := by
      by_cases h0 : den.overflows = 0
      · rw [m7 h0, limbsVal_ext v3.valid e7]
        rcases t3 h0 with ⟨h, h'⟩ | ⟨h, h'⟩
        · exact .inl ⟨h, h'.ext v3.valid e7⟩
        · exact .inr ⟨h, by unfold lv at h' ⊢; rw [val_wit_ext (v3.valid 0) e7]; exact h'⟩
      · exact .inl (n7 h0)
    have hodd : fqMod % 2 = 1 := by decide +kernel
    have hz : ZeroRep c7.wit b1.limbs ↔ vy = 0 := by
      constructor
      · intro h
        have := modEq_cast (zeroRep_modEq h)
        rw [hBres, Nat.cast_zero] at this
        exact (mul_eq_zero.1 this).resolve_left two_ne
      · intro h
        left
        rcases hform with ⟨h1, -⟩ | ⟨h1, -⟩
        · have : ((limbsVal c7.wit b1.limbs : ℕ) : W) = ((0 : ℕ) : W) := by rw [hBres, h]; simp
          rw [ZMod.natCast_eq_natCast_iff'] at this
          rwa [Nat.mod_eq_of_lt h1, Nat.zero_mod] at this
        · rw [h1, h]; simp
    have b7 : Bd 64 c7.wit b1.limbs := by
      by_cases h0 : den.overflows = 0
      · rw [m7 h0]; exact b3.ext v3.valid e7
      · exact (n7 h0).2.mono (by norm_num)
    have hlvA : ∀ i, lv c7.wit (a'.limbs i) = if vy = 0 then 0 else 3 * lv c2.wit (x2.limbs i) := by
      intro i
      have hx : lv c7.wit (num.limbs i) = 3 * lv c2.wit (x2.limbs i) := by
        rw [← w2 i]
        unfold lv
        rw [val_wit_ext (v2.valid i) e27]
      have := w7 i
      simp only [hz, hx] at this
      exact this
    have hA : limbsVal c7.wit a'.limbs = if vy = 0 then 0 else 3 * (vx ^ 2).val := by
      unfold limbsVal
      simp only [hlvA]
      split
      · simp
      · rw [← hX]; unfold limbsVal; ring
    have ba : Bd 4 c7.wit a'.limbs := by
      have := hbx.b0; have := hbx.b1; have := hbx.b2; have := hbx.b3
      refine ⟨?_, ?_, ?_, ?_⟩ <;> rw [hlvA] <;> split <;> omega
    obtain ⟨B, hB⟩ : ∃ B, limbsVal c7.wit b1.limbs = B := ⟨_, rfl⟩
    obtain ⟨A, hA'⟩ : ∃ A, limbsVal c7.wit a'.limbs = A := ⟨_, rfl⟩
    rw [hB, hA'] at hrun
    rw [hB] at hBres hform
    rw [hA'] at hA
    obtain ⟨C, hC⟩ : ∃ C : W, C = ((B : ℕ) : W)⁻¹ * ((A : ℕ) : W) := ⟨_, rfl⟩
    rw [← hC] at hrun
    have hCt : vy ≠ 0 → C = tangent vx vy := by
      intro h
      rw [hC, hBres, hA, if_neg h, tangent]
      push_cast
      rw [ZMod.natCast_zmod_val]
    have hC0 : vy = 0 → C = 0 := by
      intro h
      rw [hC, hA, if_pos h, Nat.cast_zero, mul_zero]
    have hle : A ≤ C.val * B ∧ lv c7.wit (a'.limbs 0) + 2 ^ 68 * lv c7.wit (a'.limbs 1) ≤
        2 ^ 136 + 2 ^ 68 * (lv c7.wit (b1.limbs 0) * (C.val / 2 ^ 68 % 2 ^ 68)) := by
      by_cases h : vy = 0
      · rw [if_pos h] at hA
        subst hA
        exact ⟨Nat.zero_le _, by rw [hlvA 0, hlvA 1, if_pos h, if_pos h]; exact Nat.zero_le _⟩
      · obtain ⟨⟨s1, s2⟩, s3, s4⟩ := hsafe.resolve_left h
        rw [if_neg h] at hA
        rw [← hCt h] at s1 s2 s3 s4
        have hlow : lv c7.wit (a'.limbs 0) + 2 ^ 68 * lv c7.wit (a'.limbs 1) = 3 * ((vx ^ 2).val % 2 ^ 136) := by
          have hb0 := hbx.b0
          have hb1 := hbx.b1
          rw [hlvA 0, hlvA 1, if_neg h, if_neg h, ← hX]
          unfold limbsVal
          omega
        rw [hlow]
        rcases hform with ⟨q, q'⟩ | ⟨q, q'⟩
        · have hBv : B = (2 * vy).val := by
            rw [← hBres, ZMod.val_natCast, Nat.mod_eq_of_lt q]
          have hb0 : lv c7.wit (b1.limbs 0) = (2 * vy).val % 2 ^ 68 := by
            rw [← hBv, ← hB]
            have := q'.b0
            unfold limbsVal
            omega
          exact ⟨by rw [hA, hBv]; exact s3, by rw [hb0]; exact s4⟩
        · exact ⟨by rw [hA, q]; exact s1, by rw [q']; exact s2⟩
    have hmul : C * (B : W) = (A : W) := by
      by_cases h : vy = 0
      · rw [hC0 h, hA, if_pos h]; simp
      · rw [hC, hBres, mul_comm, mul_inv_cancel_left₀ (mul_ne_zero two_ne h)]
    obtain ⟨d, hd⟩ := dvd_sub_of_cast hmul hle.1
    have hB256 : B < 64 * 2 ^ 255 := by
      rw [← hB]
      exact limbsVal_lt b7
    have hdlt : d < 2 ^ 271 := by
      have hCl : C.val < fqMod := ZMod.val_lt C
      have : fqMod * d < fqMod * (64 * 2 ^ 255) := by
        rw [← hd]
        calc C.val * B - A ≤ C.val * B := Nat.sub_le _ _
          _ ≤ fqMod * B := Nat.mul_le_mul_right _ hCl.le
          _ < fqMod * (64 * 2 ^ 255) := Nat.mul_lt_mul_of_pos_left hB256 (by decide +kernel)
      have h1 := Nat.lt_of_mul_lt_mul_left this
      omega
    have hdd : (C.val * B - A) / fqMod = d := by
      rw [hd, Nat.mul_div_cancel_left _ (by decide +kernel)]
    obtain ⟨cc, b2', c8, f8, g8, x8, h8, o8, v8⟩ := divTail_run (z := z) (a := num) (C := C) (d := d) g7 h7 b7 o7 v7 ba oa7
      (by rw [hB, hA', mul_comm d, ← hd]; rw [mul_comm]; have := hle.1; omega) hdlt hle.2
    have hfin : Circuit.idiv num den c3 = some ((z, cc, num, b2'), c8) := by
      rw [hrun]
      have : Circuit.unwrapM (bnSub (C.val * B) A) c7 = some (C.val * B - A, c7) := by
        unfold bnSub
        rw [if_pos hle.1]
        rfl
      rw [bind_some this, hdd, f8]
    have hzb : z.value = 0 ∨ z.value = 1 := by rw [zv7]; split <;> simp
    have e08 := e1.trans (e2.trans (e3.trans (e7.trans x8)))
    have hcv : HCv c8 ⟨cc, z⟩ := ⟨h8, by dsimp only; omega, z7.ext x8, hzb⟩
    refine ⟨(⟨cc, z⟩, ⟨x, p.y, p.z, some ⟨cc, z⟩⟩), c8, ?_, g8, e08, hcv, ⟨?_, ?_, hp.y.ext e08, hp.yo, hp.z.ext e08, hp.bit, ?_⟩,
      ox1, rfl, rfl, rfl, fun _ h0 => ?_, fun k' h => by simp [hc] at h⟩
    · unfold Circuit.curvature
      simp only [hc]
      rw [bind_some f1]
      dsimp only
      rw [bind_some f2]
      dsimp only
      rw [bind_some f3]
      dsimp only
      rw [bind_some hfin]
      rfl
    · exact hx1.h.ext (e2.trans (e3.trans (e7.trans x8)))
    · rw [ox1]; exact hp.xo
    · rintro k ⟨⟩
      exact hcv
    · have hy0 : vy = 0 := by
        rw [← hvy, ← h0]
        unfold residue
        rw [limbsVal_ext hp.y.valid e08]
      dsimp only
      unfold residue
      rw [v8, hC0 hy0]
      simp

theorem evenCount_sub {o o' : ℕ} (h : EvenCount o) (h' : EvenCount o') :
    EvenCount (if o + o' + 2 < 32 then o + o' + 2 else 0) := by
  obtain ⟨h1, h2⟩ := h
  obtain ⟨h3, h4⟩ := h'
  unfold EvenCount
  split <;> omega

theorem evenCount_zero : EvenCount 0 := ⟨by norm_num, rfl⟩

theorem evenCount_max {o o' : ℕ} (h : EvenCount o) (h' : EvenCount o') : EvenCount (if o > o' then o else o') := by
  split <;> assumption

/-- Subtraction of honest integers with even counters. -/
theorem CSpec.isub_even (a b : AInt) (ha : EvenCount a.overflows) (hb : EvenCount b.overflows) :
    CSpec tables (Circuit.isub a b) (fun c => HInt c a ∧ HInt c b) (fun c r => HInt c r ∧ EvenCount r.overflows) := by
  constructor
  intro ctx hg h
  obtain ⟨r, c, f, g, e, p⟩ := (CSpec.isub a b (by have := ha.1; have := hb.1; omega)).run ctx hg h
  exact ⟨r, c, f, g, e, p, by rw [isub_ov f]; exact evenCount_sub ha hb⟩

theorem ibisec_count {cond : AV N} {a b r : AInt} {c c' : Ctx N} (h : Circuit.ibisec cond a b c = some (r, c')) :
    r.overflows = if a.overflows > b.overflows then a.overflows else b.overflows := by
  simp only [Circuit.ibisec, bind_run, pure_run] at h
  obtain ⟨_, _, -, _, _, -, _, _, -, _, _, -, rfl, -⟩ := h
  rfl

theorem CSpec.bisecCond_bit (k a b : AV N) (hk : k.value = 0 ∨ k.value = 1) (ha : a.value = 0 ∨ a.value = 1)
    (hb : b.value = 0 ∨ b.value = 1) : CSpec tables (Circuit.bisecCond k a b)
      (fun c => ValidAV c k ∧ ValidAV c a ∧ ValidAV c b) (fun c r => ValidAV c r ∧ (r.value = 0 ∨ r.value = 1)) :=
  (CSpec.bisec k a b).mono (fun _ h => h) fun c r h => ⟨h.1, by
    rw [h.2]
    rcases hk with h | h <;> rw [h] <;> simp [ha, hb]⟩

theorem CSpec.bisecCurv (k : AV N) (a b : ACurv) (hk : k.value = 0 ∨ k.value = 1) :
    CSpec tables (Circuit.bisecCurv k a b) (fun c => ValidAV c k ∧ HCv c a ∧ HCv c b) (fun c r => HCv c r) := by
  constructor
  rintro ctx hg ⟨h1, h2, h3⟩
  obtain ⟨v, c1, f1, g1, e1, p1⟩ := (CSpec.ibisec k a.v b.v hk).run ctx hg ⟨h1, h2.v, h3.v⟩
  obtain ⟨z, c2, f2, g2, e2, p2, b2⟩ := (CSpec.bisecCond_bit k a.z b.z hk h2.bit h3.bit).run c1 g1
    ⟨h1.ext e1, h2.z.ext e1, h3.z.ext e1⟩
  refine ⟨⟨v, z⟩, c2, ?_, g2, e1.trans e2, p1.ext e2, ?_, p2, b2⟩
  · unfold Circuit.bisecCurv
    rw [bind_some f1, bind_some f2]
    rfl
  · dsimp only
    rw [ibisec_count f1]
    have := h2.lt
    have := h3.lt
    split <;> omega

theorem CSpec.bisecPoint (k : AV N) (a b : APt) (hk : k.value = 0 ∨ k.value = 1) :
    CSpec tables (Circuit.bisecPoint k a b) (fun c => ValidAV c k ∧ HP c a ∧ HP c b)
      (fun c r => HP c r ∧ r.curv = .none) := by
  constructor
  rintro ctx hg ⟨h1, h2, h3⟩
  obtain ⟨x, c1, f1, g1, e1, p1⟩ := (CSpec.ibisec k a.x b.x hk).run ctx hg ⟨h1, h2.x, h3.x⟩
  obtain ⟨y, c2, f2, g2, e2, p2⟩ := (CSpec.ibisec k a.y b.y hk).run c1 g1 ⟨h1.ext e1, h2.y.ext e1, h3.y.ext e1⟩
  have e12 := e1.trans e2
  obtain ⟨z, c3, f3, g3, e3, p3, b3⟩ := (CSpec.bisecCond_bit k a.z b.z hk h2.bit h3.bit).run c2 g2
    ⟨h1.ext e12, h2.z.ext e12, h3.z.ext e12⟩
  refine ⟨⟨x, y, z, .none⟩, c3, ?_, g3, e12.trans e3, ⟨p1.ext (e2.trans e3), ?_, p2.ext e3, ?_, p3, b3, by rintro _ ⟨⟩⟩, rfl⟩
  · unfold Circuit.bisecPoint
    rw [bind_some f1, bind_some f2, bind_some f3]
    rfl
  · dsimp only
    rw [ibisec_count f1]
    exact evenCount_max h2.xo h3.xo
  · dsimp only
    rw [ibisec_count f2]
    exact evenCount_max h2.yo h3.yo

theorem CSpec.lambdaToPoint (l : ACurv) (a b : APt) : CSpec tables (Circuit.lambdaToPoint l a b)
    (fun c => HCv c l ∧ HP c a ∧ HP c b) (fun c r => HP c r ∧ r.z = l.z ∧ r.curv = .none) := by
  constructor
  rintro ctx hg ⟨h1, h2, h3⟩
  have hv : HV ctx l.v (residue ctx.wit l.v) := ⟨h1.v, h1.lt, rfl⟩
  obtain ⟨⟨l2, l'⟩, c1, f1, g1, e1, p1, o1, p1', o1'⟩ := (CSpec.isquare_hv l.v _).run ctx hg hv
  dsimp only at p1 o1 p1' o1'
  obtain ⟨t, c2, f2, g2, e2, p2, o2⟩ := (CSpec.isub_even l2 a.x (by rw [o1]; exact evenCount_zero) h2.xo).run c1 g1
    ⟨p1.h, h2.x.ext e1⟩
  have e12 := e1.trans e2
  obtain ⟨cx, c3, f3, g3, e3, p3, o3⟩ := (CSpec.isub_even t b.x o2 h3.xo).run c2 g2 ⟨p2, h3.x.ext e12⟩
  have e13 := e12.trans e3
  obtain ⟨t2, c4, f4, g4, e4, p4, o4⟩ := (CSpec.isub_even a.x cx h2.xo o3).run c3 g3 ⟨h2.x.ext e13, p3⟩
  have ht2 : HV c4 t2 (residue c4.wit t2) := ⟨p4, by have := o4.1; omega, rfl⟩
  obtain ⟨⟨t3, u, u'⟩, c5, f5, g5, e5, p5, o5, -⟩ := (CSpec.imul_hv t2 l' _ _).run c4 g4
    ⟨ht2, p1'.ext (e2.trans (e3.trans e4))⟩
  dsimp only at p5 o5
  have e15 := e13.trans (e4.trans e5)
  obtain ⟨cy, c6, f6, g6, e6, p6, o6⟩ := (CSpec.isub_even t3 a.y (by rw [o5]; exact evenCount_zero) h2.yo).run c5 g5
    ⟨p5.h, h2.y.ext e15⟩
  refine ⟨⟨cx, cy, l.z, .none⟩, c6, ?_, g6, e15.trans e6, ⟨p3.ext (e4.trans (e5.trans e6)), o3, p6, o6,
    h1.z.ext (e15.trans e6), h1.bit, by rintro _ ⟨⟩⟩, rfl, rfl⟩
  unfold Circuit.lambdaToPoint
  rw [bind_some f1]
  dsimp only
  rw [bind_some f2, bind_some f3, bind_some f4, bind_some f5]
  dsimp only
  rw [bind_some f6]
  rfl

/-- `double` of an honest point with a safe tangent. -/
theorem CSpec.pDouble' (p : APt) : CSpec tables (Circuit.pDouble p)
    (fun c => HP c p ∧ (p.curv = .none → TangentSafe (residue c.wit p.x) (residue c.wit p.y)))
    (fun c r => HP c r.1 ∧ HP c r.2 ∧ ∃ k, KnownCurv c p r.2 k) := by
  constructor
  intro ctx hg h
  obtain ⟨⟨k, p'⟩, c1, f1, g1, e1, hk, hp, -, -, -, hkn⟩ := (CSpec.curvature p).run ctx hg h
  dsimp only at hk hp hkn
  obtain ⟨q, c2, f2, g2, e2, hq, hz, hc⟩ := (CSpec.lambdaToPoint k p' p').run c1 g1 ⟨hk, hp, hp⟩
  obtain ⟨z, c3, f3, g3, e3, p3, b3⟩ := (CSpec.bisecCond_bit p'.z p'.z q.z hp.bit hp.bit hq.bit).run c2 g2
    ⟨hp.z.ext e2, hp.z.ext e2, hq.z⟩
  have hq' := hq.ext e3
  refine ⟨({ q with z := z }, p'), c3, ?_, g3, e1.trans (e2.trans e3), ⟨hq'.x, hq'.xo, hq'.y, hq'.yo, p3, b3, hq'.curv⟩,
    hp.ext (e2.trans e3), k, hkn.ext (h.1.ext e1) hk (e2.trans e3)⟩
  unfold Circuit.pDouble
  rw [bind_some f1]
  dsimp only
  rw [bind_some f2, bind_some f3]
  rfl

theorem CSpec.pDouble (p : APt) : CSpec tables (Circuit.pDouble p)
    (fun c => HP c p ∧ (p.curv = .none → TangentSafe (residue c.wit p.x) (residue c.wit p.y)))
    (fun c r => HP c r.1 ∧ HP c r.2) := (CSpec.pDouble' p).mono (fun _ h => h) fun _ _ h => ⟨h.1, h.2.1⟩

/-- `add` of honest points, the first with a safe tangent. -/
theorem CSpec.pAdd' (a b : APt) : CSpec tables (Circuit.pAdd a b)
    (fun c => HP c a ∧ HP c b ∧ (a.curv = .none → TangentSafe (residue c.wit a.x) (residue c.wit a.y)))
    (fun c r => HP c r.1 ∧ HP c r.2 ∧ ∃ k, KnownCurv c a r.2 k) := by
  constructor
  rintro ctx hg ⟨ha, hb, hs⟩
  obtain ⟨dx, c1, f1, g1, e1, p1, o1⟩ := (CSpec.isub_even a.x b.x ha.xo hb.xo).run ctx hg ⟨ha.x, hb.x⟩
  obtain ⟨dy, c2, f2, g2, e2, p2, o2⟩ := (CSpec.isub_even a.y b.y ha.yo hb.yo).run c1 g1 ⟨ha.y.ext e1, hb.y.ext e1⟩
  obtain ⟨⟨xe, tg, dy', dx'⟩, c3, f3, g3, e3, p3, q3, o3, r3, -⟩ := (CSpec.idiv dy dx).run c2 g2 ⟨p2, p1.ext e2⟩
  dsimp only at p3 q3 o3 r3
  obtain ⟨-, k3⟩ := (Spec.idiv_val dy dx).run _ _ _ f3 _ g3.sat
  have p1' := p1.ext (e2.trans e3)
  have p2' := p2.ext e3
  obtain ⟨bx, -⟩ := k3 _ _ ⟨p2'.ann, by have := o2.1; omega, rfl⟩ ⟨p1'.ann, by have := o1.1; omega, rfl⟩
  have bitx : xe.value = 0 ∨ xe.value = 1 := by
    unfold IsBit at bx
    rw [val_wit p3] at bx
    rw [bx]
    split <;> simp
  obtain ⟨⟨ye, dy2⟩, c4, f4, g4, e4, p4, w4, -⟩ := (CSpec.iisZero dy').run c3 g3 r3
  dsimp only at p4 w4
  have bity : ye.value = 0 ∨ ye.value = 1 := by rw [w4]; split <;> simp
  obtain ⟨eq, c5, f5, g5, e5, p5, w5⟩ := (CSpec.mul (t := tables) xe ye).run c4 g4 ⟨p3.ext e4, p4⟩
  have biteq : eq.value = 0 ∨ eq.value = 1 := by
    rw [w5]
    rcases bitx with h | h <;> rcases bity with h' | h' <;> rw [h, h'] <;> simp
  have e15 := e1.trans (e2.trans (e3.trans (e4.trans e5)))
  obtain ⟨⟨k, a'⟩, c6, f6, g6, e6, hk, ha', -, -, -, hkn⟩ := (CSpec.curvature a).run c5 g5 ⟨ha.ext e15, fun h => by
    have := hs h
    unfold residue
    rw [limbsVal_ext ha.x.valid e15, limbsVal_ext ha.y.valid e15]
    exact this⟩
  dsimp only at hk ha' hkn
  have e36 := e4.trans (e5.trans e6)
  have htg : HCv c6 ⟨tg, xe⟩ := ⟨q3.ext e36, by dsimp only; omega, p3.ext e36, bitx⟩
  obtain ⟨lam, c7, f7, g7, e7, hl⟩ := (CSpec.bisecCurv eq k ⟨tg, xe⟩ biteq).run c6 g6 ⟨p5.ext e6, hk, htg⟩
  have e17 := e15.trans (e6.trans e7)
  have ha7 := ha'.ext e7
  obtain ⟨q, c8, f8, g8, e8, hq, -⟩ := (CSpec.lambdaToPoint lam a' b).run c7 g7 ⟨hl, ha7, hb.ext e17⟩
  have ha8 := ha7.ext e8
  have hb8 := hb.ext (e17.trans e8)
  obtain ⟨q1, c9, f9, g9, e9, hq1, -⟩ := (CSpec.bisecPoint a'.z b q ha8.bit).run c8 g8 ⟨ha8.z, hb8, hq⟩
  have hb9 := hb8.ext e9
  obtain ⟨q2, c10, f10, g10, e10, hq2, -⟩ := (CSpec.bisecPoint b.z a' q1 hb9.bit).run c9 g9 ⟨hb9.z, ha8.ext e9, hq1⟩
  refine ⟨(q2, a'), c10, ?_, g10, e17.trans (e8.trans (e9.trans e10)), hq2, ha8.ext (e9.trans e10),
    k, hkn.ext (ha.ext (e15.trans e6)) hk (e7.trans (e8.trans (e9.trans e10)))⟩
  unfold Circuit.pAdd
  rw [bind_some f1, bind_some f2, bind_some f3]
  dsimp only
  rw [bind_some f4]
  dsimp only
  unfold Circuit.and
  rw [bind_some f5, bind_some f6]
  dsimp only
  rw [bind_some f7, bind_some f8, bind_some f9, bind_some f10]
  rfl

theorem CSpec.pAdd (a b : APt) : CSpec tables (Circuit.pAdd a b)
    (fun c => HP c a ∧ HP c b ∧ (a.curv = .none → TangentSafe (residue c.wit a.x) (residue c.wit a.y)))
    (fun c r => HP c r.1 ∧ HP c r.2) := (CSpec.pAdd' a b).mono (fun _ h => h) fun _ _ h => ⟨h.1, h.2.1⟩

theorem CSpec.assignIdentity : CSpec tables Circuit.assignIdentity (fun _ => True)
    (fun c r => HP c r ∧ r.curv ≠ .none) := by
  constructor
  rintro ctx hg -
  obtain ⟨z, c1, f1, g1, e1, h1, o1⟩ := (CSpec.iassignConstant_hv 0).run ctx hg trivial
  obtain ⟨o, c2, f2, g2, e2, h2, v2⟩ := (CSpec.assignConstant (t := tables) (1 : N)).run c1 g1 trivial
  have h1' := h1.ext e2
  refine ⟨⟨z, z, o, some ⟨z, o⟩⟩, c2, ?_, g2, e1.trans e2, ⟨h1'.h, by rw [o1]; exact evenCount_zero, h1'.h,
    by rw [o1]; exact evenCount_zero, h2, .inr v2, ?_⟩, by simp⟩
  · unfold Circuit.assignIdentity
    rw [bind_some f1, bind_some f2]
    rfl
  · rintro k ⟨⟩
    exact ⟨h1'.h, h1'.lt, h2, .inr v2⟩

/-- `reduce` of an honest point. -/
theorem CSpec.pReduce (a : APt) : CSpec tables (Circuit.pReduce a) (fun c => HP c a)
    (fun c r => HP c r.1 ∧ HP c r.2) := by
  constructor
  intro ctx hg ha
  obtain ⟨x, c1, f1, g1, e1, h1, o1, -⟩ := (CSpec.reduceH a.x).run ctx hg ha.x
  obtain ⟨y, c2, f2, g2, e2, h2, o2, -⟩ := (CSpec.reduceH a.y).run c1 g1 (ha.y.ext e1)
  obtain ⟨i, c3, f3, g3, e3, h3, -⟩ := CSpec.assignIdentity.run c2 g2 trivial
  have ha' : HP c3 { a with x := x, y := y } := by
    have h := ha.ext (e1.trans (e2.trans e3))
    exact ⟨h1.ext (e2.trans e3), by dsimp only; rw [o1]; exact evenCount_zero, h2.ext e3,
      by dsimp only; rw [o2]; exact evenCount_zero, h.z, h.bit, h.curv⟩
  obtain ⟨p, c4, f4, g4, e4, h4, -⟩ := (CSpec.bisecPoint a.z i { a with x := x, y := y } ha.bit).run c3 g3 ⟨ha'.z, h3, ha'⟩
  refine ⟨(p, { a with x := x, y := y }), c4, ?_, g4, e1.trans (e2.trans (e3.trans e4)), h4, ha'.ext e4⟩
  unfold Circuit.pReduce
  rw [bind_some f1, bind_some f2]
  dsimp only
  rw [bind_some f3, bind_some f4]
  rfl

theorem HPt.hp {c : Ctx N} {p : APt} {x y : W} {z : N} (h : HPt c p x y z) (ox : p.x.overflows = 0)
    (oy : p.y.overflows = 0) (hz : z = 0 ∨ z = 1) (hc : p.curv = none) : HP c p :=
  ⟨h.x.h, by rw [ox]; exact evenCount_zero, h.y.h, by rw [oy]; exact evenCount_zero, h.z, by rw [h.zv]; exact hz,
    by rw [hc]; rintro _ ⟨⟩⟩

end Verif.Circuit
