import Verif.Integer.ProgramComplete
import Verif.Ecc.Sound

/-!
# Completeness of the ECC chip (helper lemmas)
-/

namespace Verif.Circuit

open Verif.Ecc

/-- An honest integer with a value, short enough for every chip call. -/
structure HV (c : Ctx N) (a : AInt) (v : W) : Prop where
  h : HInt c a
  lt : a.overflows < 32
  val : residue c.wit a = v

theorem HV.ok {c : Ctx N} {a : AInt} {v : W} (h : HV c a v) : IntOk c.wit a v := ⟨h.h.ann, h.lt, h.val⟩

theorem HV.ext {c c' : Ctx N} {a : AInt} {v : W} (h : HV c a v) (he : Ext c c') : HV c' a v :=
  ⟨h.h.ext he, h.lt, by
    rw [← h.val]
    unfold residue
    rw [limbsVal_ext h.h.valid he]⟩

theorem HV.bd64 {c : Ctx N} {a : AInt} {v : W} (h : HV c a v) : Bd 64 c.wit a.limbs := h.ok.bd64

theorem HV.lt64 {c : Ctx N} {a : AInt} {v : W} (h : HV c a v) : a.overflows < 64 := by have := h.lt; omega

theorem HV.eq {c : Ctx N} {a : AInt} {v w : W} (h : HV c a v) (e : v = w) : HV c a w := e ▸ h

theorem CSpec.assignW_hv (v : W) : CSpec tables (Circuit.assignW v) (fun _ => True)
    (fun c r => HV c r v ∧ r.overflows = 0) :=
  (CSpec.assignW v).mono (fun _ h => h) fun c r h => ⟨⟨h.1, by rw [h.2.1]; norm_num, by
    unfold residue
    rw [h.2.2.2, ZMod.natCast_zmod_val]⟩, h.2.1⟩

theorem CSpec.iassignConstant_hv (v : W) : CSpec tables (Circuit.iassignConstant v) (fun _ => True)
    (fun c r => HV c r v ∧ r.overflows = 0) :=
  (CSpec.iassignConstant v).mono (fun _ h => h) fun c r h => ⟨⟨h.1, by rw [h.2.1]; norm_num, by
    unfold residue
    rw [h.2.2, ZMod.natCast_zmod_val]⟩, h.2.1⟩

theorem HV.same {c c' : Ctx N} {a a' : AInt} {v : W} (h : HV c a v) (he : Ext c c') (hv : VInt c' a')
    (hs : SameInt a a') : HV c' a' v :=
  ⟨SameInt.hint h.h he hv hs, by rw [hs.2]; exact h.lt, by
    rw [← (h.ext he).val]
    unfold residue
    rw [hs.1]⟩

theorem CSpec.isquare_hv (a : AInt) (v : W) : CSpec tables (Circuit.isquare a) (fun c => HV c a v)
    (fun c r => HV c r.1 (v ^ 2) ∧ r.1.overflows = 0 ∧ HV c r.2 v ∧ r.2.overflows = a.overflows) := by
  constructor
  intro ctx hg ha
  obtain ⟨r, c, e, g, x, h1, h2, h3, h4⟩ := (CSpec.isquare a ha.lt64).run ctx hg ⟨ha.h.vint, ha.bd64⟩
  obtain ⟨-, hs⟩ := (Spec.isquare_val a).run _ _ _ e _ g.sat
  exact ⟨r, c, e, g, x, ⟨h1, by omega, (hs _ (ha.ext x).ok).1.1.val⟩, h2, ha.same x h3 h4, h4.2⟩

theorem CSpec.imul_hv (a b : AInt) (v u : W) : CSpec tables (Circuit.imul a b) (fun c => HV c a v ∧ HV c b u)
    (fun c r => HV c r.1 (v * u) ∧ r.1.overflows = 0 ∧ (HV c r.2.1 v ∧ r.2.1.overflows = a.overflows) ∧
      HV c r.2.2 u ∧ r.2.2.overflows = b.overflows) := by
  constructor
  rintro ctx hg ⟨ha, hb⟩
  obtain ⟨r, c, e, g, x, h1, h2, h3, h4⟩ := (CSpec.imul a b ha.lt64 hb.lt64).run ctx hg
    ⟨ha.h.vint, ha.bd64, hb.h.vint, hb.bd64⟩
  obtain ⟨-, hs⟩ := (Spec.imul_val a b).run _ _ _ e _ g.sat
  exact ⟨r, c, e, g, x, ⟨h1, by omega, (hs _ _ (ha.ext x).ok (hb.ext x).ok).1.val⟩, h2,
    ⟨ha.same x h3.1 h3.2, h3.2.2⟩, hb.same x h4.1 h4.2, h4.2.2⟩

theorem CSpec.iadd_hv (a b : AInt) (v u : W) : CSpec tables (Circuit.iadd a b) (fun c => HV c a v ∧ HV c b u)
    (fun c r => HV c r (v + u) ∧ r.overflows = if a.overflows + b.overflows + 1 < 32 then a.overflows + b.overflows + 1 else 0) := by
  constructor
  rintro ctx hg ⟨ha, hb⟩
  obtain ⟨r, c, e, g, x, h1⟩ := (CSpec.iadd a b (by have := ha.lt; have := hb.lt; omega)).run ctx hg ⟨ha.h, hb.h⟩
  obtain ⟨-, hs⟩ := (Spec.iadd_val a b).run _ _ _ e _ g.sat
  have := hs _ _ (ha.ext x).ok (hb.ext x).ok
  exact ⟨r, c, e, g, x, ⟨h1, this.2.1, this.val⟩, iadd_ov e⟩

theorem CSpec.isub_hv (a b : AInt) (v u : W) (h : a.overflows + b.overflows < 62) :
    CSpec tables (Circuit.isub a b) (fun c => HV c a v ∧ HV c b u)
    (fun c r => HV c r (v - u) ∧ r.overflows = if a.overflows + b.overflows + 2 < 32 then a.overflows + b.overflows + 2 else 0) := by
  constructor
  rintro ctx hg ⟨ha, hb⟩
  obtain ⟨r, c, e, g, x, h1⟩ := (CSpec.isub a b h).run ctx hg ⟨ha.h, hb.h⟩
  obtain ⟨-, hs⟩ := (Spec.isub_val a b).run _ _ _ e _ g.sat
  have := hs _ _ (ha.ext x).ok (hb.ext x).ok
  exact ⟨r, c, e, g, x, ⟨h1, this.2.1, this.val⟩, isub_ov e⟩

theorem CSpec.iisEqual_hv (a b : AInt) (v u : W) (h : a.overflows + b.overflows < 62) :
    CSpec tables (Circuit.iisEqual a b) (fun c => HV c a v ∧ HV c b u)
    (fun c r => ValidAV c r ∧ r.value = if v = u then 1 else 0) := by
  constructor
  rintro ctx hg ⟨ha, hb⟩
  obtain ⟨r, c, e, g, x, h1⟩ := (CSpec.iisEqual a b h).run ctx hg ⟨ha.h, hb.h⟩
  obtain ⟨-, hs⟩ := (Spec.iisEqual_val a b).run _ _ _ e _ g.sat
  have := hs _ _ (ha.ext x).ok (hb.ext x).ok
  refine ⟨r, c, e, g, x, h1, ?_⟩
  unfold IsBit at this
  rw [val_wit h1] at this
  rw [this]
  simp

/-- An assigned point with honest cells: coordinates, flag and no cached curvature. -/
structure HPt (c : Ctx N) (p : APt) (vx vy : W) (vz : N) : Prop where
  x : HV c p.x vx
  y : HV c p.y vy
  z : ValidAV c p.z
  zv : p.z.value = vz

theorem HPt.ext {c c' : Ctx N} {p : APt} {x y : W} {z : N} (h : HPt c p x y z) (he : Ext c c') : HPt c' p x y z :=
  ⟨h.x.ext he, h.y.ext he, h.z.ext he, h.zv⟩

theorem CSpec.assignPointRaw (vx vy : W) (vz : N) (h : vy ^ 2 = vx ^ 3 + 3 ∨ vz = 1) :
    CSpec tables (assignPointRaw vx vy vz) (fun _ => True)
      (fun c r => HPt c r vx vy vz ∧ r.x.overflows = 0 ∧ r.y.overflows = 0 ∧ r.curv = none) := by
  constructor
  intro ctx hg _
  obtain ⟨x, c1, f1, g1, e1, h1, o1⟩ := (CSpec.assignW_hv vx).run ctx hg trivial
  obtain ⟨y, c2, f2, g2, e2, h2, o2⟩ := (CSpec.assignW_hv vy).run c1 g1 trivial
  obtain ⟨z, c3, f3, g3, e3, h3, v3⟩ := (CSpec.assign (t := tables) vz).run c2 g2 trivial
  obtain ⟨b, c4, f4, g4, e4, h4, o4⟩ := (CSpec.iassignConstant_hv 3).run c3 g3 trivial
  obtain ⟨y2, c5, f5, g5, e5, h5, o5, h5', o5'⟩ := (CSpec.isquare_hv y vy).run c4 g4 (h2.ext (e3.trans e4))
  obtain ⟨x2, c6, f6, g6, e6, h6, o6, h6', o6'⟩ := (CSpec.isquare_hv x vx).run c5 g5
    (h1.ext (e2.trans (e3.trans (e4.trans e5))))
  obtain ⟨x3, c7, f7, g7, e7, h7, o7, -, h7', o7'⟩ := (CSpec.imul_hv x2.1 x2.2 _ _).run c6 g6 ⟨h6, h6'⟩
  obtain ⟨rt, c8, f8, g8, e8, h8, o8⟩ := (CSpec.iadd_hv x3.1 b _ _).run c7 g7 ⟨h7, h4.ext (e5.trans (e6.trans e7))⟩
  obtain ⟨eq, c9, f9, g9, e9, h9, v9⟩ := (CSpec.iisEqual_hv y2.1 rt _ _ (by rw [o5, o8]; split <;> omega)).run c8 g8
    ⟨h5.ext (e6.trans (e7.trans e8)), h8⟩
  have e49 := e4.trans (e5.trans (e6.trans (e7.trans (e8.trans e9))))
  obtain ⟨w, c10, f10, g10, e10, h10, v10⟩ := (CSpec.or (t := tables) eq z).run c9 g9 ⟨h9, h3.ext e49⟩
  obtain ⟨_, c11, f11, g11, e11, -⟩ := (CSpec.assertConstant (t := tables) w 1 (by
    rw [v10, v9, v3]
    rcases h with h | h
    · rw [if_pos (by rw [h]; ring)]; ring
    · rw [h]; ring)).run c10 g10 h10
  have e1011 := e10.trans e11
  refine ⟨⟨x3.2.2, y2.2, z, none⟩, c11, ?_, g11, e1.trans (e2.trans (e3.trans (e49.trans e1011))),
    ⟨h7'.ext (e8.trans (e9.trans e1011)), h5'.ext (e6.trans (e7.trans (e8.trans (e9.trans e1011)))),
      h3.ext (e49.trans e1011), v3⟩, by dsimp only; omega, by dsimp only; omega, rfl⟩
  unfold Circuit.assignPointRaw
  obtain ⟨y2, y'⟩ := y2
  obtain ⟨x2, x'⟩ := x2
  obtain ⟨x3, x2', x''⟩ := x3
  dsimp only at *
  rw [bind_some f1, bind_some f2, bind_some f3, bind_some f4, bind_some f5]
  dsimp only
  rw [bind_some f6]
  dsimp only
  rw [bind_some f7]
  dsimp only
  rw [bind_some f8, bind_some f9, bind_some f10]
  unfold assertTrue
  rw [bind_some f11]
  rfl

theorem CSpec.assignConstantPoint (P : Pt) : CSpec tables (assignConstantPoint P) (fun _ => True)
      (fun c r => HPt c r (coordX P) (coordY P) (flagOf P) ∧ r.x.overflows = 0 ∧ r.y.overflows = 0 ∧
        r.curv = none) := by
  constructor
  intro ctx hg _
  obtain ⟨x, c1, f1, g1, e1, h1, o1⟩ := (CSpec.iassignConstant_hv (coordX P)).run ctx hg trivial
  obtain ⟨y, c2, f2, g2, e2, h2, o2⟩ := (CSpec.iassignConstant_hv (coordY P)).run c1 g1 trivial
  obtain ⟨z, c3, f3, g3, e3, h3, v3⟩ := (CSpec.assignConstant (t := tables) (flagOf P)).run c2 g2 trivial
  refine ⟨⟨x, y, z, none⟩, c3, ?_, g3, e1.trans (e2.trans e3), ⟨h1.ext (e2.trans e3), h2.ext e3, h3, v3⟩, o1, o2, rfl⟩
  unfold Circuit.assignConstantPoint
  rw [bind_some f1, bind_some f2, bind_some f3]
  rfl

theorem CSpec.pAssertEqual (a b : APt) {x y x' y' : W} {z z' : N} (ho : a.x.overflows + b.x.overflows < 62)
    (ho' : a.y.overflows + b.y.overflows < 62) (h : x = x' ∧ y = y' ∨ z * z' = 1) :
    CSpec tables (pAssertEqual a b) (fun c => HPt c a x y z ∧ HPt c b x' y' z') (fun _ _ => True) := by
  constructor
  rintro ctx hg ⟨ha, hb⟩
  obtain ⟨ex, c1, f1, g1, e1, h1, v1⟩ := (CSpec.iisEqual_hv a.x b.x _ _ ho).run ctx hg ⟨ha.x, hb.x⟩
  obtain ⟨ey, c2, f2, g2, e2, h2, v2⟩ := (CSpec.iisEqual_hv a.y b.y _ _ ho').run c1 g1 ⟨ha.y.ext e1, hb.y.ext e1⟩
  obtain ⟨ez, c3, f3, g3, e3, h3, v3⟩ := (CSpec.xnor (t := tables) ex ey).run c2 g2 ⟨h1.ext e2, h2⟩
  obtain ⟨exy, c4, f4, g4, e4, h4, v4⟩ := (CSpec.mul (t := tables) ex ey).run c3 g3
    ⟨h1.ext (e2.trans e3), h2.ext e3⟩
  obtain ⟨t, c5, f5, g5, e5, h5, v5⟩ := (CSpec.mul (t := tables) exy ez).run c4 g4 ⟨h4, h3.ext e4⟩
  have e15 := e1.trans (e2.trans (e3.trans (e4.trans e5)))
  obtain ⟨bt, c6, f6, g6, e6, h6, v6⟩ := (CSpec.mul (t := tables) a.z b.z).run c5 g5 ⟨ha.z.ext e15, hb.z.ext e15⟩
  obtain ⟨eq, c7, f7, g7, e7, h7, v7⟩ := (CSpec.or (t := tables) t bt).run c6 g6 ⟨h5.ext e6, h6⟩
  obtain ⟨_, c8, f8, g8, e8, -⟩ := (CSpec.assertConstant (t := tables) eq 1 (by
    rw [v7, v5, v4, v3, v6, v1, v2, ha.zv, hb.zv]
    rcases h with ⟨h1, h2⟩ | h
    · rw [if_pos h1, if_pos h2]; ring
    · rw [h]; ring)).run c7 g7 h7
  refine ⟨(), c8, ?_, g8, e15.trans (e6.trans (e7.trans e8)), trivial⟩
  unfold Circuit.pAssertEqual Circuit.and
  rw [bind_some f1, bind_some f2, bind_some f3, bind_some f4, bind_some f5, bind_some f6, bind_some f7]
  exact f8

end Verif.Circuit
