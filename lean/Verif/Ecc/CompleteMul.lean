import Verif.Ecc.CompleteConst

/-!
# Completeness of scalar multiplication and multi-exponentiation

An honest computation of `mul` and `shamir` computes tangent slopes at the multiples of its table and at the
intermediate results it doubles.  It succeeds, with every constraint satisfied, when those slopes can be computed
(`Safe`) and, for `shamir`, no two non-zero intermediate results cancel.
-/

set_option exponentiation.threshold 600

namespace Verif.Circuit

open Verif.Ecc

/-- The slope of the tangent at `P` can be computed by an honest prover. -/
def Safe (P : Pt) : Prop := TangentSafe (coordX P) (coordY P)

theorem coord_zero {P : Pt} (h : P = 0) : coordX P = 0 ∧ coordY P = 0 := by subst h; exact ⟨rfl, rfl⟩

theorem safe_zero : Safe 0 := .inl rfl

theorem aff_unique {P : Pt} {x y : W} (h : Aff P x y) : x = coordX P ∧ y = coordY P := by
  obtain ⟨hn, rfl⟩ := h
  exact ⟨rfl, rfl⟩

/-- An honest assigned point: its cells hold the coordinates of `P` (zeros for the identity), and a slope kept with it
is the slope of the tangent. -/
structure HQ (c : Ctx N) (p : APt) (P : Pt) : Prop where
  hp : HP c p
  z : p.z.value = flagOf P
  x : residue c.wit p.x = coordX P
  y : residue c.wit p.y = coordY P
  k : ∀ k, p.curv = some k → residue c.wit k.v = tangent (coordX P) (coordY P) ∧ (P ≠ 0 → k.z.value = 0)

theorem residue_ext {c c' : Ctx N} {a : AInt} (h : HInt c a) (he : Ext c c') : residue c'.wit a = residue c.wit a := by
  unfold residue
  rw [limbsVal_ext h.valid he]

theorem HQ.ext {c c' : Ctx N} {p : APt} {P : Pt} (h : HQ c p P) (he : Ext c c') : HQ c' p P :=
  ⟨h.hp.ext he, h.z, by rw [residue_ext h.hp.x he, h.x], by rw [residue_ext h.hp.y he, h.y], fun k hk => by
    rw [residue_ext (h.hp.curv k hk).v he]
    exact h.k k hk⟩

theorem HP.shorts {c : Ctx N} {p : APt} (h : HP c p) : IntGood c.wit p.x ∧ IntGood c.wit p.y ∧
    ∀ k, p.curv = some k → IntGood c.wit k.v :=
  ⟨⟨h.x.ann, by have := h.xo.1; omega⟩, ⟨h.y.ann, by have := h.yo.1; omega⟩, fun k hk => ⟨(h.curv k hk).v.ann, (h.curv k hk).lt⟩⟩

theorem HQ.rep {c : Ctx N} {p : APt} {P : Pt} (h : HQ c p P) : Represents c.wit p P := by
  obtain ⟨h1, h2, h3⟩ := h.hp.shorts
  refine ⟨⟨h1, h2, fun h0 => ?_, fun h0 => ⟨?_, ?_⟩, h3⟩, fun k hk h0 => ⟨?_, ?_⟩⟩
  · rw [val_wit h.hp.z, h.z, flagOf_zero h0]
  · rw [val_wit h.hp.z, h.z, flagOf_ne h0]
  · rw [h.x, h.y]
    exact coords_aff h0
  · rw [val_wit (h.hp.curv k hk).z]
    exact (h.k k hk).2 h0
  · rw [(h.k k hk).1, h.x, h.y, tangent, mul_comm, mul_inv_cancel_left₀]
    exact mul_ne_zero two_ne (coords_aff h0).y_ne

theorem HQ.of {c : Ctx N} {p : APt} {P : Pt} (hp : HP c p) (hr : Represents c.wit p P)
    (h0 : P = 0 → residue c.wit p.x = 0 ∧ residue c.wit p.y = 0 ∧ ∀ k, p.curv = some k → residue c.wit k.v = 0) : HQ c p P := by
  by_cases h : P = 0
  · obtain ⟨h1, h2, h3⟩ := h0 h
    obtain ⟨c1, c2⟩ := coord_zero h
    refine ⟨hp, ?_, by rw [h1, c1], by rw [h2, c2], fun k hk => ⟨by rw [h3 k hk, c1, c2]; simp [tangent], fun hn => absurd h hn⟩⟩
    rw [← val_wit hp.z, hr.1.ident h, flagOf_zero h]
  · obtain ⟨h1, h2⟩ := hr.1.affine h
    obtain ⟨c1, c2⟩ := aff_unique h2
    refine ⟨hp, by rw [← val_wit hp.z, h1, flagOf_ne h], c1, c2, fun k hk => ?_⟩
    obtain ⟨k1, k2⟩ := hr.2 k hk h
    refine ⟨?_, fun _ => by rw [← val_wit (hp.curv k hk).z, k1]⟩
    rw [tangent, ← c1, ← c2, ← k2, mul_comm, mul_assoc, mul_inv_cancel₀, mul_one]
    rw [c2]
    exact mul_ne_zero two_ne (coords_aff h).y_ne

theorem HQ.safe {c : Ctx N} {p : APt} {P : Pt} (h : HQ c p P) (hs : Safe P) :
    TangentSafe (residue c.wit p.x) (residue c.wit p.y) := by
  rw [h.x, h.y]
  exact hs

/-- The slope known after `curvature` is the tangent. -/
theorem KnownCurv.zero_of {c : Ctx N} {p p' : APt} {P : Pt} {k : ACurv} (h : KnownCurv c p p' k) (hq : HQ c p P) (h0 : P = 0) :
    ∀ k', p'.curv = some k' → residue c.wit k'.v = 0 := by
  intro k' hk'
  rw [h.eq] at hk'
  cases hk'
  cases hc : p.curv with
  | none => exact h.zero hc (by rw [hq.y, (coord_zero h0).2])
  | some k0 =>
    have := h.keep k0 hc
    subst this
    rw [(hq.k k hc).1, (coord_zero h0).1, (coord_zero h0).2]
    simp [tangent]

theorem bisecPoint_curv {k : AV N} {a b r : APt} {c c' : Ctx N} (h : Circuit.bisecPoint k a b c = some (r, c')) : r.curv = none := by
  unfold Circuit.bisecPoint at h
  simp only [bind_run, pure_run] at h
  obtain ⟨_, _, -, _, _, -, _, _, -, rfl, -⟩ := h
  rfl

theorem pAdd_curv {a b : APt} {r : APt × APt} {c c' : Ctx N} (h : Circuit.pAdd a b c = some (r, c')) : r.1.curv = none := by
  unfold Circuit.pAdd at h
  simp only [bind_run, Prod.exists, pure_run] at h
  obtain ⟨_, _, -, _, _, -, _, _, _, _, _, -, _, _, _, -, _, _, -, _, _, _, -, _, _, -, _, _, -, _, _, -, _, _, h10, rfl, -⟩ := h
  exact bisecPoint_curv h10

theorem pDouble_curv {a : APt} {r : APt × APt} {c c' : Ctx N} (h : Circuit.pDouble a c = some (r, c')) : r.1.curv = none := by
  unfold Circuit.pDouble Circuit.lambdaToPoint at h
  simp only [bind_run, Prod.exists, pure_run] at h
  obtain ⟨_, _, _, -, _, _, ⟨_, _, _, -, _, _, -, _, _, -, _, _, -, _, _, _, _, -, _, _, -, rfl, -⟩, _, _, -, rfl, -⟩ := h
  rfl

theorem double_eq_zero {P : Pt} (h : P + P = 0) : P = 0 := by
  by_contra h0
  have ha := coords_aff h0
  refine (ha.double (l := (2 * coordY P)⁻¹ * (3 * coordX P ^ 2)) ha.y_ne ?_).ne_zero h
  rw [mul_comm, mul_inv_cancel_left₀ (mul_ne_zero two_ne ha.y_ne)]

theorem nsmul_zero_of_lt {P : Pt} {k : ℕ} (hk : k < frMod) (h0 : k ≠ 0) (h : k • P = 0) : P = 0 := by
  by_contra hP
  exact mul_ne_of_lt hP hk (Nat.pos_of_ne_zero h0) (by rw [h, zero_nsmul])

/-- `curvature`. -/
theorem CSpec.curvature_q (p : APt) (P : Pt) : CSpec tables (Circuit.curvature p) (fun c => HQ c p P ∧ (p.curv = none → Safe P))
    (fun c r => HCv c r.1 ∧ HQ c r.2 P ∧ r.2.curv = some r.1) := by
  constructor
  rintro ctx hg ⟨hq, hs⟩
  obtain ⟨⟨k, p'⟩, c1, f1, g1, e1, hk, hp, -, -, -, hkn⟩ := (CSpec.curvature p).run ctx hg ⟨hq.hp, fun h => hq.safe (hs h)⟩
  dsimp only at hk hp hkn
  have hq1 := hq.ext e1
  obtain ⟨-, h1⟩ := (Spec.curvature p).run _ _ _ f1 _ g1.sat
  obtain ⟨-, h2, -, h3, h4, h5, h6⟩ := h1 P hq1.rep.1
  dsimp only at h2 h3 h4 h5 h6
  refine ⟨(k, p'), c1, f1, g1, e1, hk, HQ.of hp ⟨h2, h6 hq1.rep.2⟩ fun h0 => ⟨?_, ?_, hkn.zero_of hq1 h0⟩, h5⟩
  · rw [h3, hq1.x, (coord_zero h0).1]
  · rw [h4, hq1.y, (coord_zero h0).2]

/-- `add`. -/
theorem CSpec.pAdd_q (a b : APt) (P Q : Pt) (hn : P + Q = 0 → P = 0) : CSpec tables (Circuit.pAdd a b)
    (fun c => HQ c a P ∧ HQ c b Q ∧ (a.curv = none → Safe P))
    (fun c r => HQ c r.1 (P + Q) ∧ HQ c r.2 P ∧ r.1.curv = none ∧ r.2.curv ≠ none) := by
  constructor
  rintro ctx hg ⟨ha, hb, hs⟩
  obtain ⟨⟨r, a'⟩, c1, f1, g1, e1, h1, h2, k, hk⟩ := (CSpec.pAdd' a b).run ctx hg ⟨ha.hp, hb.hp, fun h => ha.safe (hs h)⟩
  dsimp only at h1 h2 hk
  have ha1 := ha.ext e1
  have hb1 := hb.ext e1
  obtain ⟨-, hsp⟩ := (Spec.pAdd' a b).run _ _ _ f1 _ g1.sat
  obtain ⟨k1, k2, k3, k4, k5, k6⟩ := hsp P Q ha1.rep.1 hb1.rep.1 fun _ => ha1.rep.2
  dsimp only at k1 k2 k3 k4 k5 k6
  have hnone : r.curv = none := pAdd_curv f1
  refine ⟨(r, a'), c1, f1, g1, e1, HQ.of h1 k1 fun h0 => ?_, HQ.of h2 ⟨k2, k3 ha1.rep.2⟩ fun h0 => ⟨?_, ?_, hk.zero_of ha1 h0⟩,
    hnone, by dsimp only; rw [hk.eq]; simp⟩
  · have hP := hn h0
    have hQ : Q = 0 := by rwa [hP, zero_add] at h0
    obtain ⟨i1, i2⟩ := k6 hQ
    refine ⟨?_, ?_, by rw [hnone]; rintro _ ⟨⟩⟩
    · rw [i1, ha1.x, (coord_zero hP).1]
    · rw [i2, ha1.y, (coord_zero hP).2]
  · rw [k4, ha1.x, (coord_zero h0).1]
  · rw [k5, ha1.y, (coord_zero h0).2]

/-- `double`. -/
theorem CSpec.pDouble_q (a : APt) (P : Pt) : CSpec tables (Circuit.pDouble a)
    (fun c => HQ c a P ∧ (a.curv = none → Safe P)) (fun c r => HQ c r.1 (P + P) ∧ r.1.curv = none ∧ HQ c r.2 P) := by
  constructor
  rintro ctx hg ⟨ha, hs⟩
  obtain ⟨⟨r, a'⟩, c1, f1, g1, e1, h1, h2, k, hk⟩ := (CSpec.pDouble' a).run ctx hg ⟨ha.hp, fun h => ha.safe (hs h)⟩
  dsimp only at h1 h2 hk
  have ha1 := ha.ext e1
  obtain ⟨-, hsp⟩ := (Spec.pDouble' a).run _ _ _ f1 _ g1.sat
  obtain ⟨k1, k2, k4, k5, k6⟩ := hsp P ha1.rep
  dsimp only at k1 k2 k4 k5 k6
  have hnone : r.curv = none := pDouble_curv f1
  refine ⟨(r, a'), c1, f1, g1, e1, HQ.of h1 k1 fun h0 => ?_, hnone, HQ.of h2 k2 fun h0 => ⟨?_, ?_, hk.zero_of ha1 h0⟩⟩
  rotate_left
  · rw [k4, ha1.x, (coord_zero h0).1]
  · rw [k5, ha1.y, (coord_zero h0).2]
  have hP : P = 0 := double_eq_zero h0
  obtain ⟨i1, i2⟩ := k6 k hk.eq
  have hz := hk.zero_of ha1 hP k hk.eq
  rw [hz, ha1.x, (coord_zero hP).1] at i1
  rw [hz, ha1.y, (coord_zero hP).2] at i2
  refine ⟨by rw [i1]; ring, by rw [i2]; ring, by rw [hnone]; rintro _ ⟨⟩⟩

theorem bit_val {b : AV N} {c : Ctx N} (h : ValidAV c b) : (b.value = 0 → b.val c.wit = 0) ∧ (b.value = 1 → b.val c.wit = 1) :=
  ⟨fun e => by rw [val_wit h, e], fun e => by rw [val_wit h, e]⟩

/-- `bisec_point_with_curvature`. -/
theorem CSpec.bisecPointCurv_q (k : AV N) (a b : APt) (P Q : Pt) (hk : k.value = 0 ∨ k.value = 1) :
    CSpec tables (Circuit.bisecPointCurv k a b)
      (fun c => ValidAV c k ∧ HQ c a P ∧ HQ c b Q ∧ (a.curv = none → Safe P) ∧ (b.curv = none → Safe Q))
      (fun c r => HQ c r (if k.value = 1 then P else Q) ∧ r.curv ≠ none) := by
  constructor
  rintro ctx hg ⟨h1, h2, h3, n2, n3⟩
  obtain ⟨x, c1, f1, g1, e1, p1⟩ := (CSpec.ibisec k a.x b.x hk).run ctx hg ⟨h1, h2.hp.x, h3.hp.x⟩
  obtain ⟨y, c2, f2, g2, e2, p2⟩ := (CSpec.ibisec k a.y b.y hk).run c1 g1 ⟨h1.ext e1, h2.hp.y.ext e1, h3.hp.y.ext e1⟩
  have e12 := e1.trans e2
  obtain ⟨z, c3, f3, g3, e3, p3, b3⟩ := (CSpec.bisecCond_bit k a.z b.z hk h2.hp.bit h3.hp.bit).run c2 g2
    ⟨h1.ext e12, h2.hp.z.ext e12, h3.hp.z.ext e12⟩
  have e13 := e12.trans e3
  obtain ⟨⟨ka, a'⟩, c4, f4, g4, e4, ka4, qa, ha4⟩ := (CSpec.curvature_q a P).run c3 g3 ⟨h2.ext e13, n2⟩
  have e14 := e13.trans e4
  obtain ⟨⟨kb, b'⟩, c5, f5, g5, e5, kb5, qb, hb5⟩ := (CSpec.curvature_q b Q).run c4 g4 ⟨h3.ext e14, n3⟩
  dsimp only at ka4 qa ha4 kb5 qb hb5
  have e15 := e14.trans e5
  have ka5 := ka4.ext e5
  have qa5 := qa.ext e5
  obtain ⟨cv, c6, f6, g6, e6, p6⟩ := (CSpec.bisecCurv k ka kb hk).run c5 g5 ⟨h1.ext e15, ka5, kb5⟩
  have e46 := e4.trans (e5.trans e6)
  have hHP : HP c6 ⟨x, y, z, some cv⟩ := by
    refine ⟨p1.ext (e2.trans (e3.trans e46)), ?_, p2.ext (e3.trans e46), ?_, p3.ext e46, b3, by rintro _ ⟨⟩; exact p6⟩
    · dsimp only
      rw [ibisec_count f1]
      exact evenCount_max h2.hp.xo h3.hp.xo
    · dsimp only
      rw [ibisec_count f2]
      exact evenCount_max h2.hp.yo h3.hp.yo
  refine ⟨⟨x, y, z, some cv⟩, c6, ?_, g6, e13.trans e46, ?_, by simp⟩
  · unfold Circuit.bisecPointCurv
    rw [bind_some f1, bind_some f2, bind_some f3, bind_some f4]
    dsimp only
    rw [bind_some f5]
    dsimp only
    rw [bind_some f6]
    rfl
  have bx := ((Spec.ibisec_val k a.x b.x).run _ _ _ f1 _ g1.sat).2
  have by' := ((Spec.ibisec_val k a.y b.y).run _ _ _ f2 _ g2.sat).2
  have bz := ((Spec.bisecCond k a.z b.z).run _ _ _ f3 _ g3.sat).2
  have bc := ((Spec.bisecCurv k ka kb).run _ _ _ f6 _ g6.sat).2
  have s2 := (h2.ext e1).hp.shorts.1
  have s3 := (h3.ext e1).hp.shorts.1
  have t2 := (h2.ext e12).hp.shorts.2.1
  have t3 := (h3.ext e12).hp.shorts.2.1
  have u2 := (qa5.ext e6).hp.shorts.2.2 ka ha4
  have u3 := (qb.ext e6).hp.shorts.2.2 kb hb5
  have e26 := e2.trans (e3.trans e46)
  have e36 := e3.trans e46
  have e06 := e13.trans e46
  have hone : (1 : N) ≠ 0 := one_ne_zero
  rcases hk with hk | hk
  · rw [if_neg (by rw [hk]; exact fun h => hone h.symm)]
    have v1 := (bit_val (h1.ext e1)).1 hk
    have v2 := (bit_val (h1.ext e12)).1 hk
    have v3 := (bit_val (h1.ext e13)).1 hk
    have v6 := (bit_val (h1.ext e06)).1 hk
    have j := (bc.2 v6 _ u3.ok u2.2)
    refine ⟨hHP, ?_, ?_, ?_, ?_⟩
    · dsimp only
      rw [← val_wit p3, bz.2 v3, val_wit (h3.hp.z.ext e13), h3.z]
    · dsimp only
      rw [residue_ext p1 e26, (bx.2.1 _ (isBit_false v1) s2.2 s3.ok).val, (h3.ext e1).x]
    · dsimp only
      rw [residue_ext p2 e36, (by'.2.1 _ (isBit_false v2) t2.2 t3.ok).val, (h3.ext e12).y]
    · rintro _ ⟨⟩
      rw [j.1.val]
      refine ⟨((qb.ext e6).k kb hb5).1, fun hn => ?_⟩
      rw [← val_wit p6.z, j.2, val_wit (kb5.ext e6).z]
      exact ((qb.ext e6).k kb hb5).2 hn
  · rw [if_pos hk]
    have v1 := (bit_val (h1.ext e1)).2 hk
    have v2 := (bit_val (h1.ext e12)).2 hk
    have v3 := (bit_val (h1.ext e13)).2 hk
    have v6 := (bit_val (h1.ext e06)).2 hk
    have j := (bc.1 v6 _ u2.ok u3.2)
    refine ⟨hHP, ?_, ?_, ?_, ?_⟩
    · dsimp only
      rw [← val_wit p3, bz.1 v3, val_wit (h2.hp.z.ext e13), h2.z]
    · dsimp only
      rw [residue_ext p1 e26, (bx.1 _ (isBit_true v1) s2.ok s3.2).val, (h2.ext e1).x]
    · dsimp only
      rw [residue_ext p2 e36, (by'.1 _ (isBit_true v2) t2.ok t3.2).val, (h2.ext e12).y]
    · rintro _ ⟨⟩
      rw [j.1.val]
      refine ⟨((qa5.ext e6).k ka ha4).1, fun hn => ?_⟩
      rw [← val_wit p6.z, j.2, val_wit (ka5.ext e6).z]
      exact ((qa5.ext e6).k ka ha4).2 hn

/-- The honest points of a table: `f i`, `f (i + 1)`, ... -/
def TabQ (c : Ctx N) (f : ℕ → Pt) : ℕ → List APt → Prop
  | _, [] => True
  | i, p :: ps => (HQ c p (f i) ∧ (p.curv = none → Safe (f i))) ∧ TabQ c f (i + 1) ps

theorem TabQ.ext {c c' : Ctx N} {f : ℕ → Pt} (he : Ext c c') : ∀ {i : ℕ} {l : List APt}, TabQ c f i l → TabQ c' f i l
  | _, [], _ => trivial
  | _, _ :: _, h => ⟨⟨h.1.1.ext he, h.1.2⟩, TabQ.ext he h.2⟩

theorem CSpec.pickPairs_q (b : AV N) (hb : b.value = 0 ∨ b.value = 1) : ∀ (cs : List APt) (f : ℕ → Pt) (i : ℕ),
    CSpec tables (Circuit.pickPairs b cs) (fun c => ValidAV c b ∧ TabQ c f (2 * i) cs)
      (fun c r => r.length = cs.length / 2 ∧ TabQ c (fun j => f (b.value.val + 2 * j)) i r)
  | [], f, i => (CSpec.pure [] _).mono (fun _ h => h) (by rintro c r ⟨-, rfl⟩; exact ⟨rfl, trivial⟩)
  | [a], f, i => (CSpec.pure [] _).mono (fun _ h => h) (by rintro c r ⟨-, rfl⟩; exact ⟨by simp, trivial⟩)
  | a0 :: a1 :: rest, f, i => by
    constructor
    rintro ctx hg ⟨hv, t0, t1, t2⟩
    obtain ⟨r, c1, f1, g1, e1, q1, k1⟩ := (CSpec.bisecPointCurv_q b a1 a0 _ _ hb).run ctx hg ⟨hv, t1.1, t0.1, t1.2, t0.2⟩
    obtain ⟨rs, c2, f2, g2, e2, l2, q2⟩ := (CSpec.pickPairs_q b hb rest f (i + 1)).run c1 g1 ⟨hv.ext e1, by
      have := TabQ.ext e1 t2
      simpa [mul_add, add_assoc] using this⟩
    refine ⟨r :: rs, c2, ?_, g2, e1.trans e2, by simp only [List.length_cons, l2]; omega, ⟨?_, fun h => absurd h k1⟩, q2⟩
    · unfold Circuit.pickPairs
      rw [bind_some f1, bind_some f2]
      rfl
    · have : Fact (1 < frMod) := ⟨by decide +kernel⟩
      have q1' := q1.ext e2
      rcases hb with hb | hb
      · rw [if_neg (by rw [hb]; exact zero_ne_one)] at q1'
        simpa [hb] using q1'
      · rw [if_pos hb] at q1'
        simpa [hb, ZMod.val_one, add_comm] using q1'

theorem CSpec.pick_q : ∀ (bs : List (AV N)) (cs : List APt) (f : ℕ → Pt) (_ : ∀ b ∈ bs, b.value = 0 ∨ b.value = 1)
    (_ : cs.length = 2 ^ bs.length), CSpec tables (Circuit.pick bs cs)
      (fun c => (∀ b ∈ bs, ValidAV c b) ∧ TabQ c f 0 cs)
      (fun c r => HQ c r (f (hbits bs)) ∧ (r.curv = none → Safe (f (hbits bs))))
  | [], cs, f, _, hl => by
    constructor
    rintro ctx hg ⟨-, ht⟩
    cases cs with
    | nil => simp at hl
    | cons a cs => exact ⟨a, ctx, rfl, hg, Ext.refl _, ht.1⟩
  | b :: bs, cs, f, hb, hl => by
    constructor
    rintro ctx hg ⟨hv, ht⟩
    simp only [List.forall_mem_cons] at hb hv
    obtain ⟨cs', c1, f1, g1, e1, l1, q1⟩ := (CSpec.pickPairs_q b hb.1 cs f 0).run ctx hg ⟨hv.1, ht⟩
    obtain ⟨r, c2, f2, g2, e2, q2⟩ := (CSpec.pick_q bs cs' _ hb.2 (by rw [l1, hl, List.length_cons, pow_succ]; simp)).run c1 g1
      ⟨fun x hx => (hv.2 x hx).ext e1, q1⟩
    refine ⟨r, c2, ?_, g2, e1.trans e2, q2⟩
    unfold Circuit.pick
    rw [bind_some f1, f2]

theorem fifteen_lt : 15 < frMod := by decide +kernel

theorem cancel_succ {P : Pt} {m : ℕ} (h : m < 15) : m • P + P = 0 → m • P = 0 := by
  intro h0
  rw [← succ_nsmul] at h0
  rw [nsmul_zero_of_lt (by have := fifteen_lt; omega) (by omega) h0, nsmul_zero]

theorem CSpec.buildCands_q (a : APt) (P : Pt) : ∀ (n m : ℕ) (last : APt) (_ : m + n ≤ 15) (_ : ∀ k, m < k → k ≤ m + n → Safe (k • P)),
    CSpec tables (Circuit.buildCands a n last) (fun c => HQ c a P ∧ HQ c last (m • P) ∧ (last.curv = none → Safe (m • P)))
      (fun c r => r.length = n + 1 ∧ TabQ c (fun i => i • P) m r)
  | 0, m, last, _, _ => (CSpec.pure [last] _).mono (fun _ h => h) (by rintro c r ⟨h, rfl⟩; exact ⟨rfl, h.2, trivial⟩)
  | n + 1, m, last, hm, hs => by
    constructor
    rintro ctx hg ⟨ha, hl, hls⟩
    obtain ⟨⟨nx, la⟩, c1, f1, g1, e1, q1, q2, -, k2⟩ := (CSpec.pAdd_q last a (m • P) P (cancel_succ (by omega))).run ctx hg ⟨hl, ha, hls⟩
    dsimp only at q1 q2 k2
    rw [← succ_nsmul] at q1
    obtain ⟨rest, c2, f2, g2, e2, l2, t2⟩ := (CSpec.buildCands_q a P n (m + 1) nx (by omega) fun k h1 h2 => hs k (by omega) (by omega)).run
      c1 g1 ⟨ha.ext e1, q1, fun _ => hs _ (by omega) (by omega)⟩
    refine ⟨la :: rest, c2, ?_, g2, e1.trans e2, by simp [l2], ⟨q2.ext e2, fun h => absurd h k2⟩, t2⟩
    unfold Circuit.buildCands
    rw [bind_some f1]
    dsimp only
    rw [bind_some f2]
    rfl

theorem CSpec.buildCandsCurv_q (a : APt) (P : Pt) : ∀ (n m : ℕ) (last : APt) (_ : m + n ≤ 15) (_ : ∀ k, m < k → k ≤ m + n → Safe (k • P)),
    CSpec tables (Circuit.buildCandsCurv a n last) (fun c => HQ c a P ∧ HQ c last (m • P) ∧ (last.curv = none → Safe (m • P)))
      (fun c r => r.length = n + 1 ∧ TabQ c (fun i => i • P) m r)
  | 0, m, last, _, _ => (CSpec.pure [last] _).mono (fun _ h => h) (by rintro c r ⟨h, rfl⟩; exact ⟨rfl, h.2, trivial⟩)
  | n + 1, m, last, hm, hs => by
    constructor
    rintro ctx hg ⟨ha, hl, hls⟩
    obtain ⟨⟨nx, la⟩, c1, f1, g1, e1, q1, q2, -, k2⟩ := (CSpec.pAdd_q last a (m • P) P (cancel_succ (by omega))).run ctx hg ⟨hl, ha, hls⟩
    dsimp only at q1 q2 k2
    rw [← succ_nsmul] at q1
    have hsm := hs (m + 1) (by omega) (by omega)
    obtain ⟨⟨k, nx'⟩, c2, f2, g2, e2, -, q3, -⟩ := (CSpec.curvature_q nx _).run c1 g1 ⟨q1, fun _ => hsm⟩
    dsimp only at q3
    obtain ⟨rest, c3, f3, g3, e3, l3, t3⟩ := (CSpec.buildCandsCurv_q a P n (m + 1) nx' (by omega) fun k h1 h2 => hs k (by omega) (by omega)).run
      c2 g2 ⟨ha.ext (e1.trans e2), q3, fun _ => hsm⟩
    refine ⟨la :: rest, c3, ?_, g3, e1.trans (e2.trans e3), by simp [l3], ⟨q2.ext (e2.trans e3), fun h => absurd h k2⟩, t3⟩
    unfold Circuit.buildCandsCurv
    rw [bind_some f1]
    dsimp only
    rw [bind_some f2]
    dsimp only
    rw [bind_some f3]
    rfl

theorem CSpec.doubles_q : ∀ (n : ℕ) (a : APt) (P : Pt) (_ : ∀ i < n, Safe (2 ^ i • P)), CSpec tables (Circuit.doubles n a)
    (fun c => HQ c a P) (fun c r => HQ c r (2 ^ n • P))
  | 0, a, P, _ => (CSpec.pure a _).mono (fun _ h => h) (by rintro c r ⟨h, rfl⟩; simpa using h)
  | n + 1, a, P, hs => by
    constructor
    intro ctx hg ha
    obtain ⟨⟨p, a'⟩, c1, f1, g1, e1, q1, -⟩ := (CSpec.pDouble_q a P).run ctx hg ⟨ha, fun _ => by simpa using hs 0 (by omega)⟩
    dsimp only at q1
    obtain ⟨r, c2, f2, g2, e2, q2⟩ := (CSpec.doubles_q n p (P + P) fun i hi => by
      have := hs (i + 1) (by omega)
      rwa [pow_succ, mul_nsmul', two_nsmul] at this).run c1 g1 q1
    rw [← two_nsmul, ← mul_nsmul', ← pow_succ] at q2
    refine ⟨r, c2, ?_, g2, e1.trans e2, q2⟩
    unfold Circuit.doubles
    rw [bind_some f1]
    exact f2

theorem le_hbe (w : ℕ) : ∀ (ws : List (List (AV N))) (m : ℕ), m ≤ hbe w m ws
  | [], m => le_rfl
  | b :: ws, m => le_trans (le_trans (Nat.le_mul_of_pos_left m (by positivity)) (Nat.le_add_left _ _)) (le_hbe w ws (hbits b + 2 ^ w * m))

theorem CSpec.mulLoop_q (cs : List APt) (P : Pt) (hl : cs.length = 16) : ∀ (ws : List (List (AV N))) (acc : APt) (m : ℕ)
    (_ : ∀ l1 l2, ws = l1 ++ l2 → l2 ≠ [] → ∀ i < 4, Safe ((2 ^ i * hbe 4 m l1) • P)) (_ : hbe 4 m ws < frMod),
    CSpec tables (Circuit.mulLoop cs ws acc) (fun c => TabQ c (fun i => i • P) 0 cs ∧ HWin c 4 ws ∧ HQ c acc (m • P))
      (fun c r => HQ c r (hbe 4 m ws • P))
  | [], acc, m, _, _ => (CSpec.pure acc _).mono (fun _ h => h) (by rintro c r ⟨h, rfl⟩; exact h.2.2)
  | bits :: ws, acc, m, hs, hm => by
    constructor
    rintro ctx hg ⟨ht, hw, ha⟩
    have hw0 := hw bits (by simp)
    obtain ⟨acc1, c1, f1, g1, e1, q1⟩ := (CSpec.doubles_q 4 acc (m • P) fun i hi => by
      rw [← mul_nsmul']
      exact hs [] (bits :: ws) rfl (by simp) i hi).run ctx hg ha
    obtain ⟨cur, c2, f2, g2, e2, q2, k2⟩ := (CSpec.pick_q bits cs (fun i => i • P) (fun b hb => (hw0.2 b hb).2) (by rw [hl, hw0.1]; norm_num)).run c1 g1
      ⟨fun b hb => (hw0.2 b hb).1.ext e1, TabQ.ext e1 ht⟩
    have e12 := e1.trans e2
    obtain ⟨⟨p, cur'⟩, c3, f3, g3, e3, q3, -⟩ := (CSpec.pAdd_q cur acc1 (hbits bits • P) (2 ^ 4 • m • P) (by
      rw [← mul_nsmul', ← add_nsmul]
      intro h0
      by_cases hz : hbits bits + 2 ^ 4 * m = 0
      · have : hbits bits = 0 := by omega
        rw [this, zero_nsmul]
      · rw [nsmul_zero_of_lt (lt_of_le_of_lt (le_hbe 4 ws _) hm) hz h0, nsmul_zero])).run c2 g2 ⟨q2, q1.ext e2, k2⟩
    dsimp only at q3
    rw [← mul_nsmul', ← add_nsmul] at q3
    have e13 := e12.trans e3
    obtain ⟨r, c4, f4, g4, e4, q4⟩ := (CSpec.mulLoop_q cs P hl ws p (hbits bits + 2 ^ 4 * m) (fun l1 l2 h1 h2 => by
      have := hs (bits :: l1) l2 (by rw [h1]; rfl) h2
      exact this) hm).run c3 g3 ⟨TabQ.ext e13 ht, HWin.ext (fun b hb => hw b (by simp [hb])) e13, q3⟩
    refine ⟨r, c4, ?_, g4, e13.trans e4, q4⟩
    unfold Circuit.mulLoop
    rw [bind_some f1, bind_some f2, bind_some f3]
    exact f4

theorem CSpec.assignIdentity_q : CSpec tables Circuit.assignIdentity (fun _ => True) (fun c r => HQ c r 0 ∧ r.curv ≠ none) := by
  constructor
  rintro ctx hg -
  obtain ⟨z, c1, f1, g1, e1, h1, o1⟩ := (CSpec.iassignConstant_hv 0).run ctx hg trivial
  obtain ⟨o, c2, f2, g2, e2, h2, v2⟩ := (CSpec.assignConstant (t := tables) (1 : N)).run c1 g1 trivial
  have h1' := h1.ext e2
  refine ⟨⟨z, z, o, some ⟨z, o⟩⟩, c2, ?_, g2, e1.trans e2, ⟨⟨h1'.h, by rw [o1]; exact evenCount_zero, h1'.h,
    by rw [o1]; exact evenCount_zero, h2, .inr v2, ?_⟩, v2, h1'.val, h1'.val, ?_⟩, by simp⟩
  · unfold Circuit.assignIdentity
    rw [bind_some f1, bind_some f2]
    rfl
  · rintro k ⟨⟩
    exact ⟨h1'.h, h1'.lt, h2, .inr v2⟩
  · rintro k ⟨⟩
    exact ⟨by rw [h1'.val]; simp [tangent, coordX, coordY], fun h => absurd rfl h⟩

/-- The slopes needed by `mul` can be computed: those of the multiples of the table, and those of the results that are
doubled. -/
structure MulSafe (P : Pt) (n : ℕ) : Prop where
  table : ∀ k, 1 ≤ k → k ≤ 15 → Safe (k • P)
  prefixes : ∀ j, 1 ≤ j → ∀ i < 4, Safe ((2 ^ i * (n / 16 ^ j)) • P)

/-- `mul`. -/
theorem CSpec.pMul_q (a : APt) (s : AV N) (P : Pt) (hs : MulSafe P s.value.val) : CSpec tables (Circuit.pMul a s)
    (fun c => HQ c a P ∧ ValidAV c s) (fun c r => HQ c r (s.value.val • P)) := by
  constructor
  rintro ctx hg ⟨ha, hv⟩
  obtain ⟨ws, c1, f1, g1, e1, l1, p1, d1⟩ := (CSpec.decomposeScalar 4 (by norm_num) (by norm_num) s).run ctx hg hv
  obtain ⟨id, c2, f2, g2, e2, q2, k2⟩ := CSpec.assignIdentity_q.run c1 g1 trivial
  have e12 := e1.trans e2
  obtain ⟨rest, c3, f3, g3, e3, l3, t3⟩ := (CSpec.buildCands_q a P 14 1 a (by norm_num) fun k h1 h2 => hs.table k (by omega) (by omega)).run c2 g2
    ⟨ha.ext e12, by rw [one_nsmul]; exact ha.ext e12, fun _ => hs.table 1 le_rfl (by norm_num)⟩
  have ht : TabQ c3 (fun i => i • P) 0 (id :: rest) := by
    refine ⟨⟨?_, fun h => absurd h k2⟩, t3⟩
    have := q2.ext e3
    simpa using this
  have hl : (id :: rest).length = 16 := by rw [List.length_cons, l3]
  have htake := fun n => HDig.take (n := n) d1
  cases ws with
  | nil => simp at l1
  | cons first pend =>
    have hlen : pend.length = 63 := by simpa using l1
    have hw := p1.ext (e2.trans e3)
    have hw0 := hw first (by simp)
    obtain ⟨acc, c4, f4, g4, e4, q4, -⟩ := (CSpec.pick_q first (id :: rest) (fun i => i • P) (fun b hb => (hw0.2 b hb).2)
      (by rw [hl, hw0.1]; norm_num)).run c3 g3 ⟨fun b hb => (hw0.2 b hb).1, ht⟩
    have hall : hbe 4 (hbits first) pend = s.value.val := by
      have := htake 64
      rw [List.take_of_length_le (by simp [hlen])] at this
      simpa [hbe, hlen] using this
    obtain ⟨r, c5, f5, g5, e5, q5⟩ := (CSpec.mulLoop_q (id :: rest) P hl pend acc (hbits first) (fun la lb h1 h2 i hi => by
      have hx := htake (la.length + 1)
      rw [List.take_succ_cons, h1, List.take_left, ← h1] at hx
      simp only [hbe, mul_zero, add_zero, List.length_cons, hlen] at hx
      rw [hx]
      have hlt : la.length < 63 := by
        have : pend.length = la.length + lb.length := by rw [h1, List.length_append]
        have : lb.length ≠ 0 := fun h => h2 (List.length_eq_zero_iff.1 h)
        omega
      have := hs.prefixes (63 - la.length) (by omega) i hi
      rw [show (16 : ℕ) = 2 ^ 4 from rfl, ← pow_mul] at this
      rwa [show 63 + 1 - (la.length + 1) = 63 - la.length by omega]) (by rw [hall]; exact ZMod.val_lt _)).run c4 g4
      ⟨TabQ.ext e4 ht, HWin.ext (fun b hb => hw b (by simp [hb])) e4, q4⟩
    rw [hall] at q5
    refine ⟨r, c5, ?_, g5, e12.trans (e3.trans (e4.trans e5)), q5⟩
    unfold Circuit.pMul
    rw [bind_some f1, bind_some f2, bind_some f3]
    dsimp only
    rw [bind_some f4, f5]

end Verif.Circuit
