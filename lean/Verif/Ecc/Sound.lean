import Verif.Ecc.Spec
import Verif.Ecc.Values

/-!
# Soundness lemmas for the ECC chip (helper lemmas)
-/

namespace Verif.Circuit

open Verif.Ecc

theorem IntGood.ok {adv : Advice N} {a : AInt} (h : IntGood adv a) : IntSome adv a := ⟨h.1, h.2, rfl⟩

theorem IntOk.good {adv : Advice N} {a : AInt} {v : W} (h : IntOk adv a v) : IntGood adv a := ⟨h.1, h.2.1⟩

theorem Spec.bisecCond {t : Tables} (c a b : AV N) : Spec t (bisecCond c a b) (fun adv r =>
    (c.val adv = 1 → r.val adv = a.val adv) ∧ (c.val adv = 0 → r.val adv = b.val adv)) :=
  (Spec.bisec c a b).mono fun adv r h => by
    rw [h]
    exact ⟨fun e => by rw [e]; ring, fun e => by rw [e]; ring⟩

theorem Spec.and {t : Tables} (a b : AV N) : Spec t (and a b) (fun adv r => r.val adv = a.val adv * b.val adv) :=
  Spec.mul a b

/-- `curvature`: the point stays what it is, and the slope is right if the cached one was. -/
theorem Spec.curvature (a : APt) : Spec tables (curvature a) (fun adv r => ∀ P, StandsFor adv a P →
    IntGood adv r.1.v ∧ StandsFor adv r.2 P ∧ r.2.z = a.z ∧
      residue adv r.2.x = residue adv a.x ∧ residue adv r.2.y = residue adv a.y ∧ r.2.curv = some r.1 ∧
      (TangentOk adv a P → TangentOk adv r.2 P)) := by
  constructor
  intro ctx r ctx' h adv hs
  unfold Circuit.curvature at h
  cases hc : a.curv with
  | some c =>
    rw [hc] at h
    simp only [pure_run] at h
    obtain ⟨rfl, rfl⟩ := h
    exact ⟨hs, fun P hP => ⟨hP.curv c hc, hP, rfl, rfl, rfl, hc, id⟩⟩
  | none =>
    rw [hc] at h
    simp only [bind_run, Prod.exists, pure_run] at h
    obtain ⟨x2, x, c1, h1, num, num', c2, h2, den, y, c3, h3, z, v, n', d', c4, h4, rfl, rfl⟩ := h
    obtain ⟨s3, p4⟩ := (Spec.idiv _ _).run _ _ _ h4 adv hs
    obtain ⟨s2, p3⟩ := (Spec.imulSmallConstant _ _).run _ _ _ h3 adv s3
    obtain ⟨s1, p2⟩ := (Spec.imulSmallConstant _ _).run _ _ _ h2 adv s2
    obtain ⟨s0, p1⟩ := (Spec.isquare_val _).run _ _ _ h1 adv s1
    dsimp only at p1 p2 p3 p4
    refine ⟨s0, fun P hP => ?_⟩
    obtain ⟨⟨q1, q1o⟩, q1'⟩ := p1 _ hP.x.ok
    have b1 : Bd 1 adv x2.limbs := by have := q1.1.bound; rwa [q1o] at this
    obtain ⟨q2, q2n, -, q2b, -⟩ := p2 1 (by norm_num) (by norm_num) (by norm_num) b1 q1.1.native
    have by' := hP.y.1.bound.mono (k' := 32) (by have := hP.y.2; omega)
    obtain ⟨q3, q3n, q3r, q3b, q3c⟩ := p3 32 (by norm_num) (by norm_num) (by norm_num) by' hP.y.1.native
    have bn1 : Bd 3 adv num.limbs := q2b.elim (fun h => h.2.2) (fun h => h.2.mono (by norm_num))
    have bd1 : Bd 64 adv den.limbs := q3b.elim (fun h => h.2.2) (fun h => h.2.mono (by norm_num))
    obtain ⟨r1, r2, r3, r4, r5, r6, r7⟩ := p4 3 64 (by norm_num) (by norm_num) le_rfl bn1 bd1 q2n q3n
    have hy : residue adv y = residue adv a.y := residue_eq_iff.2 q3r.1
    have oky : IntGood adv y := by
      rcases q3c with e | ⟨e1, e2⟩
      · rw [e]; exact hP.y
      · exact (IntOk.of_bd1 e1 e2 q3r.2 rfl).good
    have okv : IntGood adv v := (IntOk.of_bd1 r3.1 r3.2.1 r3.2.2 rfl).good
    refine ⟨okv, ⟨q1'.good, oky, hP.ident, ?_, ?_⟩, rfl, q1'.val, hy, rfl, fun _ => ?_⟩
    · intro hne
      refine ⟨(hP.affine hne).1, ?_⟩
      rw [q1'.val, hy]
      exact (hP.affine hne).2
    · rintro c ⟨⟩
      exact okv
    · rintro c ⟨⟩ hne
      have ha := (hP.affine hne).2
      have hd : ((limbsVal adv d'.limbs : ℕ) : W) = 2 * residue adv a.y := by
        have e1 : residue adv d' = residue adv den := residue_eq_iff.2 r5.1
        have e2 := modEq_cast q3
        rw [Nat.cast_mul] at e2
        exact e1.trans e2
      have hz : ¬ ZeroRep adv d'.limbs := by
        intro hz
        have := modEq_cast (zeroRep_modEq hz)
        rw [hd, Nat.cast_zero] at this
        rcases mul_eq_zero.1 this with h | h
        · exact two_ne h
        · exact ha.y_ne h
      rw [if_neg hz] at r1 r2
      refine ⟨r1, ?_⟩
      have e3 := modEq_cast r2
      have e4 := modEq_cast q2
      rw [Nat.cast_mul] at e3 e4
      rw [hd, e4] at e3
      simp only [hy, q1'.val]
      rw [mul_comm]
      refine e3.trans ?_
      rw [show ((limbsVal adv x2.limbs : ℕ) : W) = residue adv a.x ^ 2 from q1.val]
      rfl

theorem Spec.lambdaToPoint (l : ACurv) (a b : APt) : Spec tables (lambdaToPoint l a b) (fun adv r =>
    ∀ s x y x', IntOk adv l.v s → IntOk adv a.x x → IntOk adv a.y y → IntOk adv b.x x' →
      IntOk adv r.x (s ^ 2 - x - x') ∧ IntOk adv r.y (s * (x - (s ^ 2 - x - x')) - y) ∧ r.z = l.z ∧
        r.curv = none) := by
  constructor
  intro ctx r ctx' h adv hs
  unfold Circuit.lambdaToPoint at h
  simp only [bind_run, Prod.exists, pure_run] at h
  obtain ⟨l2, l', c1, h1, t1, c2, h2, cx, c3, h3, t2, c4, h4, t3, _, _, c5, h5, cy, c6, h6, rfl, rfl⟩ := h
  obtain ⟨s5, p6⟩ := (Spec.isub_val _ _).run _ _ _ h6 adv hs
  obtain ⟨s4, p5⟩ := (Spec.imul_val _ _).run _ _ _ h5 adv s5
  obtain ⟨s3, p4⟩ := (Spec.isub_val _ _).run _ _ _ h4 adv s4
  obtain ⟨s2, p3⟩ := (Spec.isub_val _ _).run _ _ _ h3 adv s3
  obtain ⟨s1, p2⟩ := (Spec.isub_val _ _).run _ _ _ h2 adv s2
  obtain ⟨s0, p1⟩ := (Spec.isquare_val _).run _ _ _ h1 adv s1
  refine ⟨s0, fun s x y x' hl hx hy hx' => ?_⟩
  obtain ⟨⟨q1, -⟩, q1'⟩ := p1 _ hl
  have q3 := p3 _ _ (p2 _ _ q1 hx) hx'
  have q5 := p5 _ _ (p4 _ _ hx q3) q1'
  exact ⟨q3, (p6 _ _ q5.1 hy).eq (by ring), rfl, rfl⟩

/-- Nothing but the counters of an unselected point matter. -/
def Short (p : APt) : Prop := p.x.overflows < 32 ∧ p.y.overflows < 32

theorem StandsFor.short {adv : Advice N} {p : APt} {P : Pt} (h : StandsFor adv p P) : Short p := ⟨h.x.2, h.y.2⟩

/-- The part of `StandsFor` that survives forgetting the curvature. -/
theorem StandsFor.of_vals {adv : Advice N} {p r : APt} {P : Pt} (h : StandsFor adv p P)
    (hx : IntOk adv r.x (residue adv p.x)) (hy : IntOk adv r.y (residue adv p.y)) (hz : r.z.val adv = p.z.val adv)
    (hc : ∀ c, r.curv = some c → IntGood adv c.v) : StandsFor adv r P :=
  ⟨hx.good, hy.good, fun e => by rw [hz, h.ident e],
    fun e => ⟨by rw [hz, (h.affine e).1], by rw [hx.val, hy.val]; exact (h.affine e).2⟩, hc⟩

theorem isBit_true {adv : Advice N} {c : AV N} (h : c.val adv = 1) : IsBit adv c true := by simpa [IsBit] using h
theorem isBit_false {adv : Advice N} {c : AV N} (h : c.val adv = 0) : IsBit adv c false := by simpa [IsBit] using h

theorem Spec.bisecPoint (c : AV N) (a b : APt) : Spec tables (bisecPoint c a b) (fun adv r =>
    (c.val adv = 1 → ∀ P, StandsFor adv a P → Short b → StandsFor adv r P) ∧
    (c.val adv = 0 → ∀ P, StandsFor adv b P → Short a → StandsFor adv r P) ∧ r.curv = none ∧
    (Short a → Short b → Short r)) := by
  constructor
  intro ctx r ctx' h adv hs
  unfold Circuit.bisecPoint at h
  simp only [bind_run, pure_run] at h
  obtain ⟨x, c1, h1, y, c2, h2, z, c3, h3, rfl, rfl⟩ := h
  obtain ⟨s2, p3⟩ := (Spec.bisecCond _ _ _).run _ _ _ h3 adv hs
  obtain ⟨s1, p2⟩ := (Spec.ibisec_val _ _ _).run _ _ _ h2 adv s2
  obtain ⟨s0, p1⟩ := (Spec.ibisec_val _ _ _).run _ _ _ h1 adv s1
  refine ⟨s0, fun hc P hP hb => ?_, fun hc P hP hb => ?_, rfl,
    fun ha hb => ⟨p1.2.2 ha.1 hb.1, p2.2.2 ha.2 hb.2⟩⟩
  · exact hP.of_vals (p1.1 _ (isBit_true hc) hP.x.ok hb.1) (p2.1 _ (isBit_true hc) hP.y.ok hb.2) (p3.1 hc)
      (by rintro c ⟨⟩)
  · exact hP.of_vals (p1.2.1 _ (isBit_false hc) hb.1 hP.x.ok) (p2.2.1 _ (isBit_false hc) hb.2 hP.y.ok) (p3.2 hc)
      (by rintro c ⟨⟩)

theorem Spec.bisecPoint_left (c : AV N) (a b : APt) : Spec tables (Circuit.bisecPoint c a b) (fun adv r =>
    c.val adv = 1 → IntGood adv a.x → IntGood adv a.y → Short b →
      residue adv r.x = residue adv a.x ∧ residue adv r.y = residue adv a.y) := by
  constructor
  intro ctx r ctx' h adv hs
  unfold Circuit.bisecPoint at h
  simp only [bind_run, pure_run] at h
  obtain ⟨x, c1, h1, y, c2, h2, z, c3, h3, rfl, rfl⟩ := h
  obtain ⟨s2, -⟩ := (Spec.bisecCond _ _ _).run _ _ _ h3 adv hs
  obtain ⟨s1, p2⟩ := (Spec.ibisec_val _ _ _).run _ _ _ h2 adv s2
  obtain ⟨s0, p1⟩ := (Spec.ibisec_val _ _ _).run _ _ _ h1 adv s1
  exact ⟨s0, fun hc hx hy hb => ⟨(p1.1 _ (isBit_true hc) hx.ok hb.1).val, (p2.1 _ (isBit_true hc) hy.ok hb.2).val⟩⟩

theorem Spec.bisecCurv (c : AV N) (a b : ACurv) : Spec tables (bisecCurv c a b) (fun adv r =>
    (c.val adv = 1 → ∀ s, IntOk adv a.v s → b.v.overflows < 32 → IntOk adv r.v s ∧ r.z.val adv = a.z.val adv) ∧
    (c.val adv = 0 → ∀ s, IntOk adv b.v s → a.v.overflows < 32 → IntOk adv r.v s ∧ r.z.val adv = b.z.val adv)) := by
  constructor
  intro ctx r ctx' h adv hs
  unfold Circuit.bisecCurv at h
  simp only [bind_run, pure_run] at h
  obtain ⟨v, c1, h1, z, c2, h2, rfl, rfl⟩ := h
  obtain ⟨s1, p2⟩ := (Spec.bisecCond _ _ _).run _ _ _ h2 adv hs
  obtain ⟨s0, p1⟩ := (Spec.ibisec_val _ _ _).run _ _ _ h1 adv s1
  exact ⟨s0, fun hc s hP hb => ⟨p1.1 _ (isBit_true hc) hP hb, p2.1 hc⟩,
    fun hc s hP hb => ⟨p1.2.1 _ (isBit_false hc) hb hP, p2.2 hc⟩⟩

theorem Spec.bisecPointCurv (c : AV N) (a b : APt) : Spec tables (bisecPointCurv c a b) (fun adv r =>
    ∀ P Q, StandsFor adv a P → StandsFor adv b Q →
    (c.val adv = 1 → StandsFor adv r P ∧ (TangentOk adv a P → TangentOk adv r P)) ∧
    (c.val adv = 0 → StandsFor adv r Q ∧ (TangentOk adv b Q → TangentOk adv r Q))) := by
  constructor
  intro ctx r ctx' h adv hs
  unfold Circuit.bisecPointCurv at h
  simp only [bind_run, Prod.exists, pure_run] at h
  obtain ⟨x, c1, h1, y, c2, h2, z, c3, h3, ca, a', c4, h4, cb, b', c5, h5, cc, c6, h6, rfl, rfl⟩ := h
  obtain ⟨s5, p6⟩ := (Spec.bisecCurv _ _ _).run _ _ _ h6 adv hs
  obtain ⟨s4, p5⟩ := (Spec.curvature _).run _ _ _ h5 adv s5
  obtain ⟨s3, p4⟩ := (Spec.curvature _).run _ _ _ h4 adv s4
  obtain ⟨s2, p3⟩ := (Spec.bisecCond _ _ _).run _ _ _ h3 adv s3
  obtain ⟨s1, p2⟩ := (Spec.ibisec_val _ _ _).run _ _ _ h2 adv s2
  obtain ⟨s0, p1⟩ := (Spec.ibisec_val _ _ _).run _ _ _ h1 adv s1
  refine ⟨s0, fun P Q hP hQ => ?_⟩
  obtain ⟨va, sa, -, xa, ya, ea, ta⟩ := p4 P hP
  obtain ⟨vb, sb, -, xb, yb, eb, tb⟩ := p5 Q hQ
  dsimp only at *
  refine ⟨fun hc => ?_, fun hc => ?_⟩
  · obtain ⟨i1, i2⟩ := p6.1 hc _ va.ok vb.2
    have j1 := p1.1 _ (isBit_true hc) hP.x.ok hQ.x.2
    have j2 := p2.1 _ (isBit_true hc) hP.y.ok hQ.y.2
    refine ⟨hP.of_vals j1 j2 (p3.1 hc) (by rintro _ ⟨⟩; exact i1.good), fun ht => ?_⟩
    rintro _ ⟨⟩ hne
    have := ta ht _ ea hne
    rw [i1.val, i2, j1.val, j2.val]
    rwa [xa, ya] at this
  · obtain ⟨i1, i2⟩ := p6.2 hc _ vb.ok va.2
    have j1 := p1.2.1 _ (isBit_false hc) hP.x.2 hQ.x.ok
    have j2 := p2.2.1 _ (isBit_false hc) hP.y.2 hQ.y.ok
    refine ⟨hQ.of_vals j1 j2 (p3.2 hc) (by rintro _ ⟨⟩; exact i1.good), fun ht => ?_⟩
    rintro _ ⟨⟩ hne
    have := tb ht _ eb hne
    rw [i1.val, i2, j1.val, j2.val]
    rwa [xb, yb] at this

theorem tangentOk_none {adv : Advice N} {p : APt} {P : Pt} (h : p.curv = none) : TangentOk adv p P := by
  intro c hc
  rw [h] at hc
  cases hc

/-- `add`: the group law, provided the curvature of the first point is right when the points are equal. -/
theorem Spec.pAdd' (a b : APt) : Spec tables (pAdd a b) (fun adv r => ∀ P Q, StandsFor adv a P →
    StandsFor adv b Q → (P = Q → TangentOk adv a P) →
      Represents adv r.1 (P + Q) ∧ StandsFor adv r.2 P ∧ (TangentOk adv a P → TangentOk adv r.2 P) ∧
      residue adv r.2.x = residue adv a.x ∧ residue adv r.2.y = residue adv a.y ∧
      (Q = 0 → residue adv r.1.x = residue adv a.x ∧ residue adv r.1.y = residue adv a.y)) := by
  constructor
  intro ctx r ctx' h adv hs
  unfold Circuit.pAdd at h
  simp only [bind_run, Prod.exists, pure_run] at h
  obtain ⟨dx, c1, h1, dy, c2, h2, xe, tg, dy', dx', c3, h3, ye, dy2, c4, h4, eq, c5, h5, cv, a', c6, h6, lam, c7,
    h7, p, c8, h8, p1, c9, h9, p2, c10, h10, rfl, rfl⟩ := h
  obtain ⟨s9, k10⟩ := (Spec.bisecPoint _ _ _).run _ _ _ h10 adv hs
  obtain ⟨-, l10⟩ := (Spec.bisecPoint_left _ _ _).run _ _ _ h10 adv hs
  obtain ⟨s8, k9⟩ := (Spec.bisecPoint _ _ _).run _ _ _ h9 adv s9
  obtain ⟨s7, k8⟩ := (Spec.lambdaToPoint _ _ _).run _ _ _ h8 adv s8
  obtain ⟨s6, k7⟩ := (Spec.bisecCurv _ _ _).run _ _ _ h7 adv s7
  obtain ⟨s5, k6⟩ := (Spec.curvature _).run _ _ _ h6 adv s6
  obtain ⟨s4, k5⟩ := (Spec.and _ _).run _ _ _ h5 adv s5
  obtain ⟨s3, k4⟩ := (Spec.iisZero_val _).run _ _ _ h4 adv s4
  obtain ⟨s2, k3⟩ := (Spec.idiv_val _ _).run _ _ _ h3 adv s3
  obtain ⟨s1, k2⟩ := (Spec.isub_val _ _).run _ _ _ h2 adv s2
  obtain ⟨s0, k1⟩ := (Spec.isub_val _ _).run _ _ _ h1 adv s1
  refine ⟨s0, fun P Q hP hQ hT => ?_⟩
  dsimp only at *
  have d1 := k1 _ _ hP.x.ok hQ.x.ok
  have d2 := k2 _ _ hP.y.ok hQ.y.ok
  obtain ⟨e1, e2, e3, e4, -⟩ := k3 _ _ d2 d1
  obtain ⟨f1, -⟩ := k4 _ e4
  obtain ⟨va, sa, za, xa, ya, ea, ta⟩ := k6 P hP
  refine (?_ : StandsFor adv p2 (P + Q) ∧ (Q = 0 → residue adv p2.x = residue adv a.x ∧ residue adv p2.y = residue adv a.y)).elim
    fun h1 h2 => ⟨⟨h1, tangentOk_none k10.2.2.1⟩, sa, ta, xa, ya, h2⟩
  -- the slope is always an honest integer
  have heq : eq.val adv = if residue adv a.x - residue adv b.x = 0 ∧ residue adv a.y - residue adv b.y = 0
      then 1 else 0 := by
    rw [k5]
    unfold IsBit at e1 f1
    rw [e1, f1]
    by_cases i1 : residue adv a.x - residue adv b.x = 0 <;>
      by_cases i2 : residue adv a.y - residue adv b.y = 0 <;> simp [i1, i2]
  have hlam : IntGood adv lam.v := by
    by_cases hc : residue adv a.x - residue adv b.x = 0 ∧ residue adv a.y - residue adv b.y = 0
    · rw [if_pos hc] at heq
      exact (k7.1 heq _ va.ok e3.2.1).1.good
    · rw [if_neg hc] at heq
      exact (k7.2 heq _ e3 va.2).1.good
  obtain ⟨g1, g2, g3, g4⟩ := k8 _ _ _ _ hlam.ok sa.x.ok sa.y.ok hQ.x.ok
  rw [xa] at g1
  rw [xa, ya] at g2
  have shp : Short p := ⟨g1.2.1, g2.2.1⟩
  by_cases hQ0 : Q = 0
  · subst hQ0
    rw [add_zero]
    have hsh := k9.2.2.2 hQ.short shp
    refine ⟨k10.1 (hQ.ident rfl) P sa hsh, fun _ => ?_⟩
    rw [← xa, ← ya]
    exact l10 (hQ.ident rfl) sa.x sa.y hsh
  · obtain ⟨zQ, aQ⟩ := hQ.affine hQ0
    refine ⟨k10.2.1 zQ _ ?_ sa.short, fun h => absurd h hQ0⟩
    by_cases hP0 : P = 0
    · subst hP0
      rw [zero_add]
      exact k9.1 (sa.ident rfl) Q hQ shp
    · obtain ⟨zP, aP⟩ := hP.affine hP0
      refine k9.2.1 (by rw [za, zP]) _ ?_ hQ.short
      have hcurv : ∀ c, p.curv = some c → IntGood adv c.v := by rw [g4]; rintro c ⟨⟩
      by_cases hx : residue adv a.x = residue adv b.x
      · rcases aP.y_eq (hx ▸ aQ) with hy | hy
        · -- doubling
          have hPQ : P = Q := aP.ext (aQ.congr hx.symm hy.symm)
          subst hPQ
          rw [if_pos ⟨sub_eq_zero.2 hx, sub_eq_zero.2 hy⟩] at heq
          obtain ⟨l1, l2⟩ := k7.1 heq _ va.ok e3.2.1
          obtain ⟨t1, t2⟩ := ta (hT rfl) cv ea hP0
          rw [xa, ya] at t2
          have hd := aP.double aP.y_ne t2
          have e := hd.ne_zero
          rw [← hx, l1.val] at g1 g2
          exact ⟨g1.good, g2.good, fun h => absurd h e, fun _ => ⟨by rw [g3, l2, t1], by rw [g1.val, g2.val]; exact hd⟩,
            hcurv⟩
        · -- opposite points
          have hz : P + Q = 0 := aP.add_neg (hx ▸ aQ) hy
          have hne : ¬ (residue adv a.x - residue adv b.x = 0 ∧ residue adv a.y - residue adv b.y = 0) := by
            rintro ⟨-, h2⟩
            refine (mul_ne_zero two_ne aP.y_ne) ?_
            linear_combination hy + h2
          rw [if_neg hne] at heq
          obtain ⟨l1, l2⟩ := k7.2 heq _ e3 va.2
          unfold IsBit at e1
          rw [sub_eq_zero.2 hx] at e1
          exact ⟨g1.good, g2.good, fun _ => by rw [g3, l2, e1]; simp, fun h => absurd hz h, hcurv⟩
      · rw [if_neg (fun h => hx (sub_eq_zero.1 h.1))] at heq
        obtain ⟨l1, l2⟩ := k7.2 heq _ e3 va.2
        have hs := e2 (fun h => hx (sub_eq_zero.1 h))
        have hd := aP.add aQ hx hs
        have e := hd.ne_zero
        unfold IsBit at e1
        rw [decide_eq_false (fun h => hx (sub_eq_zero.1 h))] at e1
        rw [l1.val] at g1 g2
        exact ⟨g1.good, g2.good, fun h => absurd h e, fun _ => ⟨by rw [g3, l2, e1]; rfl, by rw [g1.val, g2.val]; exact hd⟩,
          hcurv⟩

theorem Spec.pAdd (a b : APt) : Spec tables (Circuit.pAdd a b) (fun adv r => ∀ P Q, StandsFor adv a P →
    StandsFor adv b Q → (P = Q → TangentOk adv a P) →
      Represents adv r.1 (P + Q) ∧ StandsFor adv r.2 P ∧ (TangentOk adv a P → TangentOk adv r.2 P)) :=
  (Spec.pAdd' a b).mono fun _ _ h P Q h1 h2 h3 => ⟨(h P Q h1 h2 h3).1, (h P Q h1 h2 h3).2.1, (h P Q h1 h2 h3).2.2.1⟩

/-- `double`. -/
theorem Spec.pDouble' (a : APt) : Spec tables (pDouble a) (fun adv r => ∀ P, Represents adv a P →
    Represents adv r.1 (P + P) ∧ Represents adv r.2 P ∧
    residue adv r.2.x = residue adv a.x ∧ residue adv r.2.y = residue adv a.y ∧
    ∀ k, r.2.curv = some k → residue adv r.1.x = residue adv k.v ^ 2 - residue adv a.x - residue adv a.x ∧
      residue adv r.1.y = residue adv k.v * (residue adv a.x - residue adv r.1.x) - residue adv a.y) := by
  constructor
  intro ctx r ctx' h adv hs
  unfold Circuit.pDouble at h
  simp only [bind_run, Prod.exists, pure_run] at h
  obtain ⟨cv, a', c1, h1, p, c2, h2, z, c3, h3, rfl, rfl⟩ := h
  obtain ⟨s2, k3⟩ := (Spec.bisecCond _ _ _).run _ _ _ h3 adv hs
  obtain ⟨s1, k2⟩ := (Spec.lambdaToPoint _ _ _).run _ _ _ h2 adv s2
  obtain ⟨s0, k1⟩ := (Spec.curvature _).run _ _ _ h1 adv s1
  refine ⟨s0, fun P hP => ?_⟩
  dsimp only at *
  obtain ⟨va, sa, za, xa, ya, ea, ta⟩ := k1 P hP.1
  obtain ⟨g1, g2, g3, g4⟩ := k2 _ _ _ _ va.ok sa.x.ok sa.y.ok sa.x.ok
  refine ⟨⟨?_, tangentOk_none g4⟩, ⟨sa, ta hP.2⟩, xa, ya, fun k hk => ?_⟩
  swap
  · rw [ea] at hk
    cases hk
    rw [g2.val, g1.val, xa, ya]
    exact ⟨rfl, rfl⟩
  have hcurv : ∀ c, p.curv = some c → IntGood adv c.v := by rw [g4]; rintro c ⟨⟩
  by_cases hP0 : P = 0
  · subst hP0
    have := sa.ident rfl
    exact ⟨g1.good, g2.good, fun _ => (k3.1 this).trans this, fun h => absurd (add_zero _) h, hcurv⟩
  · obtain ⟨zP, aP⟩ := sa.affine hP0
    obtain ⟨t1, t2⟩ := ta hP.2 cv ea hP0
    have hd := aP.double aP.y_ne t2
    exact ⟨g1.good, g2.good, fun h => absurd h hd.ne_zero,
      fun _ => ⟨(k3.2 zP).trans (by rw [g3, t1]), by rw [g1.val, g2.val]; exact hd⟩, hcurv⟩

theorem Spec.pDouble (a : APt) : Spec tables (Circuit.pDouble a) (fun adv r => ∀ P, Represents adv a P →
    Represents adv r.1 (P + P) ∧ Represents adv r.2 P) :=
  (Spec.pDouble' a).mono fun _ _ h P h1 => ⟨(h P h1).1, (h P h1).2.1⟩

theorem Spec.pNeg (a : APt) : Spec tables (pNeg a) (fun adv r => ∀ P, StandsFor adv a P →
    Represents adv r (-P)) := by
  constructor
  intro ctx r ctx' h adv hs
  unfold Circuit.pNeg at h
  simp only [bind_run, pure_run] at h
  obtain ⟨y, c1, h1, rfl, rfl⟩ := h
  obtain ⟨s0, k1⟩ := (Spec.ineg_val _).run _ _ _ h1 adv hs
  refine ⟨s0, fun P hP => ⟨⟨hP.x, (k1 _ hP.y.ok).good, fun e => hP.ident (neg_eq_zero.1 e), fun e => ?_,
    by rintro c ⟨⟩⟩, tangentOk_none rfl⟩⟩
  obtain ⟨z, aP⟩ := hP.affine (fun h => e (by rw [h, neg_zero]))
  refine ⟨z, ?_⟩
  dsimp only
  rw [(k1 _ hP.y.ok).val]
  exact aP.neg

theorem Spec.pSub (a b : APt) : Spec tables (pSub a b) (fun adv r => ∀ P Q, Represents adv a P →
    StandsFor adv b Q → Represents adv r.1 (P - Q) ∧ Represents adv r.2 P) := by
  constructor
  intro ctx r ctx' h adv hs
  unfold Circuit.pSub at h
  simp only [bind_run] at h
  obtain ⟨nb, c1, h1, h2⟩ := h
  obtain ⟨s1, k2⟩ := (Spec.pAdd _ _).run _ _ _ h2 adv hs
  obtain ⟨s0, k1⟩ := (Spec.pNeg _).run _ _ _ h1 adv s1
  refine ⟨s0, fun P Q hP hQ => ?_⟩
  obtain ⟨r1, r2, r3⟩ := k2 _ _ hP.1 (k1 Q hQ).1 (fun _ => hP.2)
  rw [sub_eq_add_neg]
  exact ⟨r1, r2, r3 hP.2⟩

theorem Spec.assignIdentity : Spec tables assignIdentity (fun adv r => Represents adv r 0) := by
  constructor
  intro ctx r ctx' h adv hs
  unfold Circuit.assignIdentity at h
  simp only [bind_run, pure_run] at h
  obtain ⟨z, c1, h1, o, c2, h2, rfl, rfl⟩ := h
  obtain ⟨s1, k2⟩ := (Spec.assignConstant _).run _ _ _ h2 adv hs
  obtain ⟨s0, k1⟩ := (Spec.iassignConstant_val _).run _ _ _ h1 adv s1
  exact ⟨s0, ⟨k1.good, k1.good, fun _ => k2, fun h => absurd rfl h, by rintro _ ⟨⟩; exact k1.good⟩,
    fun _ _ h => absurd rfl h⟩

theorem Spec.pReduce (a : APt) : Spec tables (pReduce a) (fun adv r => ∀ P, StandsFor adv a P →
    Represents adv r.1 P ∧ StandsFor adv r.2 P ∧ (TangentOk adv a P → TangentOk adv r.2 P) ∧
    (P = 0 → residue adv r.1.x = 0 ∧ residue adv r.1.y = 0)) := by
  constructor
  intro ctx r ctx' h adv hs
  unfold Circuit.pReduce Circuit.assignIdentity Circuit.bisecPoint at h
  simp only [bind_run, pure_run] at h
  obtain ⟨x, c1, h1, y, c2, h2, id, c5, ⟨z, c3, h3, o, c4, h4, rfl, rfl⟩, p, c9, ⟨x', c6, h6, y', c7, h7, z', c8, h8,
    rfl, rfl⟩, rfl, rfl⟩ := h
  obtain ⟨s7, k8⟩ := (Spec.bisecCond _ _ _).run _ _ _ h8 adv hs
  obtain ⟨s6, k7⟩ := (Spec.ibisec_val _ _ _).run _ _ _ h7 adv s7
  obtain ⟨s5, k6⟩ := (Spec.ibisec_val _ _ _).run _ _ _ h6 adv s6
  obtain ⟨s3, k4⟩ := (Spec.assignConstant _).run _ _ _ h4 adv s5
  obtain ⟨s2, k3⟩ := (Spec.iassignConstant_val _).run _ _ _ h3 adv s3
  obtain ⟨s1, k2⟩ := (Spec.reduce_val _).run _ _ _ h2 adv s2
  obtain ⟨s0, k1⟩ := (Spec.reduce_val _).run _ _ _ h1 adv s1
  refine ⟨s0, fun P hP => ?_⟩
  have vx := k1 _ hP.x.ok
  have vy := k2 _ hP.y.ok
  dsimp only at *
  have hR : StandsFor adv ⟨x, y, a.z, a.curv⟩ P := hP.of_vals vx vy rfl hP.curv
  refine ⟨⟨?_, tangentOk_none rfl⟩, hR, fun hT c hc hne => ?_, fun h0 => ?_⟩
  · by_cases h0 : P = 0
    · subst h0
      have e := isBit_true (hP.ident rfl)
      exact ⟨(k6.1 _ e k3 vx.2.1).good, (k7.1 _ e k3 vy.2.1).good, fun _ => (k8.1 (hP.ident rfl)).trans k4,
        fun h => absurd rfl h, by rintro _ ⟨⟩⟩
    · have e := isBit_false (hP.affine h0).1
      exact hP.of_vals (k6.2.1 _ e k3.2.1 vx) (k7.2.1 _ e k3.2.1 vy) (k8.2 (hP.affine h0).1) (by rintro _ ⟨⟩)
  · have := hT c hc hne
    dsimp only
    rwa [vx.val, vy.val]
  · have e := isBit_true (hP.ident h0)
    exact ⟨(k6.1 _ e k3 vx.2.1).val, (k7.1 _ e k3 vy.2.1).val⟩

theorem coords_aff {P : Pt} (h : P ≠ 0) : Aff P (coordX P) (coordY P) := by
  cases P with
  | zero => exact absurd rfl h
  | some x y hn => exact ⟨hn, rfl⟩

theorem flagOf_zero {P : Pt} (h : P = 0) : flagOf P = 1 := by subst h; rfl
theorem flagOf_ne {P : Pt} (h : P ≠ 0) : flagOf P = 0 := by
  cases P with
  | zero => exact absurd rfl h
  | some x y hn => rfl

theorem Spec.assignConstantPoint (c : Pt) : Spec tables (assignConstantPoint c) (fun adv r =>
    Represents adv r c) := by
  constructor
  intro ctx r ctx' h adv hs
  unfold Circuit.assignConstantPoint at h
  simp only [bind_run, pure_run] at h
  obtain ⟨x, c1, h1, y, c2, h2, z, c3, h3, rfl, rfl⟩ := h
  obtain ⟨s2, k3⟩ := (Spec.assignConstant _).run _ _ _ h3 adv hs
  obtain ⟨s1, k2⟩ := (Spec.iassignConstant_val _).run _ _ _ h2 adv s2
  obtain ⟨s0, k1⟩ := (Spec.iassignConstant_val _).run _ _ _ h1 adv s1
  refine ⟨s0, ⟨k1.good, k2.good, fun h => k3.trans (flagOf_zero h), fun h => ⟨k3.trans (flagOf_ne h), ?_⟩,
    by rintro _ ⟨⟩⟩, tangentOk_none rfl⟩
  dsimp only
  rw [k1.val, k2.val]
  exact coords_aff h

theorem Spec.assignConstantPointCurv (c : Pt) : Spec tables (assignConstantPointCurv c) (fun adv r =>
    StandsFor adv r c) := by
  constructor
  intro ctx r ctx' h adv hs
  unfold Circuit.assignConstantPointCurv at h
  simp only [bind_run, pure_run] at h
  obtain ⟨cv, c4, h4, cz, c5, h5, x, c1, h1, y, c2, h2, z, c3, h3, rfl, rfl⟩ := h
  obtain ⟨s2, k3⟩ := (Spec.assignConstant _).run _ _ _ h3 adv hs
  obtain ⟨s1, k2⟩ := (Spec.iassignConstant_val _).run _ _ _ h2 adv s2
  obtain ⟨s0, k1⟩ := (Spec.iassignConstant_val _).run _ _ _ h1 adv s1
  obtain ⟨s0, k5⟩ := (Spec.assignConstant _).run _ _ _ h5 adv s0
  obtain ⟨s0, k4⟩ := (Spec.iassignConstant_val _).run _ _ _ h4 adv s0
  refine ⟨s0, ⟨k1.good, k2.good, fun h => k3.trans (flagOf_zero h), fun h => ⟨k3.trans (flagOf_ne h), ?_⟩,
    by rintro _ ⟨⟩; exact k4.good⟩⟩
  dsimp only
  rw [k1.val, k2.val]
  exact coords_aff h

/-- `assign_point`: the coordinates are on the curve, or the flag is one. -/
theorem Spec.assignPoint (c : Pt) : Spec tables (assignPoint c) (fun adv r =>
    IntGood adv r.x ∧ IntGood adv r.y ∧ r.curv = none ∧
    (residue adv r.y ^ 2 = residue adv r.x ^ 3 + 3 ∨ r.z.val adv = 1)) := by
  constructor
  intro ctx r ctx' h adv hs
  unfold Circuit.assignPoint assignPointRaw at h
  simp only [bind_run, Prod.exists, pure_run] at h
  obtain ⟨x, c1, h1, y, c2, h2, z, c3, h3, b, c4, h4, y2, y', c5, h5, x2, x', c6, h6, x3, x2', x'', c7, h7, rt, c8,
    h8, eq, c9, h9, e, c10, h10, _, c11, h11, rfl, rfl⟩ := h
  obtain ⟨s10, k11⟩ := (Spec.assertConstant _ _).run _ _ _ h11 adv hs
  obtain ⟨s9, k10⟩ := (Spec.or _ _).run _ _ _ h10 adv s10
  obtain ⟨s8, k9⟩ := (Spec.iisEqual_val _ _).run _ _ _ h9 adv s9
  obtain ⟨s7, k8⟩ := (Spec.iadd_val _ _).run _ _ _ h8 adv s8
  obtain ⟨s6, k7⟩ := (Spec.imul_val _ _).run _ _ _ h7 adv s7
  obtain ⟨s5, k6⟩ := (Spec.isquare_val _).run _ _ _ h6 adv s6
  obtain ⟨s4, k5⟩ := (Spec.isquare_val _).run _ _ _ h5 adv s5
  obtain ⟨s3, k4⟩ := (Spec.iassignConstant_val _).run _ _ _ h4 adv s4
  obtain ⟨s2, -⟩ := (Spec.assign _).run _ _ _ h3 adv s3
  obtain ⟨s1, k2⟩ := (Spec.assignW_val _).run _ _ _ h2 adv s2
  obtain ⟨s0, k1⟩ := (Spec.assignW_val _).run _ _ _ h1 adv s1
  dsimp only at *
  obtain ⟨⟨j5, -⟩, j5'⟩ := k5 _ k2
  obtain ⟨⟨j6, -⟩, j6'⟩ := k6 _ k1
  obtain ⟨j7, -, j7'⟩ := k7 _ _ j6 j6'
  have j9 := k9 _ _ j5 (k8 _ _ j7 k4)
  refine ⟨s0, j7'.good, j5'.good, rfl, ?_⟩
  rw [k11] at k10
  unfold IsBit at j9
  rw [j7'.val, j5'.val]
  by_cases hc : residue adv y ^ 2 = residue adv x ^ 2 * residue adv x + 3
  · left; rw [hc]; ring
  · right
    rw [j9, decide_eq_false hc] at k10
    simpa using k10.symm

/-- `assert_equal`: what the circuit really checks. -/
theorem Spec.pAssertEqual (a b : APt) : Spec tables (pAssertEqual a b) (fun adv _ =>
    IntGood adv a.x → IntGood adv a.y → IntGood adv b.x → IntGood adv b.y →
      (residue adv a.x = residue adv b.x ∧ residue adv a.y = residue adv b.y) ∨ a.z.val adv * b.z.val adv = 1) := by
  constructor
  intro ctx r ctx' h adv hs
  unfold Circuit.pAssertEqual at h
  simp only [bind_run] at h
  obtain ⟨ex, c1, h1, ey, c2, h2, ez, c3, h3, exy, c4, h4, exyz, c5, h5, bt, c6, h6, eq, c7, h7, h8⟩ := h
  obtain ⟨s7, k8⟩ := (Spec.assertConstant _ _).run _ _ _ h8 adv hs
  obtain ⟨s6, k7⟩ := (Spec.or _ _).run _ _ _ h7 adv s7
  obtain ⟨s5, k6⟩ := (Spec.and _ _).run _ _ _ h6 adv s6
  obtain ⟨s4, k5⟩ := (Spec.and _ _).run _ _ _ h5 adv s5
  obtain ⟨s3, k4⟩ := (Spec.and _ _).run _ _ _ h4 adv s4
  obtain ⟨s2, k3⟩ := (Spec.xnor _ _).run _ _ _ h3 adv s3
  obtain ⟨s1, k2⟩ := (Spec.iisEqual_val _ _).run _ _ _ h2 adv s2
  obtain ⟨s0, k1⟩ := (Spec.iisEqual_val _ _).run _ _ _ h1 adv s1
  refine ⟨s0, fun ax ay bx by' => ?_⟩
  have i1 := k1 _ _ ax.ok bx.ok
  have i2 := k2 _ _ ay.ok by'.ok
  unfold IsBit at i1 i2
  rw [k8, k5, k4, k3, k6] at k7
  by_cases e1 : residue adv a.x = residue adv b.x
  · by_cases e2 : residue adv a.y = residue adv b.y
    · exact .inl ⟨e1, e2⟩
    · right
      rw [i1, i2, decide_eq_false e2] at k7
      simpa using k7.symm
  · right
    rw [i1, i2, decide_eq_false e1] at k7
    simpa using k7.symm

end Verif.Circuit
