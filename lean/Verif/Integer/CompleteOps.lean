import Verif.Integer.Complete

/-!
# Completeness of the integer chip (helper lemmas): the operations
-/

set_option exponentiation.threshold 600

namespace Verif.Circuit

theorem Bd.to64 {k : ℕ} {adv : Advice N} {l : Fin 4 → AV N} (h : Bd k adv l) (hk : k ≤ 64) : Bd 64 adv l :=
  h.mono hk

/-- `reduce` on an honest handle. -/
theorem CSpec.reduceH (a : AInt) : CSpec tables (Circuit.reduce a) (fun c => HInt c a)
    (fun c r => HInt c r ∧ r.overflows = 0 ∧ limbsVal c.wit r.limbs < fqMod ∧
      limbsVal c.wit r.limbs ≡ limbsVal c.wit a.limbs [MOD fqMod]) := by
  constructor
  rintro ctx hg hv
  obtain ⟨r, c, e, g, x, v, h0, h1⟩ := (CSpec.reduce a hv.ann.counter).run ctx hg
    ⟨hv.vint, hv.ann.bound.to64 (by have := hv.ann.counter; omega)⟩
  obtain ⟨-, hs⟩ := (Spec.reduce a).run _ _ _ e _ g.sat
  have hv' := hv.ext x
  obtain ⟨hred, hc⟩ := hs (a.overflows + 1) (by have := hv.ann.counter; omega) hv'.ann.bound hv'.ann.native
  by_cases ho : a.overflows = 0
  · obtain rfl := h0 ho
    exact ⟨r, c, e, g, x, hv', ho, hv'.canon ho, rfl⟩
  · obtain ⟨hh, -⟩ | ⟨-, -, hr, hb⟩ := hc
    · exact absurd hh ho
    · exact ⟨r, c, e, g, x, ⟨v.valid, v.validN, ⟨hb.mono (by omega), v.native, by omega⟩, fun _ => h1 ho⟩,
        hr, h1 ho, hred.1⟩

/-- `conditionally_reduce` on a freshly built integer with a positive counter. -/
theorem CSpec.conditionallyReduce (a : AInt) (hpos : 0 < a.overflows) (hlt : a.overflows < 64) :
    CSpec tables (conditionallyReduce a)
    (fun c => VInt c a ∧ Bd (a.overflows + 1) c.wit a.limbs) (fun c r => HInt c r) := by
  unfold Circuit.conditionallyReduce
  have hH : ∀ c, VInt c a ∧ Bd (a.overflows + 1) c.wit a.limbs → HInt c a := fun c h =>
    ⟨h.1.valid, h.1.validN, ⟨h.2, h.1.native, hlt⟩, fun h0 => absurd h0 (by omega)⟩
  split
  · exact (CSpec.reduceH a).mono hH (fun _ _ h => h.1)
  · refine (CSpec.pure a _).mono hH ?_
    rintro c r ⟨h, rfl⟩
    exact h

/-- Four rows, each a `sum_with_constant`. -/
theorem sum4_run {f : Fin 4 → List (AV N × N)} {k : Fin 4 → N} {ctx : Ctx N} (hg : Good tables ctx)
    (hv : ∀ i, ∀ p ∈ f i, ValidAV ctx p.1) : ∃ l0 l1 l2 l3 c0 c1 c2 c3,
    sumWithConstant (f 0) (k 0) ctx = some (l0, c0) ∧ sumWithConstant (f 1) (k 1) c0 = some (l1, c1) ∧
    sumWithConstant (f 2) (k 2) c1 = some (l2, c2) ∧ sumWithConstant (f 3) (k 3) c2 = some (l3, c3) ∧
    Good tables c3 ∧ Ext ctx c3 ∧ (∀ i, ValidAV c3 (vec4 l0 l1 l2 l3 i)) ∧
    ∀ i, (vec4 l0 l1 l2 l3 i).val c3.wit = k i + wsum c3.wit (f i) := by
  obtain ⟨l0, c0, e0, g0, x0, v0, w0⟩ := (CSpec.sumWithConstant (t := tables) (f 0) (k 0)).run ctx hg (hv 0)
  obtain ⟨l1, c1, e1, g1, x1, v1, w1⟩ := (CSpec.sumWithConstant (t := tables) (f 1) (k 1)).run c0 g0
    (fun p hp => (hv 1 p hp).ext x0)
  obtain ⟨l2, c2, e2, g2, x2, v2, w2⟩ := (CSpec.sumWithConstant (t := tables) (f 2) (k 2)).run c1 g1
    (fun p hp => (hv 2 p hp).ext (x0.trans x1))
  obtain ⟨l3, c3, e3, g3, x3, v3, w3⟩ := (CSpec.sumWithConstant (t := tables) (f 3) (k 3)).run c2 g2
    (fun p hp => (hv 3 p hp).ext (x0.trans (x1.trans x2)))
  refine ⟨l0, l1, l2, l3, c0, c1, c2, c3, e0, e1, e2, e3, g3, x0.trans (x1.trans (x2.trans x3)),
    valid_vec4 (v0.ext (x1.trans (x2.trans x3))) (v1.ext (x2.trans x3)) (v2.ext x3) v3, ?_⟩
  obtain ⟨s2, p3⟩ := (Spec.sumWithConstant _ _).run _ _ _ e3 _ g3.sat
  obtain ⟨s1, p2⟩ := (Spec.sumWithConstant _ _).run _ _ _ e2 _ s2
  obtain ⟨s0, p1⟩ := (Spec.sumWithConstant _ _).run _ _ _ e1 _ s1
  obtain ⟨-, p0⟩ := (Spec.sumWithConstant _ _).run _ _ _ e0 _ s0
  intro i
  fin_cases i <;> assumption

theorem CSpec.iadd (a b : AInt) (h : a.overflows + b.overflows < 63) : CSpec tables (iadd a b)
    (fun c => HInt c a ∧ HInt c b) (fun c r => HInt c r) := by
  constructor
  rintro ctx hg ⟨ha, hb⟩
  obtain ⟨l0, l1, l2, l3, c0, c1, c2, c3, e0, e1, e2, e3, gg, x, hval, hv⟩ :=
    sum4_run (f := fun i => [(a.limbs i, 1), (b.limbs i, 1)]) (k := fun _ => 0) hg
      (by have := ha.valid; have := hb.valid; simp [*])
  obtain ⟨r, c4, e4, g4, x4, hr⟩ := (CSpec.conditionallyReduce
    (AInt.new (vec4 l0 l1 l2 l3) (a.overflows + b.overflows + 1)) (by simp [AInt.new])
    (by simp only [AInt.new]; omega)).run c3 gg (by
      refine ⟨VInt.of_none hval rfl, ?_⟩
      have ha' := ha.ext x
      have hb' := hb.ext x
      have hv' : ∀ i, (vec4 l0 l1 l2 l3 i).val c3.wit = (a.limbs i).val c3.wit + (b.limbs i).val c3.wit := by
        intro i; rw [hv i]; simp [wsum]
      have hk : (a.overflows + 1 + (b.overflows + 1)) * 2 ^ 68 ≤ 2 ^ 253 := by
        have : a.overflows + 1 + (b.overflows + 1) ≤ 2 ^ 38 := by omega
        calc _ ≤ 2 ^ 38 * 2 ^ 68 := Nat.mul_le_mul_right _ this
          _ ≤ 2 ^ 253 := by norm_num
      have hk' : (a.overflows + 1 + (b.overflows + 1)) * 2 ^ 50 ≤ 2 ^ 253 :=
        le_trans (Nat.mul_le_mul_left _ (by norm_num)) hk
      have hkk : a.overflows + b.overflows + 1 + 1 = a.overflows + 1 + (b.overflows + 1) := by omega
      simp only [AInt.new]
      rw [hkk]
      exact ⟨(add_limb (hv' 0) ha'.ann.bound.b0 hb'.ann.bound.b0 hk).2,
        (add_limb (hv' 1) ha'.ann.bound.b1 hb'.ann.bound.b1 hk).2,
        (add_limb (hv' 2) ha'.ann.bound.b2 hb'.ann.bound.b2 hk).2,
        (add_limb (hv' 3) ha'.ann.bound.b3 hb'.ann.bound.b3 hk').2⟩)
  refine ⟨r, c4, ?_, g4, x.trans x4, hr⟩
  unfold Circuit.iadd Circuit.add
  rw [bind_some e0, bind_some e1, bind_some e2, bind_some e3]
  exact e4

theorem CSpec.isub (a b : AInt) (h : a.overflows + b.overflows < 62) : CSpec tables (isub a b)
    (fun c => HInt c a ∧ HInt c b) (fun c r => HInt c r) := by
  constructor
  rintro ctx hg ⟨ha, hb⟩
  obtain ⟨up, hup, hz, g0, g0', g1, g1', g2, g2', g3, g3'⟩ := findWModulusCeil_spec hb.ann.counter
  obtain ⟨l0, l1, l2, l3, c0, c1, c2, c3, e0, e1, e2, e3, gg, x, hval, hv⟩ :=
    sum4_run (f := fun i => [(a.limbs i, 1), (b.limbs i, -1)]) (k := fun i => bnToN (up i)) hg
      (by have := ha.valid; have := hb.valid; simp [*])
  obtain ⟨r, c4, e4, g4, x4, hr⟩ := (CSpec.conditionallyReduce
    (AInt.new (vec4 l0 l1 l2 l3) (a.overflows + (b.overflows + 1) + 1)) (by simp [AInt.new])
    (by simp only [AInt.new]; omega)).run c3 gg (by
      refine ⟨VInt.of_none hval rfl, ?_⟩
      have ha' := ha.ext x
      have hb' := hb.ext x
      have hkk : a.overflows + (b.overflows + 1) + 1 + 1 = a.overflows + 1 + (b.overflows + 2) := by omega
      have hm : (a.overflows + 1 + (b.overflows + 2)) * 2 ^ 68 ≤ 2 ^ 253 := by
        have : a.overflows + 1 + (b.overflows + 2) ≤ 2 ^ 38 := by omega
        calc _ ≤ 2 ^ 38 * 2 ^ 68 := Nat.mul_le_mul_right _ this
          _ ≤ 2 ^ 253 := by norm_num
      have hm' : (a.overflows + 1 + (b.overflows + 2)) * 2 ^ 50 ≤ 2 ^ 253 :=
        le_trans (Nat.mul_le_mul_left _ (by norm_num)) hm
      simp only [AInt.new]
      rw [hkk]
      exact ⟨(sub_limb (hv 0) ha'.ann.bound.b0 hb'.ann.bound.b0 (g0.trans (Nat.le_succ _)) g0' hm).2,
        (sub_limb (hv 1) ha'.ann.bound.b1 hb'.ann.bound.b1 (g1.trans (Nat.le_succ _)) g1' hm).2,
        (sub_limb (hv 2) ha'.ann.bound.b2 hb'.ann.bound.b2 (g2.trans (Nat.le_succ _)) g2' hm).2,
        (sub_limb (hv 3) ha'.ann.bound.b3 hb'.ann.bound.b3 g3 g3' hm').2⟩)
  refine ⟨r, c4, ?_, g4, x.trans x4, hr⟩
  unfold Circuit.isub Circuit.subLimb
  rw [hup, bind_some (unwrapM_run _ _), bind_some e0, bind_some e1, bind_some e2, bind_some e3]
  exact e4

theorem CSpec.ineg (a : AInt) (h : a.overflows < 63) : CSpec tables (ineg a)
    (fun c => HInt c a) (fun c r => HInt c r) := by
  constructor
  rintro ctx hg ha
  obtain ⟨up, hup, hz, g0, g0', g1, g1', g2, g2', g3, g3'⟩ := findWModulusCeil_spec ha.ann.counter
  obtain ⟨l0, l1, l2, l3, c0, c1, c2, c3, e0, e1, e2, e3, gg, x, hval, hv⟩ :=
    sum4_run (f := fun i => [(a.limbs i, -1)]) (k := fun i => bnToN (up i)) hg
      (by have := ha.valid; simp [*])
  obtain ⟨r, c4, e4, g4, x4, hr⟩ := (CSpec.conditionallyReduce
    (AInt.new (vec4 l0 l1 l2 l3) (a.overflows + 1)) (by simp [AInt.new])
    (by simp only [AInt.new]; omega)).run c3 gg (by
      refine ⟨VInt.of_none hval rfl, ?_⟩
      have ha' := ha.ext x
      have hm : (a.overflows + 2) * 2 ^ 68 ≤ 2 ^ 253 := by
        have : a.overflows + 2 ≤ 2 ^ 38 := by omega
        calc _ ≤ 2 ^ 38 * 2 ^ 68 := Nat.mul_le_mul_right _ this
          _ ≤ 2 ^ 253 := by norm_num
      have hm' : (a.overflows + 2) * 2 ^ 50 ≤ 2 ^ 253 :=
        le_trans (Nat.mul_le_mul_left _ (by norm_num)) hm
      simp only [AInt.new]
      exact ⟨(neg_limb (hv 0) ha'.ann.bound.b0 (g0.trans (Nat.le_succ _)) g0' hm).2,
        (neg_limb (hv 1) ha'.ann.bound.b1 (g1.trans (Nat.le_succ _)) g1' hm).2,
        (neg_limb (hv 2) ha'.ann.bound.b2 (g2.trans (Nat.le_succ _)) g2' hm).2,
        (neg_limb (hv 3) ha'.ann.bound.b3 g3 g3' hm').2⟩)
  refine ⟨r, c4, ?_, g4, x.trans x4, hr⟩
  unfold Circuit.ineg Circuit.negLimb
  rw [hup, bind_some (unwrapM_run _ _), bind_some e0, bind_some e1, bind_some e2, bind_some e3]
  exact e4

end Verif.Circuit
