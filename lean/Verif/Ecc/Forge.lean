import Verif.Ecc.Noncanonical
import Verif.Ecc.CompleteShamir

/-!
# Another witness for `sub`

`reduce` accepts every remainder below `2^254`, so a prover may choose a quotient smaller by one and a remainder greater by the modulus.
`reduceForged` builds the circuit of `reduce` with these values, and `pSubForged` the circuit of `sub` with `reduceForged` in its last step.
They are not definitions of the code; the witness of `C72_false` is made of them.
-/

set_option exponentiation.threshold 600

namespace Verif.Circuit

open Verif.Ecc

/-- `reduce` with the remainder greater by the modulus. -/
def reduceForged (a : AInt) : M N AInt :=
  if a.overflows = 0 then pure a
  else do
    assertM (a.overflows < overflowLimit)
    let d := a.bn / fqMod - 1
    let rem := a.bn % fqMod + fqMod
    let u ← unwrapM (bnSub (d * wLimbs 0 + bnToLimbs rem 0 + limbMod * overflowLimit)
      (nToBn (a.limbs 0).value))
    let v := u / limbMod
    let rem ← assignLimbs rem
    let cells ← oneLineSel { common := true } [(.unassigned (bnToN d), 0), (.unassigned (bnToN v), 0)]
      0 [] 0
    let d := cells 0
    let v := cells 1
    let (remNative, rem) ← native rem
    let (aNative, a) ← native a
    let _ ← oneLineAdd [(.assigned aNative, -1), (.assigned d, wNative), (.assigned remNative, 1)] 0
    let _ ← oneLineAdd [(.assigned d, bnToN (wLimbs 0)), (.assigned (rem.limbs 0), 1),
      (.assigned (a.limbs 0), -1), (.assigned v, -bnToN limbMod)] (bnToN (limbMod * overflowLimit))
    return ⟨rem.limbs, rem.native, rem.overflows⟩

/-- `sub` with `reduceForged`. -/
def isubForged (a b : AInt) : M N AInt := do
  let up ← unwrapM (findWModulusCeil b.overflows)
  let l0 ← subLimb (a.limbs 0) (b.limbs 0) (up 0)
  let l1 ← subLimb (a.limbs 1) (b.limbs 1) (up 1)
  let l2 ← subLimb (a.limbs 2) (b.limbs 2) (up 2)
  let l3 ← subLimb (a.limbs 3) (b.limbs 3) (up 3)
  let r := AInt.new (vec4 l0 l1 l2 l3) (a.overflows + (b.overflows + 1) + 1)
  if r.overflows ≥ overflowThreshold then reduceForged r else pure r

/-- `lambda_to_point` with `isubForged` for the second coordinate. -/
def lambdaToPointForged (lambda : ACurv) (a b : APt) : M N APt := do
  let (l2, l) ← isquare lambda.v
  let t ← isub l2 a.x
  let cx ← isub t b.x
  let t ← isub a.x cx
  let (t, _, _) ← imul t l
  let cy ← isubForged t a.y
  return ⟨cx, cy, lambda.z, none⟩

/-- `add` with `lambdaToPointForged`. -/
def pAddForged (a b : APt) : M N (APt × APt) := do
  let diffX ← isub a.x b.x
  let diffY ← isub a.y b.y
  let (xEq, tangent, diffY, _) ← idiv diffY diffX
  let (yEq, _) ← iisZero diffY
  let eq ← and xEq yEq
  let (c, a) ← curvature a
  let lambda ← bisecCurv eq c ⟨tangent, xEq⟩
  let p ← lambdaToPointForged lambda a b
  let p ← bisecPoint a.z b p
  let p ← bisecPoint b.z a p
  return (p, a)

/-- `sub` with `pAddForged`. -/
def pSubForged (a b : APt) : M N (APt × APt) := do
  let nb ← pNeg b
  pAddForged a nb

/-! ### The same circuit -/

theorem Rel.reduceForged {a a' : AInt} (ha : SameCells a a') : Rel (Circuit.reduce a) (Circuit.reduceForged a') SameCells := by
  unfold Circuit.reduce Circuit.reduceForged
  rw [← ha.overflows]
  split
  · exact Rel.pure ha
  · refine Rel.assertM.bind fun _ _ _ => ?_
    dsimp only
    refine (Rel.unwrapM _ _).bind fun _ _ _ => ?_
    refine (Rel.assignLimbs _ _).bind fun _ _ hr => ?_
    refine (Rel.oneLineSel _ _ _ _ (by same_pairs)).bind fun _ _ hc => ?_
    refine (Rel.native hr).bind fun p p' hp => ?_
    obtain ⟨hp1, hp2⟩ := hp
    refine (Rel.native ha).bind fun q q' hq => ?_
    obtain ⟨hq1, hq2⟩ := hq
    have hc0 := hc 0
    have hc1 := hc 1
    have hr0 := hp2.limbs 0
    have ha0 := hq2.limbs 0
    refine (Rel.oneLineAdd _ (by same_pairs)).bind fun _ _ _ => ?_
    refine (Rel.oneLineAdd _ (by same_pairs)).bind fun _ _ _ => ?_
    exact Rel.pure hp2

theorem Rel.ite_new {l l' : Fin 4 → AV N} {o : ℕ} (h : ∀ i, SameCell (l i) (l' i)) : Rel (Circuit.conditionallyReduce (AInt.new l o))
    (if (AInt.new l' o).overflows ≥ overflowThreshold then Circuit.reduceForged (AInt.new l' o) else Pure.pure (AInt.new l' o)) SameCells := by
  unfold Circuit.conditionallyReduce
  by_cases ho : o ≥ overflowThreshold
  · rw [if_pos (show (AInt.new l o).overflows ≥ _ from ho), if_pos (show (AInt.new l' o).overflows ≥ _ from ho)]
    exact Rel.reduceForged (.new h rfl)
  · rw [if_neg (show ¬(AInt.new l o).overflows ≥ _ from ho), if_neg (show ¬(AInt.new l' o).overflows ≥ _ from ho)]
    exact Rel.pure (.new h rfl)

theorem Rel.isubForged {a a' b b' : AInt} (ha : SameCells a a') (hb : SameCells b b') : Rel (Circuit.isub a b) (Circuit.isubForged a' b') SameCells := by
  unfold Circuit.isub Circuit.isubForged
  rw [← ha.overflows, ← hb.overflows]
  refine (Rel.unwrapM _ _).bind fun u u' hu => ?_
  obtain rfl : u = u' := by simpa [hu.1] using hu.2
  refine (Rel.subLimb (ha.limbs 0) (hb.limbs 0) _).bind fun _ _ h0 =>
    (Rel.subLimb (ha.limbs 1) (hb.limbs 1) _).bind fun _ _ h1 =>
    (Rel.subLimb (ha.limbs 2) (hb.limbs 2) _).bind fun _ _ h2 =>
    (Rel.subLimb (ha.limbs 3) (hb.limbs 3) _).bind fun _ _ h3 => ?_
  exact Rel.ite_new (same_vec4 h0 h1 h2 h3)

theorem Rel.lambdaToPointForged {u u' : ACurv} {a a' b b' : APt} (hu : SameCurv u u') (ha : SamePt a a') (hb : SamePt b b') :
    Rel (Circuit.lambdaToPoint u a b) (Circuit.lambdaToPointForged u' a' b') SamePt :=
  (Rel.isquare hu.v).bind fun _ _ q1 => (Rel.isub q1.1 ha.x).bind fun _ _ q2 =>
    (Rel.isub q2 hb.x).bind fun _ _ q3 => (Rel.isub ha.x q3).bind fun _ _ q4 =>
    (Rel.imul q4 q1.2).bind fun _ _ q5 => (Rel.isubForged q5.1 ha.y).bind fun _ _ q6 =>
    Rel.pure ⟨q3, q6, hu.z, .none⟩

theorem Rel.pAddForged {a a' b b' : APt} (ha : SamePt a a') (hb : SamePt b b') : Rel (Circuit.pAdd a b) (Circuit.pAddForged a' b')
    (fun p p' => SamePt p.1 p'.1 ∧ SamePt p.2 p'.2) :=
  (Rel.isub ha.x hb.x).bind fun _ _ q1 => (Rel.isub ha.y hb.y).bind fun _ _ q2 =>
    (Rel.idiv q2 q1).bind fun _ _ q3 => (Rel.iisZero q3.2.2.1).bind fun _ _ q4 =>
    (Rel.mul q3.1 q4.1).bind fun _ _ q5 => (Rel.curvature ha).bind fun _ _ q6 =>
    (Rel.bisecCurv q5 q6.1 ⟨q3.2.1, q3.1⟩).bind fun _ _ q7 => (Rel.lambdaToPointForged q7 q6.2 hb).bind fun _ _ q8 =>
    (Rel.bisecPoint q6.2.z hb q8).bind fun _ _ q9 => (Rel.bisecPoint hb.z q6.2 q9).bind fun _ _ q10 =>
    Rel.pure ⟨q10, q6.2⟩

theorem Rel.pSubForged {a a' b b' : APt} (ha : SamePt a a') (hb : SamePt b b') : Rel (Circuit.pSub a b) (Circuit.pSubForged a' b')
    (fun p p' => SamePt p.1 p'.1 ∧ SamePt p.2 p'.2) :=
  (Rel.pNeg hb).bind fun _ _ q1 => Rel.pAddForged ha q1

/-! ### It is satisfied -/

theorem reduce_forged {a0 A d rem u : ℕ} (hA' : A = d * fqMod + rem)
    (hA : A < 64 * 2 ^ 255) (ha0 : a0 < 64 * 2 ^ 68) (hm : A ≡ a0 [MOD 2 ^ 68])
    (hu : u = d * wLimbs 0 + bnToLimbs rem 0 + 2 ^ 68 * 64 - a0) :
    d < 2 ^ 17 ∧ u / 2 ^ 68 < 2 ^ 17 ∧ u / 2 ^ 68 * 2 ^ 68 + a0
      = d * wLimbs 0 + bnToLimbs rem 0 + 2 ^ 68 * 64 := by
  have hw := wLimb0_lt
  have hsplit := fqMod_split
  have hfq := fqMod_gt
  have hd8 : d < 256 := by
    have : d * fqMod < 256 * fqMod := by omega
    exact Nat.lt_of_mul_lt_mul_right this
  have hb : bnToLimbs rem 0 = rem % 2 ^ 68 := rfl
  have hdw : d * wLimbs 0 ≤ 256 * 2 ^ 68 := Nat.mul_le_mul hd8.le hw.le
  have hdf : d * fqMod = d * wLimbs 0 + 2 ^ 68 * (d * (fqMod / 2 ^ 68)) := by
    conv_lhs => rw [hsplit]
    ring
  rw [hb] at hu ⊢
  unfold Nat.ModEq at hm
  generalize d * wLimbs 0 = x at *
  generalize d * (fqMod / 2 ^ 68) = y at *
  omega

/-- An integer that `reduceForged` takes to `n` plus the modulus. -/
structure Forgeable (c : Ctx N) (a : AInt) (n : ℕ) : Prop where
  v : VInt c a
  bd : Bd 64 c.wit a.limbs
  pos : a.overflows ≠ 0
  lt : a.overflows < 64
  big : fqMod ≤ limbsVal c.wit a.limbs
  mod : limbsVal c.wit a.limbs % fqMod = n

theorem Forgeable.ext {c c' : Ctx N} {a : AInt} {n : ℕ} (h : Forgeable c a n) (he : Ext c c') : Forgeable c' a n := by
  have hl := limbsVal_ext h.v.valid he
  have hb := h.bd
  have : ∀ i, lv c'.wit (a.limbs i) = lv c.wit (a.limbs i) := fun i => by
    unfold lv
    rw [val_wit_ext (h.v.valid i) he]
  exact ⟨h.v.ext he, ⟨by rw [this]; exact hb.1, by rw [this]; exact hb.2, by rw [this]; exact hb.3, by rw [this]; exact hb.4⟩, h.pos, h.lt,
    by rw [hl]; exact h.big, by rw [hl]; exact h.mod⟩

theorem CSpec.reduceForged (a : AInt) (n : ℕ) (hn : n + fqMod < 2 ^ 254) :
    CSpec tables (Circuit.reduceForged a) (fun c => Forgeable c a n) (fun c r => Holding c r (n + fqMod)) := by
  constructor
  rintro ctx hg ⟨hv, hb, h0, hlt, hbig, hmod⟩
  unfold Circuit.reduceForged
  rw [if_neg h0]
  have hbn := HInt.bn_eq hv.valid
  obtain ⟨A, hA⟩ : ∃ A, limbsVal ctx.wit a.limbs = A := ⟨_, rfl⟩
  obtain ⟨a0, ha0⟩ : ∃ a0, lv ctx.wit (a.limbs 0) = a0 := ⟨_, rfl⟩
  have ha0' : nToBn (a.limbs 0).value = a0 := by rw [← ha0, lv_wit (hv.valid 0)]; rfl
  rw [hbn, hA, ha0', limbMod_eq, show overflowLimit = 64 from rfl]
  rw [hA] at hbig hmod
  have hb0 : a0 < 64 * 2 ^ 68 := ha0 ▸ hb.b0
  have hAlt : A < 64 * 2 ^ 255 := hA ▸ limbsVal_lt hb
  rw [hmod]
  obtain ⟨d, hd'⟩ : ∃ d, d = A / fqMod - 1 := ⟨_, rfl⟩
  rw [← hd']
  have hA' : A = d * fqMod + (n + fqMod) := by
    have h1 : 1 ≤ A / fqMod := (Nat.one_le_div_iff (by decide +kernel)).2 hbig
    have h2 := Nat.div_add_mod A fqMod
    rw [hmod] at h2
    obtain ⟨e, he⟩ : ∃ e, A / fqMod = e + 1 := ⟨A / fqMod - 1, by omega⟩
    rw [he, Nat.mul_add, mul_one] at h2
    have : d = e := by omega
    rw [this, ← h2, mul_comm]
    ring
  obtain ⟨hd, hvv, hve⟩ := reduce_forged (u := d * wLimbs 0 + bnToLimbs (n + fqMod) 0 + 2 ^ 68 * 64 - a0)
    hA' hAlt hb0 (by rw [← hA, ← ha0]; exact limbsVal_modEq_limb0 _ _) rfl
  have hsub : bnSub (d * wLimbs 0 + bnToLimbs (n + fqMod) 0 + 2 ^ 68 * 64) a0
      = some (d * wLimbs 0 + bnToLimbs (n + fqMod) 0 + 2 ^ 68 * 64 - a0) := by
    unfold bnSub
    rw [if_pos]
    omega
  dsimp only
  rw [hsub]
  generalize d * wLimbs 0 + bnToLimbs (n + fqMod) 0 + 2 ^ 68 * 64 - a0 = u at hvv hve ⊢
  obtain ⟨rem, c1, e1, g1, x1, hr⟩ := (CSpec.assignLimbs hn).run ctx hg trivial
  obtain ⟨cells, c2, e2, g2, x2, v0, w0, v1, w1⟩ := (CSpec.rangePair _ _ hd hvv).run c1 g1 trivial
  obtain ⟨⟨rn, rem'⟩, c3, e3, g3, x3, v3, w3, l3, o3, y3⟩ :=
    (CSpec.native rem).run c2 g2 (hr.v.ext x2)
  obtain ⟨⟨an, a'⟩, c4, e4, g4, x4, v4, w4, l4, o4, y4⟩ :=
    (CSpec.native a).run c3 g3 (hv.ext (x1.trans (x2.trans x3)))
  simp only at v3 w3 l3 o3 y3 v4 w4 l4 o4 y4
  rw [limbsVal_ext hr.v.valid (x2.trans x3), hr.val] at w3
  rw [limbsVal_ext hv.valid (x1.trans (x2.trans (x3.trans x4))), hA] at w4
  obtain ⟨_, c5, e5, g5, x5, -⟩ := (CSpec.lineAdd3 (t := tables) an (cells 0) rn (-1) wNative 1 0 (by
    rw [w3, w4, w0, wNative_eq]
    have := congrArg (Nat.cast (R := N)) hA'
    push_cast at this
    push_cast
    linear_combination -this)).run c4 g4 ⟨v4, v0.ext (x3.trans x4), v3.ext x4⟩
  obtain ⟨_, c6, e6, g6, x6, -⟩ := (CSpec.lineAdd4 (t := tables) (cells 0) (rem'.limbs 0) (a'.limbs 0)
    (cells 1) (bnToN (wLimbs 0)) 1 (-1) (-bnToN (2 ^ 68)) (bnToN (2 ^ 68 * 64)) (by
    rw [w0, w1, l3, l4, bnToN_eq (b := 2 ^ 68) (by norm_num), bnToN_eq (b := 2 ^ 68 * 64) (by norm_num),
      bnToN_eq (b := wLimbs 0) (by decide +kernel), ← val_wit (hr.v.valid 0), ← cast_lv,
      ← val_wit (hv.valid 0), ← cast_lv, ha0]
    have hr0 : lv c1.wit (rem.limbs 0) = bnToLimbs (n + fqMod) 0 := by
      have h1 := limbsVal_modEq_limb0 c1.wit rem.limbs
      rw [hr.val] at h1
      have h2 := hr.ok.1.bound.b0
      rw [hr.o] at h2
      unfold Nat.ModEq at h1
      have h3 : bnToLimbs (n + fqMod) 0 = (n + fqMod) % 2 ^ 68 := rfl
      omega
    rw [hr0]
    have := congrArg (Nat.cast (R := N)) hve
    push_cast at this ⊢
    linear_combination -this)).run c5 g5
      ⟨v0.ext (x3.trans (x4.trans x5)), (y3.ext (x4.trans x5)).valid 0, (y4.ext x5).valid 0,
        v1.ext (x3.trans (x4.trans x5))⟩
  have y6 := y3.ext (x4.trans (x5.trans x6))
  have hr6 := hr.ext (x2.trans (x3.trans (x4.trans (x5.trans x6))))
  refine ⟨⟨rem'.limbs, rem'.native, rem'.overflows⟩, c6, ?_, g6,
    x1.trans (x2.trans (x3.trans (x4.trans (x5.trans x6)))), ?_⟩
  · rw [bind_some (assertM_run hlt _), bind_some (unwrapM_run _ _), bind_some e1, bind_some e2, bind_some e3,
      bind_some e4, bind_some e5, bind_some e6]
    rfl
  · refine ⟨y6, ⟨⟨?_, y6.native, ?_⟩, ?_, ?_⟩, o3.trans hr.o, ?_⟩
    · show Bd (rem'.overflows + 1) c6.wit rem'.limbs
      rw [l3, o3]
      exact hr6.ok.1.bound
    · show rem'.overflows < 64
      rw [o3, hr.o]
      norm_num
    · show rem'.overflows < 32
      rw [o3, hr.o]
      norm_num
    · show ((limbsVal c6.wit rem'.limbs : ℕ) : W) = _
      rw [l3, hr6.val]
    · show limbsVal c6.wit rem'.limbs = _
      rw [l3, hr6.val]

/-- An integer of residue `n` that is not below the modulus. -/
structure Loose (c : Ctx N) (a : AInt) (n : ℕ) : Prop where
  v : VInt c a
  bd : Bd (a.overflows + 1) c.wit a.limbs
  lt : a.overflows < 32
  big : fqMod ≤ limbsVal c.wit a.limbs
  mod : limbsVal c.wit a.limbs % fqMod = n

theorem Loose.forgeable {c : Ctx N} {a : AInt} {n : ℕ} (h : Loose c a n) (h0 : a.overflows ≠ 0) : Forgeable c a n :=
  ⟨h.v, h.bd.mono (by have := h.lt; omega), h0, by have := h.lt; omega, h.big, h.mod⟩

theorem Holding.loose {c : Ctx N} {a : AInt} {n : ℕ} (h : Holding c a (n + fqMod)) (hn : n < fqMod) : Loose c a n :=
  ⟨h.v, h.ok.1.bound, h.ok.2.1, by rw [h.val]; exact Nat.le_add_left _ _, by rw [h.val, Nat.add_mod_right, Nat.mod_eq_of_lt hn]⟩

theorem Loose.ext {c c' : Ctx N} {a : AInt} {n : ℕ} (h : Loose c a n) (he : Ext c c') : Loose c' a n := by
  have hl := limbsVal_ext h.v.valid he
  have hb := h.bd
  have : ∀ i, lv c'.wit (a.limbs i) = lv c.wit (a.limbs i) := fun i => by
    unfold lv
    rw [val_wit_ext (h.v.valid i) he]
  exact ⟨h.v.ext he, ⟨by rw [this]; exact hb.1, by rw [this]; exact hb.2, by rw [this]; exact hb.3, by rw [this]; exact hb.4⟩, h.lt,
    by rw [hl]; exact h.big, by rw [hl]; exact h.mod⟩

theorem small_lt : 2 ^ 68 < fqMod ∧ 2 ^ 68 + fqMod < 2 ^ 254 := by decide +kernel

/-- The difference of `t` and `b` with residue `n`: the residue may be left greater than the modulus. -/
theorem CSpec.isubForged (a b : AInt) (n : ℕ) (hn : n < 2 ^ 68) (h : a.overflows + b.overflows < 62) : CSpec tables (Circuit.isubForged a b)
    (fun c => HInt c a ∧ HInt c b ∧ residue c.wit a - residue c.wit b = (n : W))
    (fun c r => Loose c r n ∧ r.overflows = if a.overflows + b.overflows + 2 < 32 then a.overflows + b.overflows + 2 else 0) := by
  constructor
  rintro ctx hg ⟨ha, hb, hres⟩
  obtain ⟨up, hup, hz, g0, g0', g1, g1', g2, g2', g3, g3'⟩ := findWModulusCeil_spec hb.ann.counter
  obtain ⟨l0, l1, l2, l3, c0, c1, c2, c3, e0, e1, e2, e3, gg, x, hval, hv⟩ :=
    sum4_run (f := fun i => [(a.limbs i, 1), (b.limbs i, -1)]) (k := fun i => bnToN (up i)) hg
      (by have := ha.valid; have := hb.valid; simp [*])
  have ha' := ha.ext x
  have hb' := hb.ext x
  have hkk : a.overflows + (b.overflows + 1) + 1 + 1 = a.overflows + 1 + (b.overflows + 2) := by omega
  have hm : (a.overflows + 1 + (b.overflows + 2)) * 2 ^ 68 ≤ 2 ^ 253 := by
    have : a.overflows + 1 + (b.overflows + 2) ≤ 2 ^ 38 := by omega
    calc _ ≤ 2 ^ 38 * 2 ^ 68 := Nat.mul_le_mul_right _ this
      _ ≤ 2 ^ 253 := by norm_num
  have hm' : (a.overflows + 1 + (b.overflows + 2)) * 2 ^ 50 ≤ 2 ^ 253 :=
    le_trans (Nat.mul_le_mul_left _ (by norm_num)) hm
  obtain ⟨k0, b0⟩ := sub_limb (hv 0) ha'.ann.bound.b0 hb'.ann.bound.b0 (g0.trans (Nat.le_succ _)) g0' hm
  obtain ⟨k1, b1⟩ := sub_limb (hv 1) ha'.ann.bound.b1 hb'.ann.bound.b1 (g1.trans (Nat.le_succ _)) g1' hm
  obtain ⟨k2, b2⟩ := sub_limb (hv 2) ha'.ann.bound.b2 hb'.ann.bound.b2 (g2.trans (Nat.le_succ _)) g2' hm
  obtain ⟨k3, b3⟩ := sub_limb (hv 3) ha'.ann.bound.b3 hb'.ann.bound.b3 g3 g3' hm'
  have hvi : VInt c3 (AInt.new (vec4 l0 l1 l2 l3) (a.overflows + (b.overflows + 1) + 1)) := VInt.of_none hval rfl
  have hbd : Bd (a.overflows + (b.overflows + 1) + 1 + 1) c3.wit (vec4 l0 l1 l2 l3) := by
    rw [hkk]
    exact ⟨b0, b1, b2, b3⟩
  have e : limbsVal c3.wit (vec4 l0 l1 l2 l3) + limbsVal c3.wit b.limbs = limbsVal c3.wit a.limbs +
      (up 0 + 2 ^ 68 * up 1 + 2 ^ 136 * up 2 + 2 ^ 204 * up 3) := by
    unfold limbsVal
    linear_combination k0 + 2 ^ 68 * k1 + 2 ^ 136 * k2 + 2 ^ 204 * k3
  have hmod : limbsVal c3.wit (vec4 l0 l1 l2 l3) % fqMod = n := by
    have hc := congrArg (Nat.cast (R := W)) e
    rw [Nat.cast_add, Nat.cast_add (limbsVal c3.wit a.limbs), (ZMod.natCast_eq_zero_iff _ _).2 (Nat.dvd_of_mod_eq_zero hz), add_zero] at hc
    rw [← residue_ext ha x, ← residue_ext hb x] at hres
    have h2 : ((limbsVal c3.wit (vec4 l0 l1 l2 l3) : ℕ) : W) = (n : W) := by
      rw [← hres]
      exact eq_sub_of_add_eq hc
    have := (ZMod.natCast_eq_natCast_iff' _ _ _).1 h2
    rw [this, Nat.mod_eq_of_lt (hn.trans small_lt.1)]
  have hbig : fqMod ≤ limbsVal c3.wit (vec4 l0 l1 l2 l3) := by
    by_contra hlt
    rw [Nat.mod_eq_of_lt (not_le.1 hlt)] at hmod
    have h1 : 1 ≤ lv c3.wit (vec4 l0 l1 l2 l3 1) := by
      have := hb'.ann.bound.b1
      omega
    have h2 : 2 ^ 68 ≤ limbsVal c3.wit (vec4 l0 l1 l2 l3) := by
      unfold limbsVal
      omega
    omega
  have hrun : ∀ y, (if (AInt.new (vec4 l0 l1 l2 l3) (a.overflows + (b.overflows + 1) + 1)).overflows ≥ overflowThreshold then
      Circuit.reduceForged (AInt.new (vec4 l0 l1 l2 l3) (a.overflows + (b.overflows + 1) + 1))
      else Pure.pure (AInt.new (vec4 l0 l1 l2 l3) (a.overflows + (b.overflows + 1) + 1))) c3 = y → Circuit.isubForged a b ctx = y := by
    intro y hy
    unfold Circuit.isubForged Circuit.subLimb
    rw [hup, bind_some (unwrapM_run _ _), bind_some e0, bind_some e1, bind_some e2, bind_some e3]
    exact hy
  by_cases ho : a.overflows + (b.overflows + 1) + 1 ≥ overflowThreshold
  · obtain ⟨r, c4, e4, g4, x4, hr⟩ := (CSpec.reduceForged (AInt.new (vec4 l0 l1 l2 l3) (a.overflows + (b.overflows + 1) + 1)) n
      (by have := small_lt; omega)).run c3 gg ⟨hvi, hbd.mono (by omega), by simp [AInt.new], by simp only [AInt.new]; omega, hbig, hmod⟩
    refine ⟨r, c4, hrun _ ?_, g4, x.trans x4, hr.loose (hn.trans small_lt.1), ?_⟩
    · rw [if_pos (show (AInt.new _ _).overflows ≥ _ from ho)]
      exact e4
    · rw [hr.o, if_neg (by rw [show overflowThreshold = 32 from rfl] at ho; omega)]
  · refine ⟨_, c3, hrun _ ?_, gg, x, ⟨hvi, hbd, ?_, hbig, hmod⟩, ?_⟩
    · rw [if_neg (show ¬(AInt.new _ _).overflows ≥ _ from ho)]
      rfl
    · rw [show overflowThreshold = 32 from rfl] at ho
      simp only [AInt.new]
      omega
    · rw [show overflowThreshold = 32 from rfl] at ho
      simp only [AInt.new]
      rw [if_pos (by omega)]
      omega

theorem limbsVal_of {adv : Advice N} {l l' : Fin 4 → AV N} (h : ∀ i, lv adv (l i) = lv adv (l' i)) : limbsVal adv l = limbsVal adv l' := by
  unfold limbsVal
  rw [h, h, h, h]

theorem CSpec.ibisec_loose (k : AV N) (a b : AInt) (n : ℕ) (hk : k.value = 0) (hlt : a.overflows < 32) : CSpec tables (Circuit.ibisec k a b)
    (fun c => ValidAV c k ∧ (∀ i, ValidAV c (a.limbs i)) ∧ Loose c b n) (fun c r => Loose c r n ∧ a.overflows ≤ r.overflows ∧ b.overflows ≤ r.overflows) := by
  constructor
  rintro ctx hg ⟨hcv, ha, hb⟩
  obtain ⟨l0, c0, f0, g0, x0, y0, -⟩ := (CSpec.bisec (t := tables) k (a.limbs 0) (b.limbs 0)).run ctx hg
    ⟨hcv, ha 0, hb.v.valid 0⟩
  obtain ⟨l1, c1, f1, g1, x1, y1, -⟩ := (CSpec.bisec (t := tables) k (a.limbs 1) (b.limbs 1)).run c0 g0
    ⟨hcv.ext x0, (ha 1).ext x0, (hb.v.valid 1).ext x0⟩
  have x01 := x0.trans x1
  obtain ⟨l2, c2, f2, g2, x2, y2, -⟩ := (CSpec.bisec (t := tables) k (a.limbs 2) (b.limbs 2)).run c1 g1
    ⟨hcv.ext x01, (ha 2).ext x01, (hb.v.valid 2).ext x01⟩
  have x02 := x01.trans x2
  obtain ⟨l3, c3, f3, g3, x3, y3, -⟩ := (CSpec.bisec (t := tables) k (a.limbs 3) (b.limbs 3)).run c2 g2
    ⟨hcv.ext x02, (ha 3).ext x02, (hb.v.valid 3).ext x02⟩
  have x03 := x02.trans x3
  obtain ⟨o, ho⟩ : ∃ o, o = if a.overflows > b.overflows then a.overflows else b.overflows := ⟨_, rfl⟩
  have hrun : Circuit.ibisec k a b ctx = some (AInt.new (vec4 l0 l1 l2 l3) o, c3) := by
    unfold Circuit.ibisec
    simp only [bind_some f0, bind_some f1, bind_some f2, bind_some f3, ← ho]
    rfl
  have hv : ∀ i, ValidAV c3 ((AInt.new (vec4 l0 l1 l2 l3) o).limbs i) :=
    valid_vec4 (y0.ext (x1.trans (x2.trans x3))) (y1.ext (x2.trans x3)) (y2.ext x3) y3
  obtain ⟨-, -, q2, -, -⟩ := (Spec.ibisec k a b).run _ _ _ hrun _ g3.sat
  have vi : VInt c3 (AInt.new (vec4 l0 l1 l2 l3) o) := VInt.of_none hv rfl
  have hb3 := hb.ext x03
  have hoa : a.overflows ≤ o := by rw [ho]; split <;> omega
  have hob : b.overflows ≤ o := by rw [ho]; split <;> omega
  have ho32 : o < 32 := by
    have := hb.lt
    rw [ho]; split <;> omega
  have hq := q2 (by rw [val_wit (hcv.ext x03), hk])
  exact ⟨_, c3, hrun, g3, x03, ⟨vi, (hb3.bd.mono (by simp only [AInt.new]; omega)).congr hq, ho32, by rw [limbsVal_of hq]; exact hb3.big,
    by rw [limbsVal_of hq]; exact hb3.mod⟩, hoa, hob⟩

theorem Spec.bisecPoint_right (c : AV N) (a b : APt) : Spec tables (Circuit.bisecPoint c a b) (fun adv r =>
    c.val adv = 0 → residue adv r.x = residue adv b.x ∧ residue adv r.y = residue adv b.y ∧ r.z.val adv = b.z.val adv) := by
  constructor
  intro ctx r ctx' h adv hs
  unfold Circuit.bisecPoint at h
  simp only [bind_run, pure_run] at h
  obtain ⟨x, c1, h1, y, c2, h2, z, c3, h3, rfl, rfl⟩ := h
  obtain ⟨s2, p3⟩ := (Spec.bisecCond _ _ _).run _ _ _ h3 adv hs
  obtain ⟨s1, -, p2, -⟩ := (Spec.ibisec _ _ _).run _ _ _ h2 adv s2
  obtain ⟨s0, -, p1, -⟩ := (Spec.ibisec _ _ _).run _ _ _ h1 adv s1
  refine ⟨s0, fun hc => ⟨?_, ?_, p3.2 hc⟩⟩
  · unfold residue
    rw [limbsVal_of (p1 hc)]
  · unfold residue
    rw [limbsVal_of (p2 hc)]

/-- A point whose second coordinate has residue `n` and is not below the modulus. -/
structure LoosePt (c : Ctx N) (p : APt) (X : W) (n : ℕ) : Prop where
  x : HInt c p.x
  xo : EvenCount p.x.overflows
  xv : residue c.wit p.x = X
  y : Loose c p.y n
  z : ValidAV c p.z
  zv : p.z.value = 0

theorem CSpec.bisecPoint_loose (k : AV N) (a b : APt) (X : W) (n : ℕ) (hk : k.value = 0) (hax : EvenCount a.x.overflows)
    (hay : a.y.overflows < 32) : CSpec tables (Circuit.bisecPoint k a b)
      (fun c => ValidAV c k ∧ (HInt c a.x ∧ HInt c a.y ∧ ValidAV c a.z) ∧ LoosePt c b X n)
      (fun c r => LoosePt c r X n ∧ a.y.overflows ≤ r.y.overflows ∧ b.y.overflows ≤ r.y.overflows) := by
  constructor
  rintro ctx hg ⟨h1, ⟨a1, a2, a3⟩, hb⟩
  obtain ⟨x, c1, f1, g1, e1, p1⟩ := (CSpec.ibisec k a.x b.x (.inl hk)).run ctx hg ⟨h1, a1, hb.x⟩
  obtain ⟨y, c2, f2, g2, e2, p2, o2, o2'⟩ := (CSpec.ibisec_loose k a.y b.y n hk hay).run c1 g1
    ⟨h1.ext e1, fun i => (a2.valid i).ext e1, hb.y.ext e1⟩
  have e12 := e1.trans e2
  obtain ⟨z, c3, f3, g3, e3, p3, w3⟩ := (CSpec.bisec (t := tables) k a.z b.z).run c2 g2
    ⟨h1.ext e12, a3.ext e12, hb.z.ext e12⟩
  have hrun : Circuit.bisecPoint k a b ctx = some (⟨x, y, z, .none⟩, c3) := by
    unfold Circuit.bisecPoint Circuit.bisecCond
    rw [bind_some f1, bind_some f2, bind_some f3]
    rfl
  have e13 := e12.trans e3
  obtain ⟨-, q⟩ := (Spec.bisecPoint_right k a b).run _ _ _ hrun _ g3.sat
  obtain ⟨q, -, -⟩ := q (by rw [val_wit (h1.ext e13), hk])
  refine ⟨_, c3, hrun, g3, e13, ⟨p1.ext (e2.trans e3), ?_, ?_, p2.ext e3, p3, ?_⟩, o2, o2'⟩
  · dsimp only
    rw [ibisec_count f1]
    exact evenCount_max hax hb.xo
  · rw [q, residue_ext hb.x e13, hb.xv]
  · dsimp only
    rw [w3, hk, hb.zv]
    ring

/-- The sum of two points, its second coordinate left greater than the modulus. -/
theorem CSpec.pAddForged (a b : APt) (P Q : Pt) (n : ℕ) (hn : n < 2 ^ 68) (hP : P ≠ 0) (hQ : Q ≠ 0) (hPQ : P + Q ≠ 0)
    (hY : coordY (P + Q) = (n : W)) : CSpec tables (Circuit.pAddForged a b)
    (fun c => HQ c a P ∧ HOut c b Q ∧ (a.curv = none → Safe P))
    (fun c r => LoosePt c r.1 (coordX (P + Q)) n ∧ r.1.y.overflows ≠ 0) := by
  constructor
  rintro ctx hg ⟨ha0, hb0, hs0⟩
  have ha := ha0.hp
  have hb := hb0.hp
  have hs := fun h => ha0.safe (hs0 h)
  obtain ⟨dx, c1, f1, g1, e1, p1, o1⟩ := (CSpec.isub_even a.x b.x ha.xo hb.xo).run ctx hg ⟨ha.x, hb.x⟩
  obtain ⟨dy, c2, f2, g2, e2, p2⟩ := (CSpec.isub a.y b.y (by have := ha.yo.1; have := hb.yo; omega)).run c1 g1
    ⟨ha.y.ext e1, hb.y.ext e1⟩
  have o2 : dy.overflows < 32 := by rw [isub_ov f2]; split <;> omega
  obtain ⟨⟨xe, tg, dy', dx'⟩, c3, f3, g3, e3, p3, q3, o3, r3, -⟩ := (CSpec.idiv dy dx).run c2 g2 ⟨p2, p1.ext e2⟩
  dsimp only at p3 q3 o3 r3
  obtain ⟨-, k3⟩ := (Spec.idiv_val dy dx).run _ _ _ f3 _ g3.sat
  have p1' := p1.ext (e2.trans e3)
  have p2' := p2.ext e3
  obtain ⟨bx, -⟩ := k3 _ _ ⟨p2'.ann, o2, rfl⟩ ⟨p1'.ann, by have := o1.1; omega, rfl⟩
  have bitx : xe.value = 0 ∨ xe.value = 1 := by
    unfold IsBit at bx
    rw [val_wit p3] at bx
    rw [bx]
    split <;> simp
  obtain ⟨⟨ye, dy2⟩, c4, f4, g4, e4, p4, w4, -⟩ := (CSpec.iisZero dy').run c3 g3 r3
  dsimp only at p4 w4
  have bity : ye.value = 0 ∨ ye.value = 1 := by rw [w4]; split <;> simp
  obtain ⟨eq, c5, f5, g5, e5, p5, w5⟩ := (CSpec.mul (t := tables) xe ye).run c4 g4 ⟨p3.ext e4, p4⟩
  have biteq : eq.value = 0 ∨ eq.value = 1 := by
    rw [w5]
    rcases bitx with h | h <;> rcases bity with h' | h' <;> rw [h, h'] <;> simp
  have e15 := e1.trans (e2.trans (e3.trans (e4.trans e5)))
  obtain ⟨⟨k, a'⟩, c6, f6, g6, e6, hk, ha', -, -, hz', hkn⟩ := (CSpec.curvature a).run c5 g5 ⟨ha.ext e15, fun h => by
    have := hs h
    rw [residue_ext ha.x e15, residue_ext ha.y e15]
    exact this⟩
  dsimp only at hk ha' hkn hz'
  have e36 := e4.trans (e5.trans e6)
  have htg : HCv c6 ⟨tg, xe⟩ := ⟨q3.ext e36, by dsimp only; omega, p3.ext e36, bitx⟩
  obtain ⟨lam, c7, f7, g7, e7, hl⟩ := (CSpec.bisecCurv eq k ⟨tg, xe⟩ biteq).run c6 g6 ⟨p5.ext e6, hk, htg⟩
  have e17 := e15.trans (e6.trans e7)
  have h2 := ha'.ext e7
  have h3 := hb.ext e17
  -- the chain of `lambda_to_point` before its last step
  have hv : HV c7 lam.v (residue c7.wit lam.v) := ⟨hl.v, hl.lt, rfl⟩
  obtain ⟨⟨l2, l'⟩, d1, t1, i1, m1, u1, v1, u1', v1'⟩ := (CSpec.isquare_hv lam.v _).run c7 g7 hv
  dsimp only at u1 v1 u1' v1'
  obtain ⟨t, d2, t2, i2, m2, u2, v2⟩ := (CSpec.isub_even l2 a'.x (by rw [v1]; exact evenCount_zero) h2.xo).run d1 i1
    ⟨u1.h, h2.x.ext m1⟩
  have m12 := m1.trans m2
  obtain ⟨cx, d3, t3, i3, m3, u3, v3⟩ := (CSpec.isub_even t b.x v2 h3.xo).run d2 i2 ⟨u2, h3.x.ext m12⟩
  have m13 := m12.trans m3
  obtain ⟨tt, d4, t4, i4, m4, u4, v4⟩ := (CSpec.isub_even a'.x cx h2.xo v3).run d3 i3 ⟨h2.x.ext m13, u3⟩
  have ht2 : HV d4 tt (residue d4.wit tt) := ⟨u4, by have := v4.1; omega, rfl⟩
  obtain ⟨⟨s, w, w'⟩, d5, t5, i5, m5, u5, v5, -⟩ := (CSpec.imul_hv tt l' _ _).run d4 i4
    ⟨ht2, u1'.ext (m2.trans (m3.trans m4))⟩
  dsimp only at u5 v5
  have m15 := m13.trans (m4.trans m5)
  have ha5 := h2.ext m15
  have hb5 := h3.ext m15
  have u3' := u3.ext (m4.trans m5)
  have hlz := hl.z.ext m15
  have hzP : a'.z.value = 0 := by rw [hz', ha0.z, flagOf_ne hP]
  have hzQ : b.z.value = 0 := by
    rw [← val_wit hb.z]
    exact (hb0.rep.1.affine hQ).1
  -- what the honest run says of `s` and `cx`
  obtain ⟨hX, hS, hZ⟩ : residue d5.wit cx = coordX (P + Q) ∧ residue d5.wit s - residue d5.wit a'.y = (n : W) ∧ lam.z.value = 0 := by
    obtain ⟨cy, c6', f6', g6', e6', p6, o6⟩ := (CSpec.isub_even s a'.y (by rw [v5]; exact evenCount_zero) ha5.yo).run d5 i5
      ⟨u5.h, ha5.y⟩
    have hq : Circuit.lambdaToPoint lam a' b c7 = some (⟨cx, cy, lam.z, .none⟩, c6') := by
      unfold Circuit.lambdaToPoint
      rw [bind_some t1]
      dsimp only
      rw [bind_some t2, bind_some t3, bind_some t4, bind_some t5]
      dsimp only
      rw [bind_some f6']
      rfl
    have ha8 := ha5.ext e6'
    have hb8 := hb5.ext e6'
    obtain ⟨q1, c9, f9, g9, e9, hq1⟩ := (CSpec.bisecPoint_o a'.z b ⟨cx, cy, lam.z, .none⟩ ha8.bit hb8.bit hl.bit hb8.xo v3 hb8.yo
      (by have := o6.1; dsimp only; omega)).run c6' g6' ⟨ha8.z, ⟨hb8.x, hb8.y, hb8.z⟩, u3'.ext e6', p6, hlz.ext e6'⟩
    have hb9 := hb8.ext e9
    have ha9 := ha8.ext e9
    obtain ⟨q2, c10, f10, g10, e10, hq2⟩ := (CSpec.bisecPoint_o b.z a' q1 hb9.bit ha9.bit hq1.bit ha9.xo hq1.xo (by have := ha9.yo.1; omega) hq1.yo).run c9 g9
      ⟨hb9.z, ⟨ha9.x, ha9.y, ha9.z⟩, hq1.x, hq1.y, hq1.z⟩
    have hrun : Circuit.pAdd a b ctx = some ((q2, a'), c10) := by
      unfold Circuit.pAdd
      rw [bind_some f1, bind_some f2, bind_some f3]
      dsimp only
      rw [bind_some f4]
      dsimp only
      unfold Circuit.and
      rw [bind_some f5, bind_some f6]
      dsimp only
      rw [bind_some f7, bind_some hq, bind_some f9, bind_some f10]
      rfl
    have eall := e17.trans (m15.trans (e6'.trans (e9.trans e10)))
    obtain ⟨-, hsp⟩ := (Spec.pAdd' a b).run _ _ _ hrun _ g10.sat
    obtain ⟨⟨k1, -⟩, -⟩ := hsp P Q (ha0.ext eall).rep.1 (hb0.ext eall).rep.1 fun _ => (ha0.ext eall).rep.2
    obtain ⟨kz, ka⟩ := k1.affine hPQ
    obtain ⟨kx, ky⟩ := aff_unique ka
    dsimp only at kz kx ky
    obtain ⟨s9, n10⟩ := (Spec.bisecPoint_right _ _ _).run _ _ _ f10 _ g10.sat
    obtain ⟨s8, n9⟩ := (Spec.bisecPoint_right _ _ _).run _ _ _ f9 _ s9
    obtain ⟨nx, ny, nz⟩ := n10 (by rw [val_wit (hb9.z.ext e10), hzQ])
    obtain ⟨nx', ny', nz'⟩ := n9 (by rw [val_wit (ha9.z.ext e10), hzP])
    dsimp only at nx' ny' nz'
    have e610 := e6'.trans (e9.trans e10)
    refine ⟨?_, ?_, ?_⟩
    · rw [← kx, nx, nx', residue_ext u3' e610]
    · obtain ⟨-, hsub⟩ := (Spec.isub_val s a'.y).run _ _ _ f6' _ g6'.sat
      have := (hsub _ _ (u5.ext e6').ok ⟨(ha5.y.ext e6').ann, by have := ha5.yo.1; omega, rfl⟩).2.2
      rw [u5.val, ← residue_ext ha5.y e6', ← this, ← residue_ext p6 (e9.trans e10), ← ny', ← ny, ky, hY]
    · rw [← val_wit (hlz.ext e610), ← nz', ← nz, kz]
  -- the other run
  obtain ⟨cy, c6', f6', g6', e6', p6, o6⟩ := (CSpec.isubForged s a'.y n hn (by have := ha5.yo.1; omega)).run d5 i5
    ⟨u5.h, ha5.y, hS⟩
  have hq : Circuit.lambdaToPointForged lam a' b c7 = some (⟨cx, cy, lam.z, .none⟩, c6') := by
    unfold Circuit.lambdaToPointForged
    rw [bind_some t1]
    dsimp only
    rw [bind_some t2, bind_some t3, bind_some t4, bind_some t5]
    dsimp only
    rw [bind_some f6']
    rfl
  have ha8 := ha5.ext e6'
  have hb8 := hb5.ext e6'
  obtain ⟨q1, c9, f9, g9, e9, hq1, -, o9⟩ := (CSpec.bisecPoint_loose a'.z b ⟨cx, cy, lam.z, .none⟩ (coordX (P + Q)) n hzP hb8.xo hb8.yo).run c6' g6'
    ⟨ha8.z, ⟨hb8.x, hb8.y, hb8.z⟩, u3'.ext e6', v3, by rw [residue_ext u3' e6', hX], p6, hlz.ext e6', hZ⟩
  have hb9 := hb8.ext e9
  have ha9 := ha8.ext e9
  obtain ⟨q2, c10, f10, g10, e10, hq2, o10, o10'⟩ := (CSpec.bisecPoint_loose b.z a' q1 (coordX (P + Q)) n hzQ ha9.xo (by have := ha9.yo.1; omega)).run c9 g9
    ⟨hb9.z, ⟨ha9.x, ha9.y, ha9.z⟩, hq1⟩
  refine ⟨(q2, a'), c10, ?_, g10, e17.trans (m15.trans (e6'.trans (e9.trans e10))), hq2, ?_⟩
  · unfold Circuit.pAddForged
    rw [bind_some f1, bind_some f2, bind_some f3]
    dsimp only
    rw [bind_some f4]
    dsimp only
    unfold Circuit.and
    rw [bind_some f5, bind_some f6]
    dsimp only
    rw [bind_some f7, bind_some hq, bind_some f9, bind_some f10]
    rfl
  · dsimp only at o9 ⊢
    split at o6 <;> omega

theorem CSpec.pSubForged (a b : APt) (P Q : Pt) (n : ℕ) (hn : n < 2 ^ 68) (hP : P ≠ 0) (hQ : Q ≠ 0) (hPQ : P - Q ≠ 0)
    (hY : coordY (P - Q) = (n : W)) : CSpec tables (Circuit.pSubForged a b)
    (fun c => HQ c a P ∧ HQ c b Q ∧ (a.curv = none → Safe P))
    (fun c r => LoosePt c r.1 (coordX (P - Q)) n ∧ r.1.y.overflows ≠ 0) := by
  constructor
  rintro ctx hg ⟨ha, hb, hs⟩
  obtain ⟨nb, c1, f1, g1, e1, h1⟩ := (CSpec.pNeg_q b Q).run ctx hg hb
  rw [sub_eq_add_neg] at hPQ hY ⊢
  obtain ⟨r, c2, f2, g2, e2, h2⟩ := (CSpec.pAddForged a nb P (-Q) n hn hP (neg_ne_zero.2 hQ) hPQ hY).run c1 g1 ⟨ha.ext e1, h1, hs⟩
  refine ⟨r, c2, ?_, g2, e1.trans e2, h2⟩
  unfold Circuit.pSubForged
  rw [bind_some f1, f2]

end Verif.Circuit
