import Verif.Top.Expose

/-!
# The public form of the final pair: C48, C49
-/

namespace Verif.Top
open Verif.Circuit Verif.Ecc Verif.Sol

/-! ### Native code and contract -/

/-- The instance rows of two points, written down directly. -/
noncomputable def packPoints (P Q : Pt) : List N :=
  [((pack (coordX P).val (coordY P).val).1 : N), ((pack (coordX P).val (coordY P).val).2 : N),
    ((pack (coordX Q).val (coordY Q).val).1 : N), ((pack (coordX Q).val (coordY Q).val).2 : N)]

theorem limbs_low (x : W) : bnToLimbsN x.val 0 * limbExp 0 + bnToLimbsN x.val 1 * limbExp 1 = ((x.val % 2 ^ 136 : ℕ) : N) := by
  have hlt : x.val < 2 ^ 272 := (ZMod.val_lt x).trans (Sol.fqMod_lt.trans (Nat.pow_lt_pow_right (by norm_num) (by norm_num)))
  have e : x.val % 2 ^ 136 = bnToLimbs x.val 0 + 2 ^ 68 * bnToLimbs x.val 1 := by
    simp only [bnToLimbs, limbMod_eq, limbWidth_eq, Nat.shiftRight_eq_div_pow]
    omega
  have hv : ∀ i, bnToLimbsN x.val i = ((bnToLimbs x.val i : ℕ) : N) := fun i => by
    rw [← bnToLimbsN_val hlt, ZMod.natCast_zmod_val]
  rw [e, hv, hv, limbExp_eq, limbExp_eq]
  push_cast
  ring

theorem limbs_high (x y : W) : bnToLimbsN x.val 2 * limbExp 0 + bnToLimbsN x.val 3 * limbExp 1 +
    (if (bnToLimbsN y.val 0).val % 2 = 1 then limbExp 2 else 0) = ((x.val / 2 ^ 136 + 2 ^ 136 * (y.val % 2) : ℕ) : N) := by
  have hlt : ∀ x : W, x.val < 2 ^ 272 := fun x => (ZMod.val_lt x).trans (Sol.fqMod_lt.trans (Nat.pow_lt_pow_right (by norm_num) (by norm_num)))
  have e : x.val / 2 ^ 136 = bnToLimbs x.val 2 + 2 ^ 68 * bnToLimbs x.val 3 := by
    simp only [bnToLimbs, limbMod_eq, limbWidth_eq, Nat.shiftRight_eq_div_pow]
    have := hlt x
    omega
  have hv : ∀ i, bnToLimbsN x.val i = ((bnToLimbs x.val i : ℕ) : N) := fun i => by
    rw [← bnToLimbsN_val (hlt x), ZMod.natCast_zmod_val]
  have hp : (bnToLimbsN y.val 0).val % 2 = y.val % 2 := by
    rw [bnToLimbsN_val (hlt y)]
    simp only [bnToLimbs, limbMod_eq]
    omega
  rw [e, hv, hv, hp, limbExp_eq, limbExp_eq, limbExp_eq]
  rcases Nat.mod_two_eq_zero_or_one y.val with h | h
  · rw [h, if_neg (by norm_num)]
    push_cast
    ring
  · rw [h, if_pos rfl]
    push_cast
    ring

/-- C48: what `final_pair_to_instances` returns. -/
theorem C48_native {P Q : Pt} (hP : P ≠ 0) (hQ : Q ≠ 0) (rest : List N) : pairToInstances P Q rest = some (packPoints P Q ++ rest) := by
  unfold pairToInstances
  rw [if_neg (by tauto)]
  dsimp only
  rw [limbs_low, limbs_low, limbs_high, limbs_high]
  rfl

/-- `final_pair_to_instances` panics when a point is the identity. -/
theorem C48_native_identity {P Q : Pt} (h : P = 0 ∨ Q = 0) (rest : List N) : pairToInstances P Q rest = none := by
  unfold pairToInstances
  rw [if_pos h]

theorem contractPoint_toNat (x y : Word) : (contractPoint x y).1.toNat = (pack x.toNat y.toNat).1 ∧
    (contractPoint x y).2.toNat = (pack x.toNat y.toNat).2 := by
  have hx := x.isLt
  constructor
  · simp only [contractPoint, pack]
    rw [BitVec.toNat_and, show ((1#256 <<< 136) - 1#256).toNat = 2 ^ 136 - 1 by decide +kernel, Nat.and_two_pow_sub_one_eq_mod]
  · show ((x >>> 136) + ((y &&& 1#256) <<< 136)).toNat = x.toNat / 2 ^ 136 + 2 ^ 136 * (y.toNat % 2)
    have e1 : (y &&& 1#256).toNat = y.toNat % 2 := by
      rw [BitVec.toNat_and, show (1#256).toNat = 1 by decide +kernel, Nat.and_one_is_mod]
    have e2 : ((y &&& 1#256) <<< 136).toNat = 2 ^ 136 * (y.toNat % 2) := by
      rw [BitVec.toNat_shiftLeft, e1, Nat.shiftLeft_eq, Nat.mul_comm, Nat.mod_eq_of_lt]
      omega
    rw [BitVec.toNat_add, BitVec.toNat_ushiftRight, e2, Nat.shiftRight_eq_div_pow, Nat.mod_eq_of_lt]
    omega

/-- C48: for the words of two points the contract computes the same rows. -/
theorem C48_contract (P Q : Pt) (rest : List N) (size : ℕ) (hs : size = 4 + rest.length) :
    contractInstances size ([(g1Words P).1, (g1Words P).2, (g1Words Q).1, (g1Words Q).2] ++ rest.map wordOf) =
      some ((packPoints P Q ++ rest).map wordOf) := by
  have hw : ∀ P : Pt, (contractPoint (g1Words P).1 (g1Words P).2).1 = wordOf ((pack (coordX P).val (coordY P).val).1 : N) ∧
      (contractPoint (g1Words P).1 (g1Words P).2).2 = wordOf ((pack (coordX P).val (coordY P).val).2 : N) := by
    intro P
    obtain ⟨h1, h2⟩ := contractPoint_toNat (g1Words P).1 (g1Words P).2
    have hx : (g1Words P).1.toNat = (coordX P).val := coord_toNat _
    have hy : (g1Words P).2.toNat = (coordY P).val := coord_toNat _
    rw [hx, hy] at h1 h2
    have hlt := pack_lt (x := (coordX P).val) (y := (coordY P).val) ((ZMod.val_lt _).trans (by unfold fqMod; norm_num))
    constructor <;> apply BitVec.eq_of_toNat_eq <;> rw [wordOf_toNat, ZMod.val_cast_of_lt]
    · exact h1
    · exact hlt.1
    · exact h2
    · exact hlt.2
  unfold contractInstances
  rw [if_neg (by simp; omega)]
  simp only [List.cons_append, List.nil_append]
  rw [(hw P).1, (hw P).2, (hw Q).1, (hw Q).2, hs, Nat.add_sub_cancel_left, List.take_of_length_le (by simp)]
  simp [packPoints]

/-! ### The rows determine the points -/

theorem fq_odd : fqMod % 2 = 1 := by decide +kernel

/-- Two points with one `x` are equal or opposite; the parity of `y` tells which. -/
theorem same_or_neg {P Q : Pt} {x y y' : Fq} (hP : Aff P x y) (hQ : Aff Q x y') : P = Q ∨ P = -Q := by
  rcases hP.y_eq hQ with h | h
  · left
    exact hP.ext (hQ.congr rfl h.symm)
  · right
    exact hP.ext (hQ.neg.congr rfl h.symm)

theorem neg_parity {y : Fq} (h : y ≠ 0) : (-y).val % 2 ≠ y.val % 2 := by
  rw [ZMod.neg_val, if_neg h]
  have := ZMod.val_lt y
  have := fq_odd
  omega

theorem pack_points {P Q : Pt} (hP : P ≠ 0) (hQ : Q ≠ 0)
    (h : pack (coordX P).val (coordY P).val = pack (coordX Q).val (coordY Q).val) : P = Q := by
  have hlt : ∀ x : W, x.val < 2 ^ 272 := fun x => (ZMod.val_lt x).trans (Sol.fqMod_lt.trans (Nat.pow_lt_pow_right (by norm_num) (by norm_num)))
  obtain ⟨hx, hy⟩ := pack_injective (hlt _) (hlt _) h
  have aP := coords_aff hP
  have aQ := coords_aff hQ
  have hx' : coordX P = coordX Q := ZMod.val_injective _ hx
  rcases same_or_neg (aP.congr hx' rfl) aQ with e | e
  · exact e
  · exfalso
    have := (aP.unique (aQ.neg.congr rfl rfl |> fun h => by rw [e]; exact h)).2
    rw [this] at hy
    exact neg_parity aQ.y_ne hy

/-- C48: the rows of two points determine them. -/
theorem C48_injective {P Q P' Q' : Pt} (hP : P ≠ 0) (hQ : Q ≠ 0) (hP' : P' ≠ 0) (hQ' : Q' ≠ 0) {rest rest' : List N}
    (h : pairToInstances P Q rest = pairToInstances P' Q' rest') : P = P' ∧ Q = Q' ∧ rest = rest' := by
  rw [C48_native hP hQ, C48_native hP' hQ'] at h
  simp only [packPoints, List.cons_append, List.nil_append, Option.some.injEq, List.cons.injEq] at h
  obtain ⟨h1, h2, h3, h4, h5⟩ := h
  have hlt : ∀ P : Pt, _ := fun P => pack_lt (x := (coordX P).val) (y := (coordY P).val) ((ZMod.val_lt _).trans (by unfold fqMod; norm_num))
  refine ⟨pack_points hP hP' (Prod.ext (cast_inj_of_lt (hlt P).1 (hlt P').1 h1) (cast_inj_of_lt (hlt P).2 (hlt P').2 h2)),
    pack_points hQ hQ' (Prod.ext (cast_inj_of_lt (hlt Q).1 (hlt Q').1 h3) (cast_inj_of_lt (hlt Q).2 (hlt Q').2 h4)), h5⟩

example : pairToInstances gen gen [7] = some [1, 0, 1, 0, 7] := by
  rw [C48_native gen_ne_zero gen_ne_zero]
  decide +kernel

/-! ### The circuit -/

theorem exposes_up_to_sign {P Q P' Q' : Pt} (h : Exposes (packPoints P' Q') P Q) (hP' : P' ≠ 0) (hQ' : Q' ≠ 0) :
    (P = P' ∨ P = -P') ∧ (Q = Q' ∨ Q = -Q') := by
  obtain ⟨x, y, x', y', hx, hy, hx', hy', aP, aQ, e⟩ := h
  simp only [packPoints, List.cons.injEq] at e
  obtain ⟨h1, h2, h3, h4, -⟩ := e
  have hlt : ∀ P : Pt, _ := fun P => pack_lt (x := (coordX P).val) (y := (coordY P).val) ((ZMod.val_lt _).trans (by unfold fqMod; norm_num))
  have big : ∀ x : W, x.val < 2 ^ 272 := fun x => (ZMod.val_lt x).trans (Sol.fqMod_lt.trans (Nat.pow_lt_pow_right (by norm_num) (by norm_num)))
  have key : ∀ {P P' : Pt} {x y : ℕ}, P' ≠ 0 → x < 2 ^ 254 → Aff P (x : Fq) (y : Fq) → ((pack (coordX P').val (coordY P').val).1 : N) = ((pack x y).1 : N) →
      ((pack (coordX P').val (coordY P').val).2 : N) = ((pack x y).2 : N) → P = P' ∨ P = -P' := by
    intro P P' x y hP' hx aP h1 h2
    obtain ⟨e1, -⟩ := pack_injective (big (coordX P')) (hx.trans (Nat.pow_lt_pow_right (by norm_num) (by norm_num)))
      (Prod.ext (cast_inj_of_lt (hlt P').1 (pack_lt hx).1 h1) (cast_inj_of_lt (hlt P').2 (pack_lt hx).2 h2))
    refine same_or_neg (aP.congr ?_ rfl) (coords_aff hP')
    rw [← e1, ZMod.natCast_zmod_val]
  exact ⟨key hP' hx aP h1 h2, key hQ' hx' aQ h3 h4⟩

/-- The circuit exposes numbers that stand for the coordinates. Together with rows that a contract call with the points `P'`, `Q'` asks for,
it follows that the points of the circuit are `P'`, `Q'` up to sign. Missing from C48: the sign (`C48_sign_forgeable`). -/
theorem C48_up_to_sign_partial {p q : APt} {ctx ctx' : Ctx N} {rows : List (AV N)} {adv : Advice N} (h : exposePair p q ctx = some (rows, ctx'))
    (hs : Sat tables ctx' adv) {P Q : Pt} (hP : P ≠ 0) (hQ : Q ≠ 0) (sP : StandsFor adv p P) (sQ : StandsFor adv q Q)
    {P' Q' : Pt} (hP' : P' ≠ 0) (hQ' : Q' ≠ 0) (hrows : rows.map (fun c => c.val adv) = packPoints P' Q') :
    (P = P' ∨ P = -P') ∧ (Q = Q' ∨ Q = -Q') :=
  exposes_up_to_sign (hrows ▸ ((Spec.exposePair p q).run _ _ _ h _ hs).2.2 P Q hP hQ sP sQ) hP' hQ'

/-- The points are the right ones if the circuit holds canonical coordinates `y`; only `y` below `2^254 - w` has a second form. -/
theorem C48_canonical_partial {p q : APt} {ctx ctx' : Ctx N} {rows : List (AV N)} {adv : Advice N} (h : exposePair p q ctx = some (rows, ctx'))
    (hs : Sat tables ctx' adv) {P Q : Pt} (hP : P ≠ 0) (hQ : Q ≠ 0) (sP : StandsFor adv p P) (sQ : StandsFor adv q Q)
    (cP : 2 ^ 254 ≤ (coordY P).val + fqMod) (cQ : 2 ^ 254 ≤ (coordY Q).val + fqMod)
    {P' Q' : Pt} (hP' : P' ≠ 0) (hQ' : Q' ≠ 0) (hrows : rows.map (fun c => c.val adv) = packPoints P' Q') : P = P' ∧ Q = Q' := by
  obtain ⟨x, y, x', y', hx, hy, hx', hy', aP, aQ, e⟩ := ((Spec.exposePair p q).run _ _ _ h _ hs).2.2 P Q hP hQ sP sQ
  rw [e] at hrows
  simp only [packPoints, List.cons.injEq] at hrows
  obtain ⟨h1, h2, h3, h4, -⟩ := hrows
  have hlt : ∀ P : Pt, _ := fun P => pack_lt (x := (coordX P).val) (y := (coordY P).val) ((ZMod.val_lt _).trans (by unfold fqMod; norm_num))
  have big : ∀ x : W, x.val < 2 ^ 272 := fun x => (ZMod.val_lt x).trans (Sol.fqMod_lt.trans (Nat.pow_lt_pow_right (by norm_num) (by norm_num)))
  have key : ∀ {P P' : Pt} {x y : ℕ}, P ≠ 0 → P' ≠ 0 → x < 2 ^ 254 → y < 2 ^ 254 → 2 ^ 254 ≤ (coordY P).val + fqMod → Aff P (x : Fq) (y : Fq) →
      ((pack x y).1 : N) = ((pack (coordX P').val (coordY P').val).1 : N) →
      ((pack x y).2 : N) = ((pack (coordX P').val (coordY P').val).2 : N) → P = P' := by
    intro P P' x y hP hP' hx hy hc aP h1 h2
    have hpk := Prod.ext (cast_inj_of_lt (pack_lt hx).1 (hlt P').1 h1) (cast_inj_of_lt (pack_lt hx).2 (hlt P').2 h2)
    obtain ⟨ex, ey⟩ := aP.unique (coords_aff hP)
    have hyv : (coordY P).val = y := by
      rw [← ey, ZMod.val_natCast]
      rw [← ey, ZMod.val_natCast] at hc
      have h2p : 2 ^ 254 < 2 * fqMod := by decide +kernel
      have := Nat.div_add_mod y fqMod
      have hd : y / fqMod < 2 := Nat.div_lt_of_lt_mul (by omega)
      interval_cases hq : y / fqMod <;> omega
    have hxv : (coordX P).val = x := by
      have := (pack_injective (hx.trans (Nat.pow_lt_pow_right (by norm_num) (by norm_num))) (big (coordX P')) hpk).1
      rw [← ex, this, ZMod.natCast_zmod_val]
    exact pack_points hP hP' (by rw [hxv, hyv]; exact hpk)
  exact ⟨key hP hP' hx hy cP aP h1 h2, key hQ hQ' hx' hy' cQ aQ h3 h4⟩

/-! #### Runs -/

/-- The integer will be read as the number `n`: it is reduced and holds `n`, or it is an honest one. -/
def Reads (c : Ctx N) (a : AInt) (n : ℕ) : Prop := Holding c a n ∨ ∃ v, HV c a v ∧ n = v.val

theorem Reads.ext {c c' : Ctx N} {a : AInt} {n : ℕ} (h : Reads c a n) (he : Ext c c') : Reads c' a n := by
  rcases h with h | ⟨v, h, e⟩
  · exact .inl (h.ext he)
  · exact .inr ⟨v, h.ext he, e⟩

theorem CSpec.reduce_reads (a : AInt) (n : ℕ) : CSpec tables (reduce a) (fun c => Reads c a n) (fun c r => Holding c r n) := by
  constructor
  intro ctx hg h
  rcases h with h | ⟨v, h, e⟩
  · refine ⟨a, ctx, ?_, hg, Ext.refl _, h⟩
    unfold Circuit.reduce
    rw [if_pos h.o]
    rfl
  · obtain ⟨r, c, e1, g, x, v1, o1, l1, m1⟩ := (CSpec.reduceH a).run ctx hg h.h
    have hval : limbsVal c.wit r.limbs = n := by
      have h2 := (h.ext x).val
      unfold residue at h2
      rw [e, ← h2, ZMod.val_natCast, ← m1, Nat.mod_eq_of_lt l1]
    refine ⟨r, c, e1, g, x, v1.vint, ⟨v1.ann, by omega, ?_⟩, o1, hval⟩
    unfold residue
    rw [hval]

theorem _root_.Verif.Circuit.Holding.bd {c : Ctx N} {a : AInt} {n : ℕ} (h : Holding c a n) : Bd 1 c.wit a.limbs := by
  have := h.ok.1.bound
  rwa [h.o] at this

theorem CSpec.getLastBit_holding (a : AInt) (n : ℕ) : CSpec tables (getLastBit a) (fun c => Holding c a n)
    (fun c r => ValidAV c r ∧ r.value = ((n % 2 : ℕ) : N)) := by
  constructor
  intro ctx hg h
  obtain ⟨r, c, e, g, x, v⟩ := (CSpec.getLastBit' a).run ctx hg ⟨h.v.valid 0, by
    have := h.bd.b0
    rwa [lv_wit (h.v.valid 0), one_mul] at this⟩
  have := ((Spec.getLastBit a).run _ _ _ e _ g.sat).2
  rw [(h.ext x).val, val_wit v] at this
  exact ⟨r, c, e, g, x, v, this⟩

theorem CSpec.exposePoint_holding (a : AInt) (b : AV N) (n m : ℕ) : CSpec tables (exposePoint a b)
    (fun c => Holding c a n ∧ ValidAV c b ∧ b.value = ((m % 2 : ℕ) : N))
    (fun c r => ValidAV c r.1 ∧ ValidAV c r.2 ∧ r.1.value = ((pack n m).1 : N) ∧ r.2.value = ((pack n m).2 : N)) := by
  constructor
  rintro ctx hg ⟨ha, hb, hv⟩
  obtain ⟨l, c1, e1, g1, x1, v1, -⟩ := (CSpec.sumWithConstant (t := tables) [(a.limbs 0, limbExp 0), (a.limbs 1, limbExp 1)] 0).run ctx hg
    (by simp [ha.v.valid])
  obtain ⟨h, c2, e2, g2, x2, v2, -⟩ := (CSpec.sumWithConstant (t := tables) [(a.limbs 2, limbExp 0), (a.limbs 3, limbExp 1), (b, limbExp 2)] 0).run c1 g1
    (by simp [(ha.ext x1).v.valid, hb.ext x1])
  have hrun : exposePoint a b ctx = some ((l, h), c2) := by
    unfold exposePoint
    rw [bind_some e1, bind_some e2]
    rfl
  have ha2 := ha.ext (x1.trans x2)
  have := ((Spec.exposePoint a b).run _ _ _ hrun _ g2.sat).2 m ha2.bd (by rw [val_wit (hb.ext (x1.trans x2)), hv])
  rw [ha2.val, val_wit v2, val_wit (v1.ext x2)] at this
  exact ⟨(l, h), c2, hrun, g2, x1.trans x2, v1.ext x2, v2, this⟩

/-- Running the exposing code: the rows pack the numbers held. -/
theorem CSpec.exposePair_reads (p q : APt) (x y x' y' : ℕ) : CSpec tables (exposePair p q)
    (fun c => Reads c p.x x ∧ Reads c p.y y ∧ Reads c q.x x' ∧ Reads c q.y y')
    (fun c r => r.map (fun a => a.val c.wit) = [((pack x y).1 : N), ((pack x y).2 : N), ((pack x' y').1 : N), ((pack x' y').2 : N)]) := by
  constructor
  rintro ctx hg ⟨h1, h2, h3, h4⟩
  obtain ⟨r1, c1, e1, g1, x1, k1⟩ := (CSpec.reduce_reads p.x x).run ctx hg h1
  obtain ⟨r2, c2, e2, g2, x2, k2⟩ := (CSpec.reduce_reads p.y y).run c1 g1 (h2.ext x1)
  obtain ⟨r3, c3, e3, g3, x3, k3⟩ := (CSpec.reduce_reads q.x x').run c2 g2 (h3.ext (x1.trans x2))
  obtain ⟨r4, c4, e4, g4, x4, k4⟩ := (CSpec.reduce_reads q.y y').run c3 g3 (h4.ext (x1.trans (x2.trans x3)))
  obtain ⟨b1, c5, e5, g5, x5, k5, w5⟩ := (CSpec.getLastBit_holding r2 y).run c4 g4 (k2.ext (x3.trans x4))
  obtain ⟨b2, c6, e6, g6, x6, k6, w6⟩ := (CSpec.getLastBit_holding r4 y').run c5 g5 (k4.ext x5)
  obtain ⟨⟨l1, t1⟩, c7, e7, g7, x7, v7, v7', w7, w7'⟩ := (CSpec.exposePoint_holding r1 b1 x y).run c6 g6
    ⟨k1.ext (x2.trans (x3.trans (x4.trans (x5.trans x6)))), k5.ext x6, w5⟩
  obtain ⟨⟨l2, t2⟩, c8, e8, g8, x8, v8, v8', w8, w8'⟩ := (CSpec.exposePoint_holding r3 b2 x' y').run c7 g7
    ⟨k3.ext (x4.trans (x5.trans (x6.trans x7))), k6.ext x7, w6⟩
  refine ⟨[l1, t1, l2, t2], c8, ?_, g8, x1.trans (x2.trans (x3.trans (x4.trans (x5.trans (x6.trans (x7.trans x8)))))), ?_⟩
  · unfold exposePair
    have hodd : (assertM (fqMod % 2 = 1) : M N Unit) c4 = some ((), c4) := if_pos fq_odd
    rw [bind_some e1, bind_some e2, bind_some e3, bind_some e4, bind_some hodd, bind_some e5, bind_some e6, bind_some e7]
    dsimp only
    rw [bind_some e8]
    rfl
  · dsimp only at v7 v7' v8 v8' w7 w7' w8 w8'
    rw [← w7, ← w7', ← w8, ← w8', ← val_wit (v7.ext x8), ← val_wit (v7'.ext x8), ← val_wit v8, ← val_wit v8']
    rfl

/-- C48: in an honest run the circuit exposes what `final_pair_to_instances` computes. -/
theorem C48_honest {p q : APt} {ctx : Ctx N} (hg : Good tables ctx) {P Q : Pt} (hP : P ≠ 0) (hQ : Q ≠ 0)
    (hp : HPt ctx p (coordX P) (coordY P) 0) (hq : HPt ctx q (coordX Q) (coordY Q) 0) :
    ∃ rows ctx', exposePair p q ctx = some (rows, ctx') ∧ Sat tables ctx' ctx'.wit ∧
      some (rows.map fun c => c.val ctx'.wit) = pairToInstances P Q [] := by
  obtain ⟨r, c, e, g, -, h⟩ := (CSpec.exposePair_reads p q (coordX P).val (coordY P).val (coordX Q).val (coordY Q).val).run ctx hg
    ⟨.inr ⟨_, hp.x, rfl⟩, .inr ⟨_, hp.y, rfl⟩, .inr ⟨_, hq.x, rfl⟩, .inr ⟨_, hq.y, rfl⟩⟩
  refine ⟨r, c, e, g.sat, ?_⟩
  rw [C48_native hP hQ, h, List.append_nil]
  rfl

/-- A circuit that reads two points and exposes them. -/
def readExpose (P Q : Pt) : M N (APt × APt × List (AV N)) := do
  let p ← assignPoint P
  let q ← assignPoint Q
  let r ← exposePair p q
  return (p, q, r)

/-- The same rows, other numbers. -/
def limbsExpose (x y x' y' : ℕ) : M N (APt × APt × List (AV N)) := do
  let p ← assignPointLimbs x y 0
  let q ← assignPointLimbs x' y' 0
  let r ← exposePair p q
  return (p, q, r)

theorem Rel.exposePoint {a a' : AInt} {b b' : AV N} (ha : SameCells a a') (hb : SameCell b b') :
    Rel (Top.exposePoint a b) (Top.exposePoint a' b') fun r r' => SameCell r.1 r'.1 ∧ SameCell r.2 r'.2 :=
  (Rel.sumWithConstant (.cons ⟨ha.limbs 0, rfl⟩ (.cons ⟨ha.limbs 1, rfl⟩ .nil) : SameTerms [(a.limbs 0, limbExp 0), (a.limbs 1, limbExp 1)] [(a'.limbs 0, limbExp 0), (a'.limbs 1, limbExp 1)]) _).bind fun _ _ h1 =>
    (Rel.sumWithConstant (.cons ⟨ha.limbs 2, rfl⟩ (.cons ⟨ha.limbs 3, rfl⟩ (.cons ⟨hb, rfl⟩ .nil)) : SameTerms [(a.limbs 2, limbExp 0), (a.limbs 3, limbExp 1), (b, limbExp 2)] [(a'.limbs 2, limbExp 0), (a'.limbs 3, limbExp 1), (b', limbExp 2)]) _).bind fun _ _ h2 => Rel.pure ⟨h1, h2⟩

theorem Rel.exposePair {p p' q q' : APt} (hp : SamePt p p') (hq : SamePt q q') :
    Rel (Top.exposePair p q) (Top.exposePair p' q') (List.Forall₂ SameCell) :=
  (Rel.reduce hp.x).bind fun _ _ h1 => (Rel.reduce hp.y).bind fun _ _ h2 => (Rel.reduce hq.x).bind fun _ _ h3 =>
    (Rel.reduce hq.y).bind fun _ _ h4 => Rel.assertM.bind fun _ _ _ => (Rel.getLastBit h2).bind fun _ _ h5 =>
    (Rel.getLastBit h4).bind fun _ _ h6 => (Rel.exposePoint h1 h5).bind fun _ _ h7 => (Rel.exposePoint h3 h6).bind fun _ _ h8 =>
    Rel.pure (.cons h7.1 (.cons h7.2 (.cons h8.1 (.cons h8.2 .nil))))

theorem Rel.readExpose (P Q : Pt) (x y x' y' : ℕ) : Rel (Top.readExpose P Q) (Top.limbsExpose x y x' y')
    fun r r' => SamePt r.1 r'.1 ∧ SamePt r.2.1 r'.2.1 ∧ List.Forall₂ SameCell r.2.2 r'.2.2 :=
  (Rel.assignPointLimbs _ _ _ _ _ _).bind fun _ _ h1 => (Rel.assignPointLimbs _ _ _ _ _ _).bind fun _ _ h2 =>
    (Rel.exposePair h1 h2).bind fun _ _ h3 => Rel.pure ⟨h1, h2, h3⟩

theorem limbsExpose_run {x y x' y' : ℕ} (hx : x < 2 ^ 254) (hy : y < 2 ^ 254) (hx' : x' < 2 ^ 254) (hy' : y' < 2 ^ 254)
    (h : (y : W) ^ 2 = (x : W) ^ 3 + 3) (h' : (y' : W) ^ 2 = (x' : W) ^ 3 + 3) : ∃ p q r ctx, limbsExpose x y x' y' Ctx.empty = some ((p, q, r), ctx) ∧
      Good tables ctx ∧ Holding ctx p.x x ∧ Holding ctx p.y y ∧ p.z.val ctx.wit = 0 ∧ p.curv = none ∧
      Holding ctx q.x x' ∧ Holding ctx q.y y' ∧ q.z.val ctx.wit = 0 ∧ q.curv = none ∧
      r.map (fun a => a.val ctx.wit) = [((pack x y).1 : N), ((pack x y).2 : N), ((pack x' y').1 : N), ((pack x' y').2 : N)] := by
  obtain ⟨p, c1, e1, g1, x1, px, py, pz, pv, pc⟩ := (CSpec.assignPointLimbs hx hy 0 (.inl h)).run Ctx.empty good_empty trivial
  obtain ⟨q, c2, e2, g2, x2, qx, qy, qz, qv, qc⟩ := (CSpec.assignPointLimbs hx' hy' 0 (.inl h')).run c1 g1 trivial
  obtain ⟨r, c3, e3, g3, x3, hr⟩ := (CSpec.exposePair_reads p q x y x' y').run c2 g2 ⟨.inl (px.ext x2), .inl (py.ext x2), .inl qx, .inl qy⟩
  refine ⟨p, q, r, c3, ?_, g3, px.ext (x2.trans x3), py.ext (x2.trans x3), ?_, pc, qx.ext x3, qy.ext x3, ?_, qc, hr⟩
  · unfold limbsExpose
    rw [bind_some e1, bind_some e2, bind_some e3]
    rfl
  · rw [val_wit (pz.ext (x2.trans x3)), pv]
  · rw [val_wit (qz.ext x3), qv]

theorem same_vals {l l' : List (AV N)} {adv : Advice N} (h : List.Forall₂ SameCell l l') :
    (l.map fun c => c.val adv) = l'.map fun c => c.val adv := by
  induction h with
  | nil => rfl
  | cons h _ ih => rw [List.map_cons, List.map_cons, val_sameCell h, ih]

theorem Aff.cast {P : Pt} (h : P ≠ 0) {x y : ℕ} (hx : (x : W) = coordX P) (hy : (y : W) = coordY P) : Aff P (x : Fq) (y : Fq) :=
  (coords_aff h).congr hx.symm hy.symm

/-- C48 as stated is false: if the coordinate `y` of `P` has a second form (`y + w < 2^254`, the case for a third of all points), the circuit
that reads `P` and `Q` and exposes them has a satisfying assignment in which the points read are `P` and `Q`, but the rows are those of
`-P` and `Q`. The contract then checks the pairing for `-P`. -/
theorem C48_sign_forgeable {P Q : Pt} (hP : P ≠ 0) (hQ : Q ≠ 0) (hy : (coordY P).val + fqMod < 2 ^ 254) :
    ∃ p q r ctx, readExpose P Q Ctx.empty = some ((p, q, r), ctx) ∧ ∃ adv, Sat tables ctx adv ∧ StandsFor adv p P ∧ StandsFor adv q Q ∧
      some (r.map fun c => c.val adv) = pairToInstances (-P) Q [] := by
  have aP := coords_aff hP
  have aQ := coords_aff hQ
  have small : ∀ x : W, x.val < 2 ^ 254 := fun x => (ZMod.val_lt x).trans (by unfold fqMod; norm_num)
  have cy : (((coordY P).val + fqMod : ℕ) : W) = coordY P := by
    rw [Nat.cast_add, ZMod.natCast_self, add_zero, ZMod.natCast_zmod_val]
  -- the circuit exists
  have hfl : ∀ {P : Pt}, P ≠ 0 → flagOf P = 0 := by
    intro P hP
    cases P with
    | zero => exact absurd rfl hP
    | some => rfl
  obtain ⟨p1, d1, f1, k1, y1, hp1, -⟩ := (CSpec.assignPointRaw (coordX P) (coordY P) (flagOf P) (.inl aP.eqn)).run Ctx.empty good_empty trivial
  obtain ⟨q1, d2, f2, k2, y2, hq1, -⟩ := (CSpec.assignPointRaw (coordX Q) (coordY Q) (flagOf Q) (.inl aQ.eqn)).run d1 k1 trivial
  obtain ⟨r1, d3, f3, k3, y3, -⟩ := (CSpec.exposePair_reads p1 q1 _ _ _ _).run d2 k2
    ⟨.inr ⟨_, hp1.x.ext y2, rfl⟩, .inr ⟨_, hp1.y.ext y2, rfl⟩, .inr ⟨_, hq1.x, rfl⟩, .inr ⟨_, hq1.y, rfl⟩⟩
  have hrun : readExpose P Q Ctx.empty = some ((p1, q1, r1), d3) := by
    unfold readExpose assignPoint
    rw [bind_some f1, bind_some f2, bind_some f3]
    rfl
  -- the other assignment
  obtain ⟨p, q, r, ctx, e, g, hpx, hpy, hpz, hpc, hqx, hqy, hqz, hqc, hr⟩ := limbsExpose_run (small (coordX P)) hy (small (coordX Q)) (small (coordY Q))
    (by rw [cy, ZMod.natCast_zmod_val]; exact aP.eqn) (by rw [ZMod.natCast_zmod_val, ZMod.natCast_zmod_val]; exact aQ.eqn)
  obtain ⟨hsame, hp, hq, hrr⟩ := (Rel.readExpose P Q _ _ _ _).run _ _ (SameCircuit.refl _) _ _ _ _ hrun e
  obtain ⟨s1, s2⟩ := g.sat
  have same : ∀ {a a' : AInt} {n : ℕ} {v : W}, SameCells a a' → Holding ctx a' n → (n : W) = v → IntGood ctx.wit a ∧ residue ctx.wit a = v := by
    intro a a' n v ha h hv
    have hl : ∀ i, lv ctx.wit (a.limbs i) = lv ctx.wit (a'.limbs i) := fun i => by
      unfold lv
      rw [val_sameCell (ha.limbs i)]
    have hval : limbsVal ctx.wit a.limbs = limbsVal ctx.wit a'.limbs := limbsVal_congr hl
    refine ⟨⟨⟨?_, ?_, by rw [ha.overflows]; exact h.ok.1.counter⟩, by rw [ha.overflows]; exact h.ok.2.1⟩, ?_⟩
    · rw [ha.overflows]
      exact h.ok.1.bound.congr hl
    · intro c hc
      have hn := ha.native
      rw [hc] at hn
      cases hn' : a'.native with
      | none => rw [hn'] at hn; cases hn
      | some c' =>
        rw [hn'] at hn
        cases hn with
        | some hcc =>
          rw [val_sameCell hcc, hval]
          exact h.v.native c' hn'
    · unfold residue
      rw [hval, h.val, hv]
  have curv : ∀ {o o' : Option ACurv}, Option.Rel SameCurv o o' → o' = none → o = none := by
    intro o o' h h'
    subst h'
    cases h
    rfl
  obtain ⟨px1, px2⟩ := same hp.x hpx (ZMod.natCast_zmod_val _)
  obtain ⟨py1, py2⟩ := same hp.y hpy cy
  obtain ⟨qx1, qx2⟩ := same hq.x hqx (ZMod.natCast_zmod_val _)
  obtain ⟨qy1, qy2⟩ := same hq.y hqy (ZMod.natCast_zmod_val _)
  refine ⟨p1, q1, r1, d3, hrun, ctx.wit, ⟨by rw [hsame.rows]; exact s1, by rw [hsame.copies]; exact s2⟩, ?_, ?_, ?_⟩
  · exact ⟨px1, py1, fun h => absurd h hP, fun _ => ⟨by rw [val_sameCell hp.z, hpz], aP.congr px2.symm py2.symm⟩,
      fun c hc => by rw [curv hp.curv hpc] at hc; cases hc⟩
  · exact ⟨qx1, qy1, fun h => absurd h hQ, fun _ => ⟨by rw [val_sameCell hq.z, hqz], aQ.congr qx2.symm qy2.symm⟩,
      fun c hc => by rw [curv hq.curv hqc] at hc; cases hc⟩
  · have hv : (r1.map fun c => c.val ctx.wit) = r.map fun c => c.val ctx.wit := by
      exact same_vals hrr
    rw [hv, hr, C48_native (neg_ne_zero.2 hP) hQ]
    obtain ⟨nx, ny⟩ := (coords_aff (neg_ne_zero.2 hP)).unique aP.neg
    have hpar : ((coordY P).val + fqMod) % 2 = (-(coordY P)).val % 2 := by
      rw [ZMod.neg_val, if_neg aP.y_ne]
      have := ZMod.val_lt (coordY P)
      have := fq_odd
      omega
    simp only [packPoints, pack, nx, ny, hpar, List.append_nil]

/-- The generator is such a point. -/
example : ∃ p q r ctx, readExpose gen gen Ctx.empty = some ((p, q, r), ctx) ∧ ∃ adv, Sat tables ctx adv ∧ StandsFor adv p gen ∧
    StandsFor adv q gen ∧ some (r.map fun c => c.val adv) = pairToInstances (-gen) gen [] :=
  C48_sign_forgeable gen_ne_zero gen_ne_zero (by decide +kernel)

end Verif.Top
