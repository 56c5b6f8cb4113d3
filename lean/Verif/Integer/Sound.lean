import Verif.Integer.Math
import Verif.Integer.Spec
import Verif.Circuit.BaseSound

/-!
# Soundness of the integer chip (helper lemmas)

`Bd k adv a` is a ghost bound on the limbs of `a` under the advice assignment `adv`; the chip's own
bookkeeping number `overflows` plays no role in it, so the lemmas also apply where the chip's
bookkeeping is too small (`mul_small_constant`).
-/

set_option exponentiation.threshold 600

namespace Verif.Circuit

/-! ### Running -/

theorem bind_run {F α β : Type} {m : M F α} {k : α → M F β} {ctx c' : Ctx F} {r : β} :
    (m >>= k) ctx = some (r, c') ↔ ∃ a c1, m ctx = some (a, c1) ∧ k a c1 = some (r, c') := by
  simp only [Bind.bind, StateT.bind, Option.bind_eq_some_iff, Prod.exists]

theorem pure_run {F α : Type} {a r : α} {ctx c' : Ctx F} :
    (pure a : M F α) ctx = some (r, c') ↔ a = r ∧ ctx = c' := by
  simp [pure, StateT.pure]

section
variable {F : Type} [Field F] {t : Tables}

theorem Spec.lineAdd3 (a b c : AV F) (x y z k : F) :
    Spec t (oneLineAdd [(.assigned a, x), (.assigned b, y), (.assigned c, z)] k)
      (fun adv _ => x * a.val adv + y * b.val adv + z * c.val adv + k = 0) := by
  unfold oneLineAdd
  refine (Spec.oneLine ..).mono ?_
  rintro adv r ⟨i, hc, hg, -, h0, h1, h2, -⟩
  line_simp
  grind

theorem Spec.lineAdd4 (a b c d : AV F) (x y z u k : F) :
    Spec t (oneLineAdd [(.assigned a, x), (.assigned b, y), (.assigned c, z), (.assigned d, u)] k)
      (fun adv _ => x * a.val adv + y * b.val adv + z * c.val adv + u * d.val adv + k = 0) := by
  unfold oneLineAdd
  refine (Spec.oneLine ..).mono ?_
  rintro adv r ⟨i, hc, hg, -, h0, h1, h2, h3, -⟩
  line_simp
  grind

theorem Spec.lineAdd5 (a b c d e : AV F) (x y z u w k : F) :
    Spec t (oneLineAdd [(.assigned a, x), (.assigned b, y), (.assigned c, z), (.assigned d, u),
        (.assigned e, w)] k)
      (fun adv _ => x * a.val adv + y * b.val adv + z * c.val adv + u * d.val adv
        + w * e.val adv + k = 0) := by
  unfold oneLineAdd
  refine (Spec.oneLine ..).mono ?_
  rintro adv r ⟨i, hc, hg, -, h0, h1, h2, h3, h4⟩
  line_simp
  grind

end

/-! ### Values and bounds -/

theorem Bd.mono {k k' : ℕ} {adv : Advice N} {l : Fin 4 → AV N} (h : Bd k adv l) (hk : k ≤ k') :
    Bd k' adv l := by
  obtain ⟨h0, h1, h2, h3⟩ := h
  exact ⟨h0.trans_le (Nat.mul_le_mul_right _ hk), h1.trans_le (Nat.mul_le_mul_right _ hk),
    h2.trans_le (Nat.mul_le_mul_right _ hk), h3.trans_le (Nat.mul_le_mul_right _ hk)⟩

theorem cast_lv (adv : Advice N) (c : AV N) : ((lv adv c : ℕ) : N) = c.val adv := cast_val _

theorem lv_eq {adv : Advice N} {c : AV N} {k : ℕ} (h : c.val adv = (k : N)) (hk : k < 2 ^ 253) :
    lv adv c = k := val_of_cast h (hk.trans frMod_gt)

theorem limbMod_cast : ((limbMod : ℕ) : N) = 2 ^ 68 := by rw [limbMod_eq]; norm_num

theorem wsum_native (adv : Advice N) (l : Fin 4 → AV N) :
    wsum adv (nativeTerms l) = ((limbsVal adv l : ℕ) : N) := by
  simp only [wsum, nativeTerms, limbExp_eq, limbMod_cast, List.map_cons, List.map_nil, List.sum_cons,
    List.sum_nil, limbsVal]
  push_cast
  simp only [cast_lv]
  ring

theorem Spec.native {t : Tables} (a : AInt) : Spec t (native a) (fun adv r => NatOk adv a →
    r.1.val adv = ((limbsVal adv a.limbs : ℕ) : N) ∧ r.2.limbs = a.limbs ∧ r.2.overflows = a.overflows
      ∧ NatOk adv r.2) := by
  unfold Circuit.native
  split
  · next n hn =>
    refine (Spec.pure _).mono ?_
    rintro adv r rfl hok
    exact ⟨hok _ hn, rfl, rfl, hok⟩
  · refine ((Spec.sumWithConstant ..).bind fun c => Spec.pure _).mono ?_
    rintro adv r ⟨c, hc, rfl⟩ hok
    rw [zero_add, wsum_native] at hc
    refine ⟨hc, rfl, rfl, ?_⟩
    intro c' hc'
    simp only [Option.some.injEq] at hc'
    subst hc'
    exact hc

theorem Spec.assignW (v : W) : Spec tables (assignW v) (fun adv r => Bd 1 adv r.limbs ∧ r.overflows = 0
    ∧ r.native = none) := by
  unfold Circuit.assignW
  refine ((Spec.assignWCeilLeadingLimb _).bind fun l3 => (Spec.assignNonleadingLimb _).bind fun l2 =>
    (Spec.assignNonleadingLimb _).bind fun l1 => (Spec.assignNonleadingLimb _).bind fun l0 =>
      Spec.pure _).mono ?_
  rintro adv r ⟨l3, h3, l2, h2, l1, h1, l0, h0, rfl⟩
  refine ⟨⟨?_, ?_, ?_, ?_⟩, rfl, rfl⟩ <;> simpa [AInt.new, vec4, lv]

theorem natOk_none {adv : Advice N} {a : AInt} (h : a.native = none) : NatOk adv a := by
  intro c hc
  rw [h] at hc
  cases hc

theorem Spec.assignD (v : ℕ) : Spec tables (assignD v) (fun adv r => lv adv (r 0) < 2 ^ 68 ∧
    lv adv (r 1) < 2 ^ 68 ∧ lv adv (r 2) < 2 ^ 68 ∧ lv adv (r 3) < 2 ^ 67) := by
  unfold Circuit.assignD
  refine ((Spec.assignDLeadingLimb _).bind fun l3 => (Spec.assignNonleadingLimb _).bind fun l2 =>
    (Spec.assignNonleadingLimb _).bind fun l1 => (Spec.assignNonleadingLimb _).bind fun l0 =>
      Spec.pure _).mono ?_
  rintro adv r ⟨l3, h3, l2, h2, l1, h1, l0, h0, rfl⟩
  exact ⟨h0, h1, h2, h3⟩

theorem Spec.assignInteger (v : ℕ) : Spec tables (assignInteger v) (fun adv r =>
    lv adv (r 0) < 2 ^ 68 ∧ lv adv (r 1) < 2 ^ 68 ∧ lv adv (r 2) < 2 ^ 68 ∧ lv adv (r 3) < 2 ^ 68) := by
  unfold Circuit.assignInteger
  refine ((Spec.assignNonleadingLimb _).bind fun l3 => (Spec.assignNonleadingLimb _).bind fun l2 =>
    (Spec.assignNonleadingLimb _).bind fun l1 => (Spec.assignNonleadingLimb _).bind fun l0 =>
      Spec.pure _).mono ?_
  rintro adv r ⟨l3, h3, l2, h2, l1, h1, l0, h0, rfl⟩
  exact ⟨h3, h2, h1, h0⟩

/-! ### Reduction -/

theorem inTable_lv {b : ℕ} {x : N} (h : inTable b x) (hb : b ≤ 17) : x.val < 2 ^ b := by
  obtain ⟨k, hk, rfl⟩ := h
  have : 2 ^ b ≤ 2 ^ 17 := Nat.pow_le_pow_right (by norm_num) hb
  have h2 : 2 ^ 17 < frMod := by decide +kernel
  rwa [ZMod.val_natCast_of_lt (by omega)]

theorem Spec.rangePair (d v : N) :
    Spec tables (Circuit.oneLineSel { common := true } [(.unassigned d, 0), (.unassigned v, 0)] 0 [] 0)
      (fun adv cells => lv adv (cells 0) < 2 ^ 17 ∧ lv adv (cells 1) < 2 ^ 17) := by
  refine (Spec.oneLineSel ..).mono ?_
  rintro adv cells ⟨i, hc, hg, hl, -⟩
  obtain ⟨h0, h1, h2, h3⟩ := hl.1 rfl
  rw [tables_eq] at h0 h1
  simp only [lv, AV.val, hc]
  exact ⟨inTable_lv h0 le_rfl, inTable_lv h1 le_rfl⟩

/-- Result of a reduction: same residue, and either nothing happened or the bound is the fresh one. -/
def Reduced (adv : Advice N) (a r : AInt) : Prop :=
  limbsVal adv r.limbs ≡ limbsVal adv a.limbs [MOD fqMod] ∧ NatOk adv r

theorem Spec.reduce (a : AInt) : Spec tables (reduce a) (fun adv r =>
    ∀ k, k ≤ 2 ^ 38 → Bd k adv a.limbs → NatOk adv a →
      Reduced adv a r ∧ (a.overflows = 0 ∧ r = a
        ∨ 0 < a.overflows ∧ a.overflows < 64 ∧ r.overflows = 0 ∧ Bd 1 adv r.limbs)) := by
  constructor
  intro ctx r ctx' h adv hs
  unfold Circuit.reduce at h
  split at h
  · next h0 =>
    rw [pure_run] at h
    obtain ⟨rfl, rfl⟩ := h
    exact ⟨hs, fun k hk hb hn => ⟨⟨rfl, hn⟩, .inl ⟨h0, rfl⟩⟩⟩
  · next h0 =>
    simp only [bind_run, Prod.exists, pure_run] at h
    obtain ⟨_, c1, h1, u, c2, h2, rem, c3, h3, cells, c4, h4, rn, rem', c5, h5, an, a', c6, h6, _, c7,
      h7, _, c8, h8, rfl, rfl⟩ := h
    obtain ⟨s7, p8⟩ := (Spec.lineAdd4 ..).run _ _ _ h8 adv hs
    obtain ⟨s6, p7⟩ := (Spec.lineAdd3 ..).run _ _ _ h7 adv s7
    obtain ⟨s5, p6⟩ := (Spec.native a).run _ _ _ h6 adv s6
    obtain ⟨s4, p5⟩ := (Spec.native rem).run _ _ _ h5 adv s5
    obtain ⟨s3, pd, pv⟩ := (Spec.rangePair ..).run _ _ _ h4 adv s4
    obtain ⟨s2, pb, po, pn⟩ := (Spec.assignW _).run _ _ _ h3 adv s3
    obtain ⟨s1, -⟩ := (Spec.unwrapM _).run _ _ _ h2 adv s2
    obtain ⟨s0, pa⟩ := (Spec.assertM _).run _ _ _ h1 adv s1
    refine ⟨s0, fun k hk hb hn => ?_⟩
    obtain ⟨p51, p52, p53, p54⟩ := p5 (natOk_none pn)
    obtain ⟨p61, p62, p63, p64⟩ := p6 hn
    simp only at p51 p52 p53 p54 p61 p62 p63 p64
    rw [p61, p51, wNative_eq, ← cast_lv adv (cells 0)] at p7
    rw [p52, p62, ← cast_lv, ← cast_lv adv (rem.limbs 0), ← cast_lv adv (a.limbs 0),
      ← cast_lv adv (cells 1), bnToN_limbMod, bnToN_eq (b := wLimbs 0) (by decide +kernel),
      bnToN_eq (b := limbMod * overflowLimit) (by decide +kernel)] at p8
    have eA : limbsVal adv a.limbs = lv adv (a.limbs 0) + 2 ^ 68 * (lv adv (a.limbs 1)
        + 2 ^ 68 * lv adv (a.limbs 2) + 2 ^ 136 * lv adv (a.limbs 3)) := by unfold limbsVal; ring
    have eR : limbsVal adv rem.limbs = lv adv (rem.limbs 0) + 2 ^ 68 * (lv adv (rem.limbs 1)
        + 2 ^ 68 * lv adv (rem.limbs 2) + 2 ^ 136 * lv adv (rem.limbs 3)) := by unfold limbsVal; ring
    have hmath := reduce_math (a0 := lv adv (a.limbs 0)) (a' := lv adv (a.limbs 1)
        + 2 ^ 68 * lv adv (a.limbs 2) + 2 ^ 136 * lv adv (a.limbs 3)) (r0 := lv adv (rem.limbs 0))
        (r' := lv adv (rem.limbs 1)
        + 2 ^ 68 * lv adv (rem.limbs 2) + 2 ^ 136 * lv adv (rem.limbs 3)) (d := lv adv (cells 0))
        (v := lv adv (cells 1))
        (by have := hb.b0; omega)
        (by obtain ⟨b0, b1, b2, b3⟩ := hb; omega)
        (by have := pb.b0; omega)
        (by obtain ⟨b0, b1, b2, b3⟩ := pb; omega)
        pd pv
        (by rw [← eA, ← eR]; linear_combination -p7)
        (by rw [show limbMod * 64 = limbMod * overflowLimit from rfl]; linear_combination p8)
    rw [← eA, ← eR] at hmath
    refine ⟨⟨?_, ?_⟩, .inr ⟨Nat.pos_of_ne_zero h0, pa, ?_, ?_⟩⟩
    · simp only [p52]
      rw [hmath]
      simp [Nat.ModEq]
    · exact fun c hc => p54 c hc
    · simp only [p53, po]
    · simp only [p52]
      exact pb

theorem Spec.conditionallyReduce (a : AInt) : Spec tables (conditionallyReduce a) (fun adv r =>
    ∀ k, k ≤ 2 ^ 38 → Bd k adv a.limbs → NatOk adv a →
      Reduced adv a r ∧ (a.overflows < 32 ∧ r = a ∨ r.overflows = 0 ∧ Bd 1 adv r.limbs)) := by
  unfold Circuit.conditionallyReduce
  split
  · next h =>
    refine (Spec.reduce a).mono ?_
    intro adv r hr k hk hb hn
    obtain ⟨h1, h2⟩ := hr k hk hb hn
    refine ⟨h1, ?_⟩
    rcases h2 with ⟨h2, -⟩ | ⟨-, -, h3, h4⟩
    · simp [overflowThreshold] at h; omega
    · exact .inr ⟨h3, h4⟩
  · next h =>
    refine (Spec.pure a).mono ?_
    rintro adv r rfl k hk hb hn
    refine ⟨⟨rfl, hn⟩, .inl ⟨?_, rfl⟩⟩
    simp [overflowThreshold] at h; omega

end Verif.Circuit
