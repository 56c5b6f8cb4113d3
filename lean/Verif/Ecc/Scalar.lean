import Verif.Ecc.Sound

/-!
# Soundness of the scalar decomposition (helper lemmas)
-/

namespace Verif.Circuit

/-- The field element written in a list of cells, least significant first. -/
def bitsN (adv : Advice N) : List (AV N) → N
  | [] => 0
  | b :: bs => b.val adv + 2 * bitsN adv bs

/-- The field element written in windows, least significant window first. -/
def windowsN (adv : Advice N) (w : ℕ) : List (List (AV N)) → N
  | [] => 0
  | b :: bs => bitsN adv b + 2 ^ w * windowsN adv w bs

theorem bitCell_lv {adv : Advice N} {c : AV N} (h : BitCell adv c) : ((lv adv c : ℕ) : N) = c.val adv :=
  ZMod.natCast_zmod_val _

theorem bitsVal_cast (adv : Advice N) (l : List (AV N)) : ((bitsVal adv l : ℕ) : N) = bitsN adv l := by
  induction l with
  | nil => simp [bitsVal, bitsN]
  | cons b bs ih =>
    simp only [bitsVal, bitsN, Nat.cast_add, Nat.cast_mul, Nat.cast_ofNat, ih]
    rw [show ((lv adv b : ℕ) : N) = b.val adv from ZMod.natCast_zmod_val _]

theorem windowsVal_cast (adv : Advice N) (w : ℕ) (l : List (List (AV N))) :
    ((windowsVal adv w l : ℕ) : N) = windowsN adv w l := by
  induction l with
  | nil => simp [windowsVal, windowsN]
  | cons b bs ih => simp [windowsVal, windowsN, ih, bitsVal_cast]

theorem windowRow_run {t : Tables} {w s : ℕ} {last : Schema N} {next : N} {ctx ctx' : Ctx N}
    {r : List (AV N)} (hw : 0 < w) (h : windowRow w s last next ctx = some (r, ctx')) :
    r.length = w ∧ ctx'.offset = ctx.offset + 1 ∧ w < 5 ∧ ∀ adv, Sat t ctx' adv → Sat t ctx adv ∧
      adv ctx.offset 4 = bitsN adv r + next * adv (ctx.offset + 1) 4 ∧
      (∀ a, last = .assigned a → a.val adv = adv ctx.offset 4) := by
  unfold windowRow at h
  simp only [bind_run, pure_run] at h
  obtain ⟨cells, c1, h1, rfl, rfl⟩ := h
  obtain ⟨hlen, h1⟩ := oneLineWithLastBase_run h1
  obtain ⟨hc, hoff, hrow⟩ := oneLineSel_run h1
  simp only [List.length_map, List.length_range] at hlen
  refine ⟨by simp; omega, hoff, hlen, fun adv hs => ?_⟩
  obtain ⟨hs0, hg, -, -, -, -, -, k4⟩ := hrow t adv hs
  have hv : ∀ j, (cells j).val adv = adv ctx.offset j := fun j => by simp [AV.val, hc, Advice.at]
  have k4' : ∀ a, last = .assigned a → a.val adv = adv ctx.offset 4 := by
    rintro a rfl
    have h4 : w = 1 ∨ w = 2 ∨ w = 3 ∨ w = 4 := by omega
    rcases h4 with rfl | rfl | rfl | rfl <;>
      simpa [copyHolds, resizePairs, List.range_succ] using k4
  refine ⟨hs0, ?_, k4'⟩
  have h4 : w = 1 ∨ w = 2 ∨ w = 3 ∨ w = 4 := by omega
  rcases h4 with rfl | rfl | rfl | rfl <;>
  · simp [gateEval, mkRow, resizePairs, List.range_succ] at hg
    simp only [List.take_succ_cons, List.take_zero, bitsN, hv]
    linear_combination -hg

theorem decomposeTail_sound {t : Tables} {w : ℕ} (hw : 0 < w) : ∀ (k s : ℕ) (ctx : Ctx N)
    (r : List (List (AV N))) (ctx' : Ctx N), decomposeTail w k s ctx = some (r, ctx') →
    r.length = k + 1 ∧ (∀ b ∈ r, b.length = w) ∧ ∀ adv, Sat t ctx' adv → Sat t ctx adv ∧
      adv ctx.offset 4 = windowsN adv w r := by
  intro k
  induction k with
  | zero =>
    intro s ctx r ctx' h
    simp only [decomposeTail, bind_run, pure_run] at h
    obtain ⟨c, c1, h1, rfl, rfl⟩ := h
    obtain ⟨l1, -, -, p1⟩ := windowRow_run (t := t) hw h1
    refine ⟨rfl, by simpa using l1, fun adv hs => ?_⟩
    obtain ⟨s0, e, -⟩ := p1 adv hs
    exact ⟨s0, by rw [e]; simp [windowsN]⟩
  | succ k ih =>
    intro s ctx r ctx' h
    simp only [decomposeTail, bind_run, pure_run] at h
    obtain ⟨c, c1, h1, cs, c2, h2, rfl, rfl⟩ := h
    obtain ⟨l1, o1, -, p1⟩ := windowRow_run (t := t) hw h1
    obtain ⟨l2, a2, p2⟩ := ih _ _ _ _ h2
    refine ⟨by simp [l2], by simpa using ⟨l1, a2⟩, fun adv hs => ?_⟩
    obtain ⟨s1, e2⟩ := p2 adv hs
    obtain ⟨s0, e1, -⟩ := p1 adv s1
    refine ⟨s0, ?_⟩
    rw [o1] at e2
    rw [e1, e2]
    simp [windowsN]

theorem Spec.assertBits {t : Tables} (l : List (AV N)) : Spec t (assertBits l) (fun adv _ => ∀ b ∈ l, BitCell adv b) := by
  induction l with
  | nil =>
    exact (Spec.pure _).mono fun _ _ _ b hb => by cases hb
  | cons b bs ih =>
    refine ((Spec.assertBit b).bind fun _ => ih).mono ?_
    rintro adv r ⟨_, h1, h2⟩ c hc
    rcases List.mem_cons.1 hc with rfl | hc
    · exact h1
    · exact h2 c hc

/-- `decompose_scalar`: the windows, most significant first, write a number congruent to the scalar. -/
theorem Spec.decomposeScalar {t : Tables} (w : ℕ) (hw : 0 < w) (s : AV N) : Spec t (decomposeScalar w s)
    (fun adv r => r.length = (253 + w) / w - 2 + 2 ∧ w < 5 ∧ (∀ b ∈ r, b.length = w ∧ ∀ c ∈ b, BitCell adv c) ∧
      ((windowsVal adv w r.reverse : ℕ) : N) = s.val adv) := by
  constructor
  intro ctx r ctx' h adv hs
  unfold Circuit.decomposeScalar at h
  simp only [bind_run, pure_run] at h
  obtain ⟨c, c1, h1, cs, c2, h2, _, c3, h3, rfl, rfl⟩ := h
  obtain ⟨s2, k3⟩ := (Spec.assertBits _).run _ _ _ h3 adv hs
  obtain ⟨l2, a2, p2⟩ := decomposeTail_sound (t := t) hw _ _ _ _ _ h2
  obtain ⟨l1, o1, w5, p1⟩ := windowRow_run (t := t) hw h1
  obtain ⟨s1, e2⟩ := p2 adv s2
  obtain ⟨s0, e1, e1'⟩ := p1 adv s1
  refine ⟨s0, by simp [l2, scalarBits], w5, fun b hb => ⟨?_, fun c hc => ?_⟩, ?_⟩
  · rw [List.mem_reverse] at hb
    rcases List.mem_cons.1 hb with rfl | hb
    · exact l1
    · exact a2 b hb
  · exact k3 c (List.mem_flatten.2 ⟨b, hb, hc⟩)
  · rw [windowsVal_cast, List.reverse_reverse, windowsN, e1' s rfl, e1, ← o1, e2]
    simp

end Verif.Circuit
