import Verif.Ecc.CompleteAdd
import Verif.Ecc.Mul

/-!
# Completeness of the scalar decomposition and of `constant_mul`

`constant_mul` never computes a tangent slope (the slopes of its table entries are constants), so it is complete
for every point and every scalar.
-/

set_option exponentiation.threshold 600

namespace Verif.Circuit

open Verif.Ecc

theorem testBit_sum (s w : ℕ) : (∑ i ∈ Finset.range w, (if s.testBit i then 2 ^ i else 0)) = s % 2 ^ w := by
  induction w with
  | zero => simp [Nat.mod_one]
  | succ w ih =>
    rw [Finset.sum_range_succ, ih, Nat.testBit_eq_decide_div_mod_eq, pow_succ, Nat.mod_mul]
    rcases Nat.mod_two_eq_zero_or_one (s / 2 ^ w) with h | h <;> simp [h]

/-- The number in a list of honest bits, least significant first. -/
def hbits : List (AV N) → ℕ
  | [] => 0
  | b :: bs => b.value.val + 2 * hbits bs

theorem bitsVal_hbits {c : Ctx N} : ∀ {b : List (AV N)}, (∀ x ∈ b, ValidAV c x) → bitsVal c.wit b = hbits b
  | [], _ => rfl
  | x :: b, h => by
    simp only [List.forall_mem_cons] at h
    rw [bitsVal, hbits, bitsVal_hbits h.2, lv_wit h.1]

theorem val_bit (b : Prop) [Decidable b] : (if b then (1 : N) else 0).val = if b then 1 else 0 := by
  have : Fact (1 < frMod) := ⟨by decide +kernel⟩
  split
  · exact ZMod.val_one _
  · exact ZMod.val_zero

theorem windowRow_complete {t : Tables} {w s : ℕ} {last : Schema N} {next : N} {ctx : Ctx N} {acc acc' : N}
    (hw : 0 < w) (hw5 : w < 5) (hg : GoodP t ctx acc) (hacc : last.value = acc ∨ Good t ctx)
    (hv : ValidSchema ctx last) (hl : last.value = (s : N)) (he : (s : N) = ((s % 2 ^ w : ℕ) : N) + next * acc') :
    ∃ r ctx', windowRow w s last next ctx = some (r, ctx') ∧ GoodP t ctx' acc' ∧ (next = 0 → Good t ctx') ∧ Ext ctx ctx' ∧
      r.length = w ∧ (∀ c ∈ r, ValidAV ctx' c ∧ (c.value = 0 ∨ c.value = 1)) ∧ hbits r = s % 2 ^ w := by
  have hs : (∑ i ∈ Finset.range w, (if s.testBit i then (2 ^ i : N) else 0)) = ((s % 2 ^ w : ℕ) : N) := by
    rw [← testBit_sum]
    push_cast
    rfl
  obtain ⟨cells, c1, f1, g1, g1', e1, -, h1⟩ := oneLineSel_complete (t := t) (sel := {})
    (ps := resizePairs 4 ((List.range w).map fun i => (.unassigned (if s.testBit i then 1 else 0), ((2 ^ i : ℕ) : N))) ++ [(last, -1)])
    (const := 0) (mul := []) (next := next) (acc := acc) (acc' := acc') hg
    (by
      have : w = 1 ∨ w = 2 ∨ w = 3 ∨ w = 4 := by omega
      rcases this with rfl | rfl | rfl | rfl <;> simpa [lineVal, resizePairs, List.range_succ] using hacc)
    (by
      have : w = 1 ∨ w = 2 ∨ w = 3 ∨ w = 4 := by omega
      rcases this with rfl | rfl | rfl | rfl <;> simp [resizePairs]) (by simp)
    (by
      have : w = 1 ∨ w = 2 ∨ w = 3 ∨ w = 4 := by omega
      rcases this with rfl | rfl | rfl | rfl <;>
        simp only [resizePairs, List.range_succ, List.range_zero, List.nil_append, List.map_cons, List.map_append,
          List.map_nil, List.cons_append, List.take_succ_cons, List.take_zero, List.length_cons, List.length_nil,
          List.take_nil, List.replicate, List.forall_mem_cons, List.mem_cons, List.not_mem_nil, List.append_assoc] <;>
        simp [hv] <;> simp [ValidSchema])
    (by
      intro nxt hn
      have : w = 1 ∨ w = 2 ∨ w = 3 ∨ w = 4 := by omega
      rcases this with rfl | rfl | rfl | rfl <;>
      · simp only [Finset.sum_range_succ, Finset.sum_range_zero] at hs
        generalize hL : last.value = L at hl
        simp [gateEval, mkRow, lineVal, resizePairs, hn, List.range_succ, hL]
        rw [hl, he, ← hs]
        simp [Schema.value]
        ring)
    (lookupsHold_none _ _ rfl rfl rfl rfl)
  have hval : ∀ j : Fin 5, (j : ℕ) < w → (cells j).value = if s.testBit j then 1 else 0 := by
    intro j hj
    rw [(h1 j).2]
    have : w = 1 ∨ w = 2 ∨ w = 3 ∨ w = 4 := by omega
    rcases this with rfl | rfl | rfl | rfl <;> fin_cases j <;> simp at hj <;>
      simp [lineVal, resizePairs, List.range_succ, Schema.value]
  refine ⟨[cells 0, cells 1, cells 2, cells 3, cells 4].take w, c1, ?_, g1, g1', e1, by simp; omega, ?_, ?_⟩
  · unfold windowRow
    have : oneLineWithLastBase
        ((List.range w).map fun i => (.unassigned (if s.testBit i then 1 else 0), ((2 ^ i : ℕ) : N)))
        (last, -1) 0 [] next ctx = some (cells, c1) := by
      rw [oneLineWithLastBase_eq (by simpa using hw5)]
      exact f1
    rw [bind_some this]
    rfl
  · have hbit : ∀ j : Fin 5, (j : ℕ) < w → (cells j).value = 0 ∨ (cells j).value = 1 := by
      intro j hj
      rw [hval j hj]
      split <;> simp
    intro c hc
    obtain ⟨i, hi, rfl⟩ := List.mem_iff_getElem.1 hc
    have hiw : i < w := by simp at hi; omega
    have : i = 0 ∨ i = 1 ∨ i = 2 ∨ i = 3 := by omega
    rcases this with rfl | rfl | rfl | rfl
    · simpa using ⟨(h1 0).1, hbit 0 hiw⟩
    · simpa using ⟨(h1 1).1, hbit 1 hiw⟩
    · simpa using ⟨(h1 2).1, hbit 2 hiw⟩
    · simpa using ⟨(h1 3).1, hbit 3 hiw⟩
  · rw [← testBit_sum]
    have : w = 1 ∨ w = 2 ∨ w = 3 ∨ w = 4 := by omega
    rcases this with rfl | rfl | rfl | rfl
    · simp only [List.take_succ_cons, List.take_zero, hbits, Finset.sum_range_succ, Finset.sum_range_zero]
      rw [hval 0 (by decide)]
      simp only [val_bit]
      clear * -
      generalize h0 : s.testBit 0 = b0
      generalize h1 : s.testBit 1 = b1
      generalize h2 : s.testBit 2 = b2
      generalize h3 : s.testBit 3 = b3
      cases b0 <;> cases b1 <;> cases b2 <;> cases b3 <;> simp [h0, h1, h2, h3]
    · simp only [List.take_succ_cons, List.take_zero, hbits, Finset.sum_range_succ, Finset.sum_range_zero]
      rw [hval 0 (by decide), hval 1 (by decide)]
      simp only [val_bit]
      clear * -
      generalize h0 : s.testBit 0 = b0
      generalize h1 : s.testBit 1 = b1
      generalize h2 : s.testBit 2 = b2
      generalize h3 : s.testBit 3 = b3
      cases b0 <;> cases b1 <;> cases b2 <;> cases b3 <;> simp [h0, h1, h2, h3]
    · simp only [List.take_succ_cons, List.take_zero, hbits, Finset.sum_range_succ, Finset.sum_range_zero]
      rw [hval 0 (by decide), hval 1 (by decide), hval 2 (by decide)]
      simp only [val_bit]
      clear * -
      generalize h0 : s.testBit 0 = b0
      generalize h1 : s.testBit 1 = b1
      generalize h2 : s.testBit 2 = b2
      generalize h3 : s.testBit 3 = b3
      cases b0 <;> cases b1 <;> cases b2 <;> cases b3 <;> simp [h0, h1, h2, h3]
    · simp only [List.take_succ_cons, List.take_zero, hbits, Finset.sum_range_succ, Finset.sum_range_zero]
      rw [hval 0 (by decide), hval 1 (by decide), hval 2 (by decide), hval 3 (by decide)]
      simp only [val_bit]
      clear * -
      generalize h0 : s.testBit 0 = b0
      generalize h1 : s.testBit 1 = b1
      generalize h2 : s.testBit 2 = b2
      generalize h3 : s.testBit 3 = b3
      cases b0 <;> cases b1 <;> cases b2 <;> cases b3 <;> simp [h0, h1, h2, h3]

theorem bnToN_lt {s : ℕ} (h : s < 2 ^ 512) : bnToN s = (s : N) := by
  unfold bnToN
  rw [Nat.mod_eq_of_lt h]

/-- Honest windows. -/
def HWin (c : Ctx N) (w : ℕ) (ws : List (List (AV N))) : Prop :=
  ∀ b ∈ ws, b.length = w ∧ ∀ x ∈ b, ValidAV c x ∧ (x.value = 0 ∨ x.value = 1)

theorem HWin.ext {c c' : Ctx N} {w : ℕ} {ws : List (List (AV N))} (h : HWin c w ws) (he : Ext c c') : HWin c' w ws :=
  fun b hb => ⟨(h b hb).1, fun x hx => ⟨((h b hb).2 x hx).1.ext he, ((h b hb).2 x hx).2⟩⟩

/-- The windows of `w` bits of `s`, least significant first. -/
def HDig (w : ℕ) : ℕ → List (List (AV N)) → Prop
  | s, [] => s = 0
  | s, b :: bs => hbits b = s % 2 ^ w ∧ HDig w (s / 2 ^ w) bs

theorem HDig.drop {w : ℕ} : ∀ {k s : ℕ} {l : List (List (AV N))}, HDig w s l → HDig w (s / 2 ^ (w * k)) (l.drop k)
  | 0, s, l, h => by simpa using h
  | k + 1, s, [], h => by
    simp only [HDig] at h
    simp [HDig, h]
  | k + 1, s, b :: bs, h => by
    have := HDig.drop (k := k) h.2
    rw [Nat.div_div_eq_div_mul, ← pow_add, show w + w * k = w * (k + 1) by ring] at this
    simpa using this

/-- Honest windows read from the most significant one on, after `m`. -/
def hbe (w : ℕ) : ℕ → List (List (AV N)) → ℕ
  | m, [] => m
  | m, b :: bs => hbe w (hbits b + 2 ^ w * m) bs

theorem hbe_snoc (w : ℕ) (b : List (AV N)) : ∀ (ws : List (List (AV N))) (m : ℕ), hbe w m (ws ++ [b]) = hbits b + 2 ^ w * hbe w m ws
  | [], m => rfl
  | _ :: ws, m => hbe_snoc w b ws _

theorem HDig.be {w : ℕ} : ∀ {s : ℕ} {l : List (List (AV N))}, HDig w s l → hbe w 0 l.reverse = s
  | s, [], h => h.symm
  | s, b :: bs, h => by
    rw [List.reverse_cons, hbe_snoc, HDig.be h.2, h.1, Nat.mod_add_div]

/-- The number read from the first windows. -/
theorem HDig.take {w s : ℕ} {r : List (List (AV N))} (h : HDig w s r.reverse) {n : ℕ} :
    hbe w 0 (r.take n) = s / 2 ^ (w * (r.length - n)) := by
  have := (HDig.drop (k := r.length - n) h).be
  rwa [← List.reverse_take, List.reverse_reverse] at this

theorem decomposeTail_complete {t : Tables} {w : ℕ} (hw : 0 < w) (hw5 : w < 5) : ∀ (k s : ℕ) (ctx : Ctx N),
    s < 2 ^ 512 → s < 2 ^ (w * (k + 1)) → GoodP t ctx (s : N) → ∃ r ctx', decomposeTail w k s ctx = some (r, ctx') ∧ Good t ctx' ∧
      Ext ctx ctx' ∧ r.length = k + 1 ∧ HWin ctx' w r ∧ HDig w s r := by
  intro k
  induction k with
  | zero =>
    intro s ctx h512 hlt hg
    obtain ⟨r, c1, f1, -, g1, e1, l1, p1, v1⟩ := windowRow_complete (t := t) (w := w) (s := s) (last := .unassigned (bnToN s))
      (next := 0) (acc' := 0) hw hw5 hg (.inl (by simp [Schema.value, bnToN_lt h512])) trivial
      (by simp [Schema.value, bnToN_lt h512]) (by
        rw [Nat.mod_eq_of_lt (by simpa using hlt), zero_mul, add_zero])
    refine ⟨[r], c1, ?_, g1 rfl, e1, rfl, by simpa [HWin] using ⟨l1, p1⟩, v1, Nat.div_eq_of_lt (by simpa using hlt)⟩
    unfold decomposeTail
    rw [bind_some f1]
    rfl
  | succ k ih =>
    intro s ctx h512 hlt hg
    have hsh : s >>> w = s / 2 ^ w := Nat.shiftRight_eq_div_pow _ _
    obtain ⟨r, c1, f1, g1, -, e1, l1, p1, v1⟩ := windowRow_complete (t := t) (w := w) (s := s) (last := .unassigned (bnToN s))
      (next := ((2 ^ w : ℕ) : N)) (acc' := ((s >>> w : ℕ) : N)) hw hw5 hg (.inl (by simp [Schema.value, bnToN_lt h512])) trivial
      (by simp [Schema.value, bnToN_lt h512]) (by
        rw [hsh, ← Nat.cast_mul, ← Nat.cast_add, Nat.mod_add_div])
    obtain ⟨rs, c2, f2, g2, e2, l2, p2, v2⟩ := ih (s >>> w) c1 (by
        rw [hsh]
        exact lt_of_le_of_lt (Nat.div_le_self _ _) h512) (by
        rw [hsh]
        apply Nat.div_lt_of_lt_mul
        rwa [← pow_add, show w + w * (k + 1) = w * (k + 1 + 1) by ring]) g1
    refine ⟨r :: rs, c2, ?_, g2, e1.trans e2, by simp [l2], ?_, v1, by rw [← hsh]; exact v2⟩
    · unfold decomposeTail
      rw [bind_some f1, bind_some f2]
      rfl
    · intro b hb
      rcases List.mem_cons.1 hb with rfl | hb
      · exact ⟨l1, fun x hx => ⟨(p1 x hx).1.ext e2, (p1 x hx).2⟩⟩
      · exact p2 b hb

theorem CSpec.assertBits (l : List (AV N)) (hb : ∀ b ∈ l, b.value = 0 ∨ b.value = 1) : CSpec tables (Circuit.assertBits l)
    (fun c => ∀ b ∈ l, ValidAV c b) (fun _ _ => True) := by
  induction l with
  | nil => exact (CSpec.pure () _).mono (fun _ h => h) fun _ _ _ => trivial
  | cons b bs ih =>
    constructor
    intro ctx hg hv
    obtain ⟨_, c1, f1, g1, e1, -⟩ := (CSpec.assertBit (t := tables) b (hb b (by simp))).run ctx hg (hv b (by simp))
    obtain ⟨_, c2, f2, g2, e2, -⟩ := (ih fun x hx => hb x (by simp [hx])).run c1 g1
      (fun x hx => (hv x (by simp [hx])).ext e1)
    refine ⟨(), c2, ?_, g2, e1.trans e2, trivial⟩
    unfold Circuit.assertBits
    rw [bind_some f1, f2]

/-- `decompose_scalar` is complete for every scalar. -/
theorem CSpec.decomposeScalar (w : ℕ) (hw : 0 < w) (hw5 : w < 5) (s : AV N) : CSpec tables (Circuit.decomposeScalar w s)
    (fun c => ValidAV c s) (fun c r => r.length = (253 + w) / w ∧ HWin c w r ∧ HDig w s.value.val r.reverse) := by
  constructor
  intro ctx hg hv
  have hn : s.value.val < 2 ^ 254 := (ZMod.val_lt s.value).trans (by decide +kernel)
  have hsh : s.value.val >>> w = s.value.val / 2 ^ w := Nat.shiftRight_eq_div_pow _ _
  obtain ⟨r, c1, f1, g1, -, e1, l1, p1, v1⟩ := windowRow_complete (t := tables) (w := w) (s := nToBn s.value) (last := .assigned s)
    (next := ((2 ^ w : ℕ) : N)) (acc := s.value) (acc' := ((s.value.val >>> w : ℕ) : N)) hw hw5 (hg.pend _) (.inr hg) hv
    (by simp [Schema.value, nToBn]) (by
      rw [hsh, ← Nat.cast_mul, ← Nat.cast_add, nToBn, Nat.mod_add_div])
  have hwin : 254 ≤ w * ((253 + w) / w) := by
    have : w = 1 ∨ w = 2 ∨ w = 3 ∨ w = 4 := by omega
    rcases this with rfl | rfl | rfl | rfl <;> norm_num
  have hwin2 : 2 ≤ (253 + w) / w := by
    have : w = 1 ∨ w = 2 ∨ w = 3 ∨ w = 4 := by omega
    rcases this with rfl | rfl | rfl | rfl <;> norm_num
  obtain ⟨rs, c2, f2, g2, e2, l2, p2, v2⟩ := decomposeTail_complete (t := tables) hw hw5 ((253 + w) / w - 2) (s.value.val >>> w) c1
    (by
      rw [hsh]
      exact lt_of_le_of_lt (Nat.div_le_self _ _) (hn.trans (Nat.pow_lt_pow_right (by norm_num) (by norm_num))))
    (by
      rw [hsh]
      apply Nat.div_lt_of_lt_mul
      rw [← pow_add]
      refine hn.trans_le (Nat.pow_le_pow_right (by norm_num) ?_)
      have h1 : (253 + w) / w - 2 + 1 = (253 + w) / w - 1 := by omega
      rw [h1]
      calc 254 ≤ w * ((253 + w) / w) := hwin
        _ = w + w * ((253 + w) / w - 1) := by
          obtain ⟨q, hq⟩ : ∃ q, (253 + w) / w = q + 1 := ⟨(253 + w) / w - 1, by omega⟩
          rw [hq, Nat.add_sub_cancel]
          ring) g1
  have hwin' : HWin c2 w (r :: rs).reverse := by
    intro b hb
    rw [List.mem_reverse] at hb
    rcases List.mem_cons.1 hb with rfl | hb
    · exact ⟨l1, fun x hx => ⟨(p1 x hx).1.ext e2, (p1 x hx).2⟩⟩
    · exact p2 b hb
  have hflat : ∀ x ∈ (r :: rs).reverse.flatten, ValidAV c2 x ∧ (x.value = 0 ∨ x.value = 1) := by
    intro x hx
    obtain ⟨b, hb, hxb⟩ := List.mem_flatten.1 hx
    exact (hwin' b hb).2 x hxb
  obtain ⟨_, c3, f3, g3, e3, -⟩ := (CSpec.assertBits (r :: rs).reverse.flatten fun x hx => (hflat x hx).2).run c2 g2
    fun x hx => (hflat x hx).1
  refine ⟨(r :: rs).reverse, c3, ?_, g3, e1.trans (e2.trans e3), ?_, hwin'.ext e3, by
    rw [List.reverse_reverse]; exact ⟨v1, by rw [← hsh]; exact v2⟩⟩
  · unfold Circuit.decomposeScalar
    simp only [scalarBits]
    rw [bind_some f1]
    have : decomposeTail w ((254 - 1 + w) / w - 2) (nToBn s.value >>> w) c1 = some (rs, c2) := f2
    rw [bind_some this, bind_some f3]
    rfl
  · simp [l2]
    omega

/-- A table entry of `constant_mul`: an honest point that knows its slope. -/
def HPC (c : Ctx N) (p : APt) : Prop := HP c p ∧ p.curv ≠ none

theorem HPC.ext {c c' : Ctx N} {p : APt} (h : HPC c p) (he : Ext c c') : HPC c' p := ⟨h.1.ext he, h.2⟩

theorem flagOf_bit (P : Pt) : flagOf P = 0 ∨ flagOf P = 1 := by
  by_cases h : P = 0
  · exact .inr (flagOf_zero h)
  · exact .inl (flagOf_ne h)

theorem CSpec.assignConstantPointCurv (P : Pt) : CSpec tables (Circuit.assignConstantPointCurv P) (fun _ => True)
    (fun c r => HPC c r) := by
  constructor
  rintro ctx hg -
  obtain ⟨cv, c1, f1, g1, e1, h1, o1⟩ := (CSpec.iassignConstant_hv (coordY P * (coordX P)⁻¹)).run ctx hg trivial
  obtain ⟨cz, c2, f2, g2, e2, h2, v2⟩ := (CSpec.assignConstant (t := tables) (if coordX P = 0 then (1 : N) else 0)).run c1 g1 trivial
  obtain ⟨x, c3, f3, g3, e3, h3, o3⟩ := (CSpec.iassignConstant_hv (coordX P)).run c2 g2 trivial
  obtain ⟨y, c4, f4, g4, e4, h4, o4⟩ := (CSpec.iassignConstant_hv (coordY P)).run c3 g3 trivial
  obtain ⟨z, c5, f5, g5, e5, h5, v5⟩ := (CSpec.assignConstant (t := tables) (flagOf P)).run c4 g4 trivial
  have e35 := e4.trans e5
  refine ⟨⟨x, y, z, some ⟨cv, cz⟩⟩, c5, ?_, g5, e1.trans (e2.trans (e3.trans e35)), ⟨h3.h.ext e35, by rw [o3]; exact evenCount_zero,
    h4.h.ext e5, by rw [o4]; exact evenCount_zero, h5, by rw [v5]; exact flagOf_bit P, ?_⟩, by simp⟩
  · unfold Circuit.assignConstantPointCurv
    rw [bind_some f1, bind_some f2, bind_some f3, bind_some f4, bind_some f5]
    rfl
  · rintro k ⟨⟩
    refine ⟨h1.h.ext (e2.trans (e3.trans e35)), h1.lt, h2.ext (e3.trans e35), ?_⟩
    dsimp only
    rw [v2]
    split <;> simp

/-- `bisec_point_with_curvature` of points that know their slope. -/
theorem CSpec.bisecPointCurv (k : AV N) (a b : APt) (hk : k.value = 0 ∨ k.value = 1) :
    CSpec tables (Circuit.bisecPointCurv k a b) (fun c => ValidAV c k ∧ HPC c a ∧ HPC c b) (fun c r => HPC c r) := by
  constructor
  rintro ctx hg ⟨h1, ⟨h2, n2⟩, ⟨h3, n3⟩⟩
  obtain ⟨ka, hka⟩ := Option.ne_none_iff_exists'.1 n2
  obtain ⟨kb, hkb⟩ := Option.ne_none_iff_exists'.1 n3
  obtain ⟨x, c1, f1, g1, e1, p1⟩ := (CSpec.ibisec k a.x b.x hk).run ctx hg ⟨h1, h2.x, h3.x⟩
  obtain ⟨y, c2, f2, g2, e2, p2⟩ := (CSpec.ibisec k a.y b.y hk).run c1 g1 ⟨h1.ext e1, h2.y.ext e1, h3.y.ext e1⟩
  have e12 := e1.trans e2
  obtain ⟨z, c3, f3, g3, e3, p3, b3⟩ := (CSpec.bisecCond_bit k a.z b.z hk h2.bit h3.bit).run c2 g2
    ⟨h1.ext e12, h2.z.ext e12, h3.z.ext e12⟩
  have e13 := e12.trans e3
  obtain ⟨cv, c4, f4, g4, e4, p4⟩ := (CSpec.bisecCurv k ka kb hk).run c3 g3
    ⟨h1.ext e13, (h2.curv ka hka).ext e13, (h3.curv kb hkb).ext e13⟩
  refine ⟨⟨x, y, z, some cv⟩, c4, ?_, g4, e13.trans e4, ⟨p1.ext (e2.trans (e3.trans e4)), ?_, p2.ext (e3.trans e4), ?_,
    p3.ext e4, b3, by rintro _ ⟨⟩; exact p4⟩, by simp⟩
  · have ha : Circuit.curvature a c3 = some ((ka, a), c3) := by unfold Circuit.curvature; rw [hka]; rfl
    have hb : Circuit.curvature b c3 = some ((kb, b), c3) := by unfold Circuit.curvature; rw [hkb]; rfl
    unfold Circuit.bisecPointCurv
    rw [bind_some f1, bind_some f2, bind_some f3, bind_some ha]
    dsimp only
    rw [bind_some hb]
    dsimp only
    rw [bind_some f4]
    rfl
  · dsimp only
    rw [ibisec_count f1]
    exact evenCount_max h2.xo h3.xo
  · dsimp only
    rw [ibisec_count f2]
    exact evenCount_max h2.yo h3.yo

theorem CSpec.constSlot (id : APt) (base : Pt) (b0 b1 : AV N) (h0 : b0.value = 0 ∨ b0.value = 1)
    (h1 : b1.value = 0 ∨ b1.value = 1) : CSpec tables (Circuit.constSlot id base [b0, b1])
      (fun c => HPC c id ∧ ValidAV c b0 ∧ ValidAV c b1) (fun c r => HPC c r) := by
  constructor
  rintro ctx hg ⟨hi, v0, v1⟩
  obtain ⟨c01, x1, f1, g1, e1, p1⟩ := (CSpec.assignConstantPointCurv (base + base)).run ctx hg trivial
  obtain ⟨c10, x2, f2, g2, e2, p2⟩ := (CSpec.assignConstantPointCurv base).run x1 g1 trivial
  obtain ⟨c11, x3, f3, g3, e3, p3⟩ := (CSpec.assignConstantPointCurv (base + base + base)).run x2 g2 trivial
  have e13 := e1.trans (e2.trans e3)
  obtain ⟨c0, x4, f4, g4, e4, p4⟩ := (CSpec.bisecPointCurv b0 c10 id h0).run x3 g3 ⟨v0.ext e13, p2.ext e3, hi.ext e13⟩
  have e14 := e13.trans e4
  obtain ⟨c1, x5, f5, g5, e5, p5⟩ := (CSpec.bisecPointCurv b0 c11 c01 h0).run x4 g4
    ⟨v0.ext e14, p3.ext e4, p1.ext (e2.trans (e3.trans e4))⟩
  obtain ⟨r, x6, f6, g6, e6, p6⟩ := (CSpec.bisecPointCurv b1 c1 c0 h1).run x5 g5 ⟨v1.ext (e14.trans e5), p5, p4.ext e5⟩
  refine ⟨r, x6, ?_, g6, e14.trans (e5.trans e6), p6⟩
  unfold Circuit.constSlot
  dsimp only
  rw [bind_some f1, bind_some f2, bind_some f3, bind_some f4, bind_some f5, f6]

theorem CSpec.constLoop (id : APt) : ∀ (ws : List (List (AV N))) (base : Pt) (acc : APt),
    CSpec tables (Circuit.constLoop id ws base acc) (fun c => HPC c id ∧ HWin c 2 ws ∧ HP c acc) (fun c r => HP c r)
  | [], base, acc => (CSpec.pure acc _).mono (fun _ h => h) (by rintro c r ⟨h, rfl⟩; exact h.2.2)
  | bits :: ws, base, acc => by
    constructor
    rintro ctx hg ⟨hi, hw, ha⟩
    obtain ⟨hb, hb'⟩ := hw bits (by simp)
    obtain ⟨b0, b1, rfl⟩ := List.length_eq_two.1 hb
    obtain ⟨v0, k0⟩ := hb' b0 (by simp)
    obtain ⟨v1, k1⟩ := hb' b1 (by simp)
    obtain ⟨slot, c1, f1, g1, e1, p1⟩ := (CSpec.constSlot id base b0 b1 k0 k1).run ctx hg ⟨hi, v0, v1⟩
    obtain ⟨⟨p, slot'⟩, c2, f2, g2, e2, p2, -⟩ := (CSpec.pAdd slot acc).run c1 g1 ⟨p1.1, ha.ext e1, fun h => absurd h p1.2⟩
    have e12 := e1.trans e2
    obtain ⟨r, c3, f3, g3, e3, p3⟩ := (CSpec.constLoop id ws (base + base + base + base) p).run c2 g2
      ⟨hi.ext e12, HWin.ext (fun b hb => hw b (by simp [hb])) e12, p2⟩
    refine ⟨r, c3, ?_, g3, e12.trans e3, p3⟩
    unfold Circuit.constLoop
    rw [bind_some f1, bind_some f2]
    exact f3

/-- `constant_mul` is complete for every point and every scalar. -/
theorem CSpec.constantMul (a : Pt) (s : AV N) : CSpec tables (Circuit.constantMul a s) (fun c => ValidAV c s)
    (fun c r => HP c r) := by
  constructor
  intro ctx hg hv
  obtain ⟨ws, c1, f1, g1, e1, l1, p1, -⟩ := (CSpec.decomposeScalar 2 (by norm_num) (by norm_num) s).run ctx hg hv
  obtain ⟨id, c2, f2, g2, e2, p2⟩ := (CSpec.assignConstantPointCurv 0).run c1 g1 trivial
  cases hr : ws.reverse with
  | nil =>
    rw [List.reverse_eq_nil_iff] at hr
    rw [hr] at l1
    simp at l1
  | cons bits rest =>
    have hw : HWin c2 2 (bits :: rest) := fun b hb => (p1.ext e2) b (by rw [← hr, List.mem_reverse] at hb; exact hb)
    obtain ⟨hb, hb'⟩ := hw bits (by simp)
    obtain ⟨b0, b1, rfl⟩ := List.length_eq_two.1 hb
    obtain ⟨v0, k0⟩ := hb' b0 (by simp)
    obtain ⟨v1, k1⟩ := hb' b1 (by simp)
    obtain ⟨slot, c3, f3, g3, e3, p3⟩ := (CSpec.constSlot id a b0 b1 k0 k1).run c2 g2 ⟨p2, v0, v1⟩
    obtain ⟨r, c4, f4, g4, e4, p4⟩ := (CSpec.constLoop id rest (a + a + a + a) slot).run c3 g3
      ⟨p2.ext e3, HWin.ext (fun b hb => hw b (by simp [hb])) e3, p3.1⟩
    refine ⟨r, c4, ?_, g4, e1.trans (e2.trans (e3.trans e4)), p4⟩
    unfold Circuit.constantMul
    rw [bind_some f1, bind_some f2]
    rw [hr]
    dsimp only
    rw [bind_some f3, f4]

end Verif.Circuit
