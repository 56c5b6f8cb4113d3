import Verif.Ecc.CompleteMul

/-!
# Completeness of multi-exponentiation and of subtraction
-/

set_option exponentiation.threshold 600

namespace Verif.Circuit

open Verif.Ecc

/-- `Σ n_i • P_i`. -/
def mulSum (Ps : List Pt) (ns : List ℕ) : Pt := (List.zipWith (fun (P : Pt) (n : ℕ) => n • P) Ps ns).sum

/-- Adding the points one by one to `S`, no non-zero point is the opposite of what is there. -/
def NoCancel : Pt → List Pt → Prop
  | _, [] => True
  | S, Q :: Qs => (Q + S = 0 → Q = 0) ∧ NoCancel (Q + S) Qs

/-- The `j`-th hexadecimal digit. -/
def hexDigit (j n : ℕ) : ℕ := n / 16 ^ j % 16

/-- What an honest multi-exponentiation needs: the slopes at the multiples of the tables, at the sums of the windows
and at the results that are doubled can be computed; no non-zero intermediate result is added to its opposite. -/
structure ShamirSafe (Ps : List Pt) (ns : List ℕ) : Prop where
  table : ∀ P ∈ Ps, ∀ k, 1 ≤ k → k ≤ 15 → Safe (k • P)
  windows : ∀ j < 63, Safe (mulSum Ps (ns.map (hexDigit j)))
  doubled : ∀ j, 1 ≤ j → j ≤ 63 → ∀ i < 4, Safe (2 ^ i • mulSum Ps (ns.map (· / 16 ^ j)))
  inner : ∀ j ≤ 63, NoCancel 0 (List.zipWith (fun (P : Pt) (n : ℕ) => hexDigit j n • P) Ps ns)
  outer : ∀ j < 63, mulSum Ps (ns.map (hexDigit j)) + 2 ^ 4 • mulSum Ps (ns.map (· / 16 ^ (j + 1))) = 0 →
    mulSum Ps (ns.map (hexDigit j)) = 0

/-- A table and the bits that choose from it. -/
structure PickRow (c : Ctx N) (P : Pt) (x : List APt × List (AV N)) : Prop where
  len : x.1.length = 16
  tab : TabQ c (fun i => i • P) 0 x.1
  len4 : x.2.length = 4
  bits : ∀ b ∈ x.2, ValidAV c b ∧ (b.value = 0 ∨ b.value = 1)

theorem PickRow.ext {c c' : Ctx N} {P : Pt} {x : List APt × List (AV N)} (h : PickRow c P x) (he : Ext c c') : PickRow c' P x :=
  ⟨h.len, TabQ.ext he h.tab, h.len4, fun b hb => ⟨(h.bits b hb).1.ext he, (h.bits b hb).2⟩⟩

theorem CSpec.pick_row (x : List APt × List (AV N)) (P : Pt) : CSpec tables (Circuit.pick x.2 x.1) (fun c => PickRow c P x)
    (fun c r => HQ c r (hbits x.2 • P) ∧ (r.curv = none → Safe (hbits x.2 • P))) := by
  constructor
  intro ctx hg h
  exact (CSpec.pick_q x.2 x.1 (fun i => i • P) (fun b hb => (h.bits b hb).2) (by rw [h.len, h.len4]; norm_num)).run ctx hg
    ⟨fun b hb => (h.bits b hb).1, h.tab⟩

/-- The points chosen in one window. -/
def chosen (Ps : List Pt) (l : List (List APt × List (AV N))) : List Pt := List.zipWith (fun (P : Pt) x => hbits x.2 • P) Ps l

theorem CSpec.innerLoop_q : ∀ (l : List (List APt × List (AV N))) (Ps : List Pt) (acc : APt) (S : Pt) (_ : NoCancel S (chosen Ps l)),
    CSpec tables (Circuit.innerLoop l acc) (fun c => List.Forall₂ (PickRow c) Ps l ∧ HQ c acc S) (fun c r => HQ c r ((chosen Ps l).sum + S))
  | [], Ps, acc, S, _ => (CSpec.pure acc _).mono (fun _ h => h) (by
      rintro c r ⟨⟨h1, h2⟩, rfl⟩
      simpa [chosen] using h2)
  | x :: l, [], acc, S, _ => ⟨by rintro ctx hg ⟨h, -⟩; cases h⟩
  | x :: l, P :: Ps, acc, S, hn => by
    constructor
    rintro ctx hg ⟨hf, ha⟩
    obtain ⟨hx, hl⟩ := List.forall₂_cons.1 hf
    obtain ⟨ci, c1, f1, g1, e1, q1, k1⟩ := (CSpec.pick_row x P).run ctx hg hx
    obtain ⟨⟨p, ci'⟩, c2, f2, g2, e2, q2, -⟩ := (CSpec.pAdd_q ci acc (hbits x.2 • P) S hn.1).run c1 g1 ⟨q1, ha.ext e1, k1⟩
    dsimp only at q2
    obtain ⟨r, c3, f3, g3, e3, q3⟩ := (CSpec.innerLoop_q l Ps p _ hn.2).run c2 g2 ⟨hl.imp fun _ _ h => h.ext (e1.trans e2), q2⟩
    refine ⟨r, c3, ?_, g3, e1.trans (e2.trans e3), ?_⟩
    · obtain ⟨cs, bits⟩ := x
      unfold Circuit.innerLoop
      dsimp only at f1
      rw [bind_some f1, bind_some f2]
      exact f3
    · rw [← add_assoc, add_comm ((chosen Ps l).sum)] at q3
      simpa [chosen] using q3

theorem CSpec.inner_q (l : List (List APt × List (AV N))) (Ps : List Pt) (hne : l ≠ []) (hn : NoCancel 0 (chosen Ps l)) :
    CSpec tables (Circuit.inner l) (fun c => List.Forall₂ (PickRow c) Ps l) (fun c r => HQ c r (chosen Ps l).sum) := by
  constructor
  intro ctx hg hf
  cases hf with
  | nil => exact absurd rfl hne
  | @cons P x Ps l hx hl =>
    obtain ⟨ci, c1, f1, g1, e1, q1, k1⟩ := (CSpec.pick_row x P).run ctx hg hx
    have hn2 : NoCancel (hbits x.2 • P) (chosen Ps l) := by
      have := hn.2
      rwa [add_zero] at this
    obtain ⟨r, c3, f3, g3, e3, q3⟩ := (CSpec.innerLoop_q l Ps ci _ hn2).run c1 g1 ⟨hl.imp fun _ _ h => h.ext e1, q1⟩
    refine ⟨r, c3, ?_, g3, e1.trans e3, ?_⟩
    · obtain ⟨cs, bits⟩ := x
      unfold Circuit.inner
      dsimp only at f1 ⊢
      rw [bind_some f1]
      exact f3
    · rw [add_comm] at q3
      simpa [chosen] using q3

/-- Honest windows of `n`, most significant first. -/
structure Wins (c : Ctx N) (n : ℕ) (ws : List (List (AV N))) : Prop where
  len : ws.length = 64
  win : HWin c 4 ws
  dig : HDig 4 n ws.reverse

theorem Wins.ext {c c' : Ctx N} {n : ℕ} {ws : List (List (AV N))} (h : Wins c n ws) (he : Ext c c') : Wins c' n ws :=
  ⟨h.len, h.win.ext he, h.dig⟩

theorem HDig.get {w s k : ℕ} {l : List (List (AV N))} {b : List (AV N)} (h : HDig w s l) (hb : l[k]? = some b) :
    hbits b = s / 2 ^ (w * k) % 2 ^ w := by
  have hd := HDig.drop (k := k) h
  obtain ⟨hk, rfl⟩ := List.getElem?_eq_some_iff.1 hb
  rw [List.drop_eq_getElem_cons hk] at hd
  exact hd.1

theorem Wins.get {c : Ctx N} {n wi : ℕ} {ws : List (List (AV N))} {b : List (AV N)} (h : Wins c n ws) (hwi : wi < 64)
    (hb : ws[wi]? = some b) : hbits b = hexDigit (63 - wi) n := by
  have : ws.reverse[63 - wi]? = some b := by
    rw [List.getElem?_reverse (by rw [h.len]; omega), h.len, ← hb]
    congr 1
    omega
  rw [h.dig.get this, pow_mul]
  rfl

/-- A table of the multiples of `P`. -/
def TabOf (c : Ctx N) (P : Pt) (cs : List APt) : Prop := cs.length = 16 ∧ TabQ c (fun i => i • P) 0 cs

theorem TabOf.ext {c c' : Ctx N} {P : Pt} {cs : List APt} (h : TabOf c P cs) (he : Ext c c') : TabOf c' P cs :=
  ⟨h.1, TabQ.ext he h.2⟩

theorem rows {c : Ctx N} {wi : ℕ} (hwi : wi < 64) : ∀ {Ps : List Pt} {cands : List (List APt)} {ns : List ℕ}
    {windows : List (List (List (AV N)))} {bits : List (List (AV N))}, List.Forall₂ (TabOf c) Ps cands →
    List.Forall₂ (Wins c) ns windows → List.Forall₂ (fun w b => w[wi]? = some b) windows bits → Ps.length = ns.length →
    List.Forall₂ (PickRow c) Ps (cands.zip bits) ∧
      chosen Ps (cands.zip bits) = List.zipWith (fun (P : Pt) (n : ℕ) => hexDigit (63 - wi) n • P) Ps ns
  | [], _, [], _, _, .nil, .nil, .nil, _ => ⟨.nil, rfl⟩
  | [], _, _ :: _, _, _, _, _, _, h => by simp at h
  | _ :: _, _, [], _, _, _, _, _, h => by simp at h
  | P :: Ps, cs :: cands, n :: ns, ws :: windows, b :: bits, .cons h1 t1, .cons h2 t2, .cons h3 t3, hl => by
    obtain ⟨i1, i2⟩ := rows hwi t1 t2 t3 (by simpa using hl)
    obtain ⟨l4, hb⟩ := h2.win b (List.mem_of_getElem? h3)
    refine ⟨.cons ⟨h1.1, h1.2, l4, hb⟩ i1, ?_⟩
    rw [List.zip_cons_cons, chosen, List.zipWith_cons_cons, List.zipWith_cons_cons]
    dsimp only
    rw [h2.get hwi h3]
    exact congrArg _ i2

theorem mapM_get_some {α : Type} {n : ℕ} : ∀ {l : List (List α)}, (∀ w ∈ l, n < w.length) → ∃ bs, l.mapM (fun w => w[n]?) = some bs
  | [], _ => ⟨[], rfl⟩
  | w :: l, h => by
    simp only [List.forall_mem_cons] at h
    obtain ⟨bs, hbs⟩ := mapM_get_some h.2
    exact ⟨w[n] :: bs, by simp [List.mapM_cons, hbs, List.getElem?_eq_getElem h.1]⟩

theorem mulSum_map (Ps : List Pt) (ns : List ℕ) (f : ℕ → ℕ) :
    mulSum Ps (ns.map f) = (List.zipWith (fun (P : Pt) (n : ℕ) => f n • P) Ps ns).sum := by
  unfold mulSum
  rw [List.zipWith_map_right]

theorem mulSum_step (j : ℕ) : ∀ (Ps : List Pt) (ns : List ℕ), mulSum Ps (ns.map (hexDigit j)) + 2 ^ 4 • mulSum Ps (ns.map (· / 16 ^ (j + 1))) =
    mulSum Ps (ns.map (· / 16 ^ j))
  | [], ns => by simp [mulSum]
  | _ :: _, [] => by simp [mulSum]
  | P :: Ps, n :: ns => by
    have ih := mulSum_step j Ps ns
    have e : n / 16 ^ j = hexDigit j n + 2 ^ 4 * (n / 16 ^ (j + 1)) := by
      rw [hexDigit, pow_succ 16 j, ← Nat.div_div_eq_div_mul]
      exact (Nat.mod_add_div _ 16).symm
    simp only [mulSum, List.map_cons, List.zipWith_cons_cons, List.sum_cons] at ih ⊢
    rw [← ih, e, add_nsmul, mul_nsmul', nsmul_add]
    abel

theorem CSpec.shamirLoop_q (cands : List (List APt)) (windows : List (List (List (AV N)))) (Ps : List Pt) (ns : List ℕ)
    (hs : ShamirSafe Ps ns) (hlen : Ps.length = ns.length) (hne : cands ≠ []) : ∀ (n wi : ℕ) (acc : APt) (_ : 1 ≤ wi) (_ : wi + n = 64),
    CSpec tables (Circuit.shamirLoop cands windows n wi acc) (fun c => List.Forall₂ (TabOf c) Ps cands ∧
      List.Forall₂ (Wins c) ns windows ∧ HQ c acc (mulSum Ps (ns.map (· / 16 ^ (64 - wi)))))
      (fun c r => HQ c r (mulSum Ps ns))
  | 0, wi, acc, _, hwi => (CSpec.pure acc _).mono (fun _ h => h) (by
      rintro c r ⟨⟨-, -, h⟩, rfl⟩
      rw [show 64 - wi = 0 by omega] at h
      simpa using h)
  | n + 1, wi, acc, hw1, hwi => by
    constructor
    rintro ctx hg ⟨ht, hw, ha⟩
    obtain ⟨bits, hbits⟩ := mapM_get_some (n := wi) (l := windows) (by
      intro w hmem
      obtain ⟨i, hi, rfl⟩ := List.mem_iff_getElem.1 hmem
      have := (List.forall₂_iff_get.1 hw).2 i (by rw [hw.length_eq]; exact hi) hi
      have := this.len
      simp only [List.get_eq_getElem] at this
      omega)
    obtain ⟨hrow, hch⟩ := rows (by omega) ht hw (mapM_get hbits) hlen
    have hzip : cands.zip bits ≠ [] := by
      intro h
      have l1 := congrArg List.length h
      rw [List.length_zip, ← (mapM_get hbits).length_eq, ← hw.length_eq, ← hlen, ht.length_eq, min_self] at l1
      exact hne (List.length_eq_zero_iff.1 l1)
    have hj : 64 - wi = (63 - wi) + 1 := by omega
    obtain ⟨ia, c1, f1, g1, e1, q1⟩ := (CSpec.inner_q (cands.zip bits) Ps hzip (by rw [hch]; exact hs.inner _ (by omega))).run ctx hg hrow
    rw [hch, ← mulSum_map] at q1
    obtain ⟨acc1, c2, f2, g2, e2, q2⟩ := (CSpec.doubles_q 4 acc _ fun i hi => hs.doubled (64 - wi) (by omega) (by omega) i hi).run c1 g1 (ha.ext e1)
    obtain ⟨⟨p, ia'⟩, c3, f3, g3, e3, q3, -⟩ := (CSpec.pAdd_q ia acc1 _ _ (by rw [hj]; exact hs.outer (63 - wi) (by omega))).run c2 g2
      ⟨q1.ext e2, q2, fun _ => hs.windows (63 - wi) (by omega)⟩
    dsimp only at q3
    rw [hj, mulSum_step] at q3
    have e13 := e1.trans (e2.trans e3)
    obtain ⟨r, c4, f4, g4, e4, q4⟩ := (CSpec.shamirLoop_q cands windows Ps ns hs hlen hne n (wi + 1) p (by omega) (by omega)).run c3 g3
      ⟨ht.imp fun _ _ h => h.ext e13, hw.imp fun _ _ h => h.ext e13, by
        rw [show 64 - (wi + 1) = 63 - wi by omega]; exact q3⟩
    refine ⟨r, c4, ?_, g4, e13.trans e4, q4⟩
    have f0 : Circuit.unwrapM (windows.mapM fun w => w[wi]?) ctx = some (bits, ctx) := by rw [hbits]; rfl
    unfold Circuit.shamirLoop
    rw [bind_some f0, bind_some f1, bind_some f2, bind_some f3]
    exact f4

theorem CSpec.decomposeAll_q : ∀ ss : List (AV N), CSpec tables (Circuit.decomposeAll ss) (fun c => ∀ s ∈ ss, ValidAV c s)
    (fun c r => List.Forall₂ (Wins c) (ss.map fun s => s.value.val) r)
  | [] => (CSpec.pure [] _).mono (fun _ h => h) (by rintro c r ⟨-, rfl⟩; exact .nil)
  | s :: ss => by
    constructor
    intro ctx hg hv
    simp only [List.forall_mem_cons] at hv
    obtain ⟨w, c1, f1, g1, e1, l1, p1, d1⟩ := (CSpec.decomposeScalar 4 (by norm_num) (by norm_num) s).run ctx hg hv.1
    obtain ⟨ws, c2, f2, g2, e2, q2⟩ := (CSpec.decomposeAll_q ss).run c1 g1 fun x hx => (hv.2 x hx).ext e1
    refine ⟨w :: ws, c2, ?_, g2, e1.trans e2, .cons ⟨by simpa using l1, p1.ext e2, d1⟩ q2⟩
    unfold Circuit.decomposeAll
    rw [bind_some f1, bind_some f2]
    rfl

theorem CSpec.allCands_q (id : APt) : ∀ (as : List APt) (Ps : List Pt) (_ : ∀ P ∈ Ps, ∀ k, 1 ≤ k → k ≤ 15 → Safe (k • P)),
    CSpec tables (Circuit.allCands id as) (fun c => HQ c id 0 ∧ id.curv ≠ none ∧ List.Forall₂ (HQ c) as Ps)
      (fun c r => List.Forall₂ (TabOf c) Ps r)
  | [], Ps, _ => (CSpec.pure [] _).mono (fun _ h => h) (by
      rintro c r ⟨⟨-, -, h⟩, rfl⟩
      cases h
      exact .nil)
  | a :: as, [], _ => ⟨by rintro ctx hg ⟨-, -, h⟩; cases h⟩
  | a :: as, P :: Ps, hs => by
    constructor
    rintro ctx hg ⟨hi, hc, hf⟩
    obtain ⟨ha, hf⟩ := List.forall₂_cons.1 hf
    simp only [List.forall_mem_cons] at hs
    obtain ⟨cs, c1, f1, g1, e1, l1, t1⟩ := (CSpec.buildCandsCurv_q a P 14 1 a (by norm_num) fun k h1 h2 => hs.1 k (by omega) (by omega)).run ctx hg
      ⟨ha, by rw [one_nsmul]; exact ha, fun _ => hs.1 1 le_rfl (by norm_num)⟩
    obtain ⟨rest, c2, f2, g2, e2, q2⟩ := (CSpec.allCands_q id as Ps hs.2).run c1 g1 ⟨hi.ext e1, hc, hf.imp fun _ _ h => h.ext e1⟩
    refine ⟨(id :: cs) :: rest, c2, ?_, g2, e1.trans e2, .cons ⟨by rw [List.length_cons, l1], ⟨?_, fun h => absurd h hc⟩, TabQ.ext e2 t1⟩ q2⟩
    · unfold Circuit.allCands
      rw [bind_some f1, bind_some f2]
      rfl
    · have := hi.ext (e1.trans e2)
      simpa using this

theorem hundred_lt (s : N) : s.val / 16 ^ 64 = 0 := Nat.div_eq_of_lt ((ZMod.val_lt s).trans (by decide +kernel))

/-- `shamir`. -/
theorem CSpec.shamir_q (points : List APt) (scalars : List (AV N)) (Ps : List Pt) (hs : ShamirSafe Ps (scalars.map fun s => s.value.val))
    (hl : points.length = scalars.length) (hne : points ≠ []) : CSpec tables (Circuit.shamir points scalars)
      (fun c => List.Forall₂ (HQ c) points Ps ∧ ∀ s ∈ scalars, ValidAV c s)
      (fun c r => HQ c r (mulSum Ps (scalars.map fun s => s.value.val))) := by
  constructor
  rintro ctx hg ⟨hp, hv⟩
  obtain ⟨windows, c1, f1, g1, e1, w1⟩ := (CSpec.decomposeAll_q scalars).run ctx hg hv
  obtain ⟨id, c2, f2, g2, e2, q2, k2⟩ := CSpec.assignIdentity_q.run c1 g1 trivial
  have e12 := e1.trans e2
  obtain ⟨cands, c3, f3, g3, e3, t3⟩ := (CSpec.allCands_q id points Ps hs.table).run c2 g2 ⟨q2, k2, hp.imp fun _ _ h => h.ext e12⟩
  have w3 := w1.imp fun _ _ h => h.ext (e2.trans e3)
  have hlen : Ps.length = (scalars.map fun s => s.value.val).length := by rw [List.length_map, ← hl, hp.length_eq]
  have hcn : cands ≠ [] := by
    intro h
    rw [h] at t3
    cases t3
    cases hp
    exact hne rfl
  cases hwc : windows with
  | nil =>
    rw [hwc] at w1
    have := w1.length_eq
    rw [List.length_map, ← hl] at this
    exact absurd (List.length_eq_zero_iff.1 this) hne
  | cons w0 ws =>
    have hl0 : w0.length = 64 := by
      rw [hwc] at w1
      cases hns : scalars.map (fun s => s.value.val) with
      | nil => rw [hns] at w1; cases w1
      | cons n ns => rw [hns] at w1; exact (List.forall₂_cons.1 w1).1.len
    obtain ⟨bits, hbits⟩ := mapM_get_some (n := 0) (l := windows) (by
      intro w hmem
      obtain ⟨i, hi, rfl⟩ := List.mem_iff_getElem.1 hmem
      have := (List.forall₂_iff_get.1 w3).2 i (by rw [w3.length_eq]; exact hi) hi
      have := this.len
      simp only [List.get_eq_getElem] at this
      omega)
    obtain ⟨hrow, hch⟩ := rows (by omega) t3 w3 (mapM_get hbits) hlen
    have hzip : cands.zip bits ≠ [] := by
      intro h
      have l1 := congrArg List.length h
      rw [List.length_zip, ← (mapM_get hbits).length_eq, ← w3.length_eq, ← hlen, t3.length_eq, min_self] at l1
      exact hcn (List.length_eq_zero_iff.1 l1)
    obtain ⟨acc, c4, f4, g4, e4, q4⟩ := (CSpec.inner_q (cands.zip bits) Ps hzip (by rw [hch]; exact hs.inner _ (by omega))).run c3 g3 hrow
    rw [hch, ← mulSum_map] at q4
    have hz : mulSum Ps ((scalars.map fun s => s.value.val).map (· / 16 ^ 64)) = 0 := by
      rw [mulSum_map]
      refine List.sum_eq_zero fun x hx => ?_
      obtain ⟨i, hi, rfl⟩ := List.mem_iff_getElem.1 hx
      rw [List.getElem_zipWith, List.getElem_map, hundred_lt, zero_nsmul]
    have q4' : HQ c4 acc (mulSum Ps ((scalars.map fun s => s.value.val).map (· / 16 ^ (64 - 1)))) := by
      have := mulSum_step 63 Ps (scalars.map fun s => s.value.val)
      rw [hz, nsmul_zero, add_zero] at this
      rw [show 64 - 1 = 63 from rfl, ← this]
      exact q4
    obtain ⟨r, c5, f5, g5, e5, q5⟩ := (CSpec.shamirLoop_q cands windows Ps _ hs hlen hcn 63 1 acc le_rfl rfl).run c4 g4
      ⟨t3.imp fun _ _ h => h.ext e4, w3.imp fun _ _ h => h.ext e4, q4'⟩
    refine ⟨r, c5, ?_, g5, e12.trans (e3.trans (e4.trans e5)), q5⟩
    have f0 : Circuit.assertM (F := N) (points.length = scalars.length) ctx = some ((), ctx) := by
      unfold Circuit.assertM
      rw [if_pos hl]
    have f3' : Circuit.unwrapM windows.head? c3 = some (w0, c3) := by rw [hwc]; rfl
    have fb : Circuit.unwrapM (windows.mapM fun w => w[0]?) c3 = some (bits, c3) := by rw [hbits]; rfl
    unfold Circuit.shamir
    rw [bind_some f0, bind_some f1, bind_some f2, bind_some f3, bind_some f3', hl0]
    dsimp only
    rw [bind_some fb, bind_some f4]
    exact f5

/-! ### sub -/

/-- An honest point whose second coordinate may have been negated. -/
structure HPo (c : Ctx N) (p : APt) : Prop where
  x : HInt c p.x
  xo : EvenCount p.x.overflows
  y : HInt c p.y
  yo : p.y.overflows < 32
  z : ValidAV c p.z
  bit : p.z.value = 0 ∨ p.z.value = 1
  curv : p.curv = none

theorem HPo.ext {c c' : Ctx N} {p : APt} (h : HPo c p) (he : Ext c c') : HPo c' p :=
  ⟨h.x.ext he, h.xo, h.y.ext he, h.yo, h.z.ext he, h.bit, h.curv⟩

/-- The result of `sub`: an honest point standing for `P`. -/
structure HOut (c : Ctx N) (p : APt) (P : Pt) : Prop where
  hp : HPo c p
  rep : Represents c.wit p P

theorem HPo.rep_ext {c c' : Ctx N} {p : APt} {P : Pt} (h : HPo c p) (he : Ext c c') (hr : Represents c.wit p P) :
    Represents c'.wit p P := by
  refine ⟨⟨⟨(h.x.ext he).ann, hr.1.x.2⟩, ⟨(h.y.ext he).ann, hr.1.y.2⟩, fun h0 => ?_, fun h0 => ?_, ?_⟩, tangentOk_none h.curv⟩
  · rw [val_wit (h.z.ext he), ← val_wit h.z]
    exact hr.1.ident h0
  · rw [val_wit (h.z.ext he), ← val_wit h.z, residue_ext h.x he, residue_ext h.y he]
    exact hr.1.affine h0
  · rw [h.curv]
    rintro _ ⟨⟩

theorem HOut.ext {c c' : Ctx N} {p : APt} {P : Pt} (h : HOut c p P) (he : Ext c c') : HOut c' p P :=
  ⟨h.hp.ext he, h.hp.rep_ext he h.rep⟩

theorem CSpec.bisecPoint_o (k : AV N) (a b : APt) (hk : k.value = 0 ∨ k.value = 1) (hab : a.z.value = 0 ∨ a.z.value = 1)
    (hbb : b.z.value = 0 ∨ b.z.value = 1) (hax : EvenCount a.x.overflows) (hbx : EvenCount b.x.overflows)
    (hay : a.y.overflows < 32) (hby : b.y.overflows < 32) :
    CSpec tables (Circuit.bisecPoint k a b) (fun c => ValidAV c k ∧ (HInt c a.x ∧ HInt c a.y ∧ ValidAV c a.z) ∧
      (HInt c b.x ∧ HInt c b.y ∧ ValidAV c b.z)) (fun c r => HPo c r) := by
  constructor
  rintro ctx hg ⟨h1, ⟨a1, a2, a3⟩, b1, b2, b3⟩
  obtain ⟨x, c1, f1, g1, e1, p1⟩ := (CSpec.ibisec k a.x b.x hk).run ctx hg ⟨h1, a1, b1⟩
  obtain ⟨y, c2, f2, g2, e2, p2⟩ := (CSpec.ibisec k a.y b.y hk).run c1 g1 ⟨h1.ext e1, a2.ext e1, b2.ext e1⟩
  have e12 := e1.trans e2
  obtain ⟨z, c3, f3, g3, e3, p3, bt⟩ := (CSpec.bisecCond_bit k a.z b.z hk hab hbb).run c2 g2
    ⟨h1.ext e12, a3.ext e12, b3.ext e12⟩
  refine ⟨⟨x, y, z, .none⟩, c3, ?_, g3, e12.trans e3, ⟨p1.ext (e2.trans e3), ?_, p2.ext e3, ?_, p3, bt, rfl⟩⟩
  · unfold Circuit.bisecPoint
    rw [bind_some f1, bind_some f2, bind_some f3]
    rfl
  · dsimp only
    rw [ibisec_count f1]
    exact evenCount_max hax hbx
  · dsimp only
    rw [ibisec_count f2]
    split <;> assumption

/-- `add` of an honest point with a point that may have been negated. -/
theorem CSpec.pAdd_o (a b : APt) : CSpec tables (Circuit.pAdd a b)
    (fun c => HP c a ∧ HPo c b ∧ (a.curv = .none → TangentSafe (residue c.wit a.x) (residue c.wit a.y)))
    (fun c r => HPo c r.1 ∧ HP c r.2 ∧ ∃ k, KnownCurv c a r.2 k) := by
  constructor
  rintro ctx hg ⟨ha, hb, hs⟩
  obtain ⟨dx, c1, f1, g1, e1, p1, o1⟩ := (CSpec.isub_even a.x b.x ha.xo hb.xo).run ctx hg ⟨ha.x, hb.x⟩
  obtain ⟨dy, c2, f2, g2, e2, p2⟩ := (CSpec.isub a.y b.y (by have := ha.yo.1; have := hb.yo; omega)).run c1 g1
    ⟨ha.y.ext e1, hb.y.ext e1⟩
  have o2 : dy.overflows < 32 := by rw [isub_ov f2]; split <;> omega
  obtain ⟨⟨xe, tg, dy', dx'⟩, c3, f3, g3, e3, p3, q3, o3, r3, -⟩ := (CSpec.idiv dy dx).run c2 g2 ⟨p2, p1.ext e2⟩
  dsimp only at p3 q3 o3 r3
  obtain ⟨-, k3⟩ := (Spec.idiv_val dy dx).run _ _ _ f3 _ g3.sat
  have p1' := p1.ext (e2.trans e3)
  have p2' := p2.ext e3
  obtain ⟨bx, -⟩ := k3 _ _ ⟨p2'.ann, o2, rfl⟩ ⟨p1'.ann, by have := o1.1; omega, rfl⟩
  have bitx : xe.value = 0 ∨ xe.value = 1 := by
    unfold IsBit at bx
    rw [val_wit p3] at bx
    rw [bx]
    split <;> simp
  obtain ⟨⟨ye, dy2⟩, c4, f4, g4, e4, p4, w4, -⟩ := (CSpec.iisZero dy').run c3 g3 r3
  dsimp only at p4 w4
  have bity : ye.value = 0 ∨ ye.value = 1 := by rw [w4]; split <;> simp
  obtain ⟨eq, c5, f5, g5, e5, p5, w5⟩ := (CSpec.mul (t := tables) xe ye).run c4 g4 ⟨p3.ext e4, p4⟩
  have biteq : eq.value = 0 ∨ eq.value = 1 := by
    rw [w5]
    rcases bitx with h | h <;> rcases bity with h' | h' <;> rw [h, h'] <;> simp
  have e15 := e1.trans (e2.trans (e3.trans (e4.trans e5)))
  obtain ⟨⟨k, a'⟩, c6, f6, g6, e6, hk, ha', -, -, -, hkn⟩ := (CSpec.curvature a).run c5 g5 ⟨ha.ext e15, fun h => by
    have := hs h
    rw [residue_ext ha.x e15, residue_ext ha.y e15]
    exact this⟩
  dsimp only at hk ha' hkn
  have e36 := e4.trans (e5.trans e6)
  have htg : HCv c6 ⟨tg, xe⟩ := ⟨q3.ext e36, by dsimp only; omega, p3.ext e36, bitx⟩
  obtain ⟨lam, c7, f7, g7, e7, hl⟩ := (CSpec.bisecCurv eq k ⟨tg, xe⟩ biteq).run c6 g6 ⟨p5.ext e6, hk, htg⟩
  have e17 := e15.trans (e6.trans e7)
  have ha7 := ha'.ext e7
  have hb7 := hb.ext e17
  obtain ⟨q, c8, f8, g8, e8, hq, -⟩ := (CSpec.lambdaToPoint lam a' ⟨b.x, a'.y, a'.z, none⟩).run c7 g7
    ⟨hl, ha7, ⟨hb7.x, hb7.xo, ha7.y, ha7.yo, ha7.z, ha7.bit, by rintro _ ⟨⟩⟩⟩
  have ha8 := ha7.ext e8
  have hb8 := hb.ext (e17.trans e8)
  obtain ⟨q1, c9, f9, g9, e9, hq1⟩ := (CSpec.bisecPoint_o a'.z b q ha8.bit hb8.bit hq.bit hb8.xo hq.xo hb8.yo (by have := hq.yo.1; omega)).run c8 g8
    ⟨ha8.z, ⟨hb8.x, hb8.y, hb8.z⟩, hq.x, hq.y, hq.z⟩
  have hb9 := hb8.ext e9
  have ha9 := ha8.ext e9
  obtain ⟨q2, c10, f10, g10, e10, hq2⟩ := (CSpec.bisecPoint_o b.z a' q1 hb9.bit ha9.bit hq1.bit ha9.xo hq1.xo (by have := ha9.yo.1; omega) hq1.yo).run c9 g9
    ⟨hb9.z, ⟨ha9.x, ha9.y, ha9.z⟩, hq1.x, hq1.y, hq1.z⟩
  have e610 := e7.trans (e8.trans (e9.trans e10))
  refine ⟨(q2, a'), c10, ?_, g10, e17.trans (e8.trans (e9.trans e10)), hq2, ha'.ext e610, k, hkn.ext (ha.ext (e15.trans e6)) hk e610⟩
  have f8' : Circuit.lambdaToPoint lam a' b c7 = some (q, c8) := f8
  unfold Circuit.pAdd
  rw [bind_some f1, bind_some f2, bind_some f3]
  dsimp only
  rw [bind_some f4]
  dsimp only
  unfold Circuit.and
  rw [bind_some f5, bind_some f6]
  dsimp only
  rw [bind_some f7, bind_some f8', bind_some f9, bind_some f10]
  rfl

/-- `neg`. -/
theorem CSpec.pNeg_q (b : APt) (Q : Pt) : CSpec tables (Circuit.pNeg b) (fun c => HQ c b Q) (fun c r => HOut c r (-Q)) := by
  constructor
  intro ctx hg hb
  obtain ⟨y, c1, f1, g1, e1, p1⟩ := (CSpec.ineg b.y (by have := hb.hp.yo.1; omega)).run ctx hg hb.hp.y
  have hb1 := hb.ext e1
  have hnb : HPo c1 ⟨b.x, y, b.z, none⟩ := ⟨hb1.hp.x, hb1.hp.xo, p1, by
    dsimp only
    rw [ineg_ov f1]
    split <;> omega, hb1.hp.z, hb1.hp.bit, rfl⟩
  have hrun : Circuit.pNeg b ctx = some (⟨b.x, y, b.z, none⟩, c1) := by
    unfold Circuit.pNeg
    rw [bind_some f1]
    rfl
  exact ⟨_, c1, hrun, g1, e1, hnb, ((Spec.pNeg b).run _ _ _ hrun _ g1.sat).2 Q hb1.rep.1⟩

/-- `add` of a regular point and any honest point. -/
theorem CSpec.pAdd_out (a b : APt) (P Q : Pt) : CSpec tables (Circuit.pAdd a b)
    (fun c => HQ c a P ∧ HOut c b Q ∧ (a.curv = none → Safe P)) (fun c r => HOut c r.1 (P + Q) ∧ HQ c r.2 P) := by
  constructor
  rintro ctx hg ⟨ha, hb, hs⟩
  obtain ⟨⟨r, a'⟩, c2, f2, g2, e2, h2, h3, k, hk⟩ := (CSpec.pAdd_o a b).run ctx hg ⟨ha.hp, hb.hp, fun h => ha.safe (hs h)⟩
  dsimp only at h2 h3 hk
  have ha1 := ha.ext e2
  obtain ⟨-, hsp⟩ := (Spec.pAdd' a b).run _ _ _ f2 _ g2.sat
  obtain ⟨k1, k2, k3, k4, k5, -⟩ := hsp P Q ha1.rep.1 (hb.ext e2).rep.1 fun _ => ha1.rep.2
  dsimp only at k1 k2 k3 k4 k5
  refine ⟨(r, a'), c2, f2, g2, e2, ⟨h2, k1⟩, HQ.of h3 ⟨k2, k3 ha1.rep.2⟩ fun h0 => ⟨?_, ?_, hk.zero_of ha1 h0⟩⟩
  · rw [k4, ha1.x, (coord_zero h0).1]
  · rw [k5, ha1.y, (coord_zero h0).2]

/-- `sub`. -/
theorem CSpec.pSub_q (a b : APt) (P Q : Pt) : CSpec tables (Circuit.pSub a b)
    (fun c => HQ c a P ∧ HQ c b Q ∧ (a.curv = none → Safe P)) (fun c r => HOut c r.1 (P - Q) ∧ HQ c r.2 P) := by
  constructor
  rintro ctx hg ⟨ha, hb, hs⟩
  obtain ⟨nb, c1, f1, g1, e1, h1⟩ := (CSpec.pNeg_q b Q).run ctx hg hb
  obtain ⟨r, c2, f2, g2, e2, h2, h3⟩ := (CSpec.pAdd_out a nb P (-Q)).run c1 g1 ⟨ha.ext e1, h1, hs⟩
  refine ⟨r, c2, ?_, g2, e1.trans e2, by rw [sub_eq_add_neg]; exact h2, h3⟩
  unfold Circuit.pSub
  rw [bind_some f1, f2]

theorem HQ.out {c : Ctx N} {p : APt} {P : Pt} (h : HQ c p P) : HOut c { p with curv := none } P := by
  have hr := h.rep
  exact ⟨⟨h.hp.x, h.hp.xo, h.hp.y, by have := h.hp.yo.1; dsimp only; omega, h.hp.z, h.hp.bit, rfl⟩,
    ⟨hr.1.x, hr.1.y, hr.1.ident, hr.1.affine, by rintro _ ⟨⟩⟩, tangentOk_none rfl⟩

/-- `reduce`. -/
theorem CSpec.pReduce_raw (a : APt) : CSpec tables (Circuit.pReduce a)
    (fun c => HInt c a.x ∧ HInt c a.y ∧ ValidAV c a.z ∧ (a.z.value = 0 ∨ a.z.value = 1) ∧ ∀ k, a.curv = some k → HCv c k)
    (fun c r => HP c r.1 ∧ r.1.curv = none ∧ HP c r.2 ∧ r.2.curv = a.curv ∧ r.2.z = a.z ∧
      residue c.wit r.2.x = residue c.wit a.x ∧ residue c.wit r.2.y = residue c.wit a.y) := by
  constructor
  rintro ctx hg ⟨hx, hy, hz, hb, hc⟩
  obtain ⟨x, c1, f1, g1, e1, h1, o1, -, m1⟩ := (CSpec.reduceH a.x).run ctx hg hx
  obtain ⟨y, c2, f2, g2, e2, h2, o2, -, m2⟩ := (CSpec.reduceH a.y).run c1 g1 (hy.ext e1)
  obtain ⟨i, c3, f3, g3, e3, h3, -⟩ := CSpec.assignIdentity.run c2 g2 trivial
  have e13 := e1.trans (e2.trans e3)
  have ha' : HP c3 { a with x := x, y := y } := 
    ⟨h1.ext (e2.trans e3), by dsimp only; rw [o1]; exact evenCount_zero, h2.ext e3,
      by dsimp only; rw [o2]; exact evenCount_zero, hz.ext e13, hb, fun k hk => (hc k hk).ext e13⟩
  obtain ⟨p, c4, f4, g4, e4, h4, hn⟩ := (CSpec.bisecPoint a.z i { a with x := x, y := y } hb).run c3 g3 ⟨ha'.z, h3, ha'⟩
  have hrun : Circuit.pReduce a ctx = some ((p, { a with x := x, y := y }), c4) := by
    unfold Circuit.pReduce
    rw [bind_some f1, bind_some f2]
    dsimp only
    rw [bind_some f3, bind_some f4]
    rfl
  have e := e13.trans e4
  have e24 := e2.trans (e3.trans e4)
  have e34 := e3.trans e4
  refine ⟨_, c4, hrun, g4, e, h4, hn, ha'.ext e4, rfl, rfl, ?_, ?_⟩
  · dsimp only
    rw [residue_ext h1 e24, residue_ext hx e, ← residue_ext hx e1]
    exact (ZMod.natCast_eq_natCast_iff _ _ _).2 m1
  · dsimp only
    rw [residue_ext h2 e34, residue_ext hy e, ← residue_ext hy (e1.trans e2)]
    exact (ZMod.natCast_eq_natCast_iff _ _ _).2 m2

/-- `reduce` of a result. -/
theorem CSpec.pReduce_o (a : APt) (P : Pt) : CSpec tables (Circuit.pReduce a) (fun c => HOut c a P)
    (fun c r => HQ c r.1 P ∧ r.1.curv = none ∧ HOut c r.2 P) := by
  constructor
  intro ctx hg ha
  obtain ⟨r, c1, f1, g1, e1, h1, hn, h2, h3, -⟩ := (CSpec.pReduce_raw a).run ctx hg
    ⟨ha.hp.x, ha.hp.y, ha.hp.z, ha.hp.bit, by rw [ha.hp.curv]; rintro _ ⟨⟩⟩
  obtain ⟨-, hsp⟩ := (Spec.pReduce a).run _ _ _ f1 _ g1.sat
  obtain ⟨k1, k2, -, k4⟩ := hsp P (ha.ext e1).rep.1
  rw [ha.hp.curv] at h3
  exact ⟨r, c1, f1, g1, e1, HQ.of h1 k1 fun h0 => ⟨(k4 h0).1, (k4 h0).2, by rw [hn]; rintro _ ⟨⟩⟩, hn,
    ⟨h2.x, h2.xo, h2.y, by have := h2.yo.1; omega, h2.z, h2.bit, h3⟩, k2, tangentOk_none h3⟩

/-- `reduce` of a regular point. -/
theorem CSpec.pReduce_q (a : APt) (P : Pt) : CSpec tables (Circuit.pReduce a) (fun c => HQ c a P)
    (fun c r => HQ c r.1 P ∧ r.1.curv = none ∧ HQ c r.2 P) := by
  constructor
  intro ctx hg ha
  obtain ⟨r, c1, f1, g1, e1, h1, hn, h2, h3, h4, h5, h6⟩ := (CSpec.pReduce_raw a).run ctx hg
    ⟨ha.hp.x, ha.hp.y, ha.hp.z, ha.hp.bit, ha.hp.curv⟩
  obtain ⟨-, hsp⟩ := (Spec.pReduce a).run _ _ _ f1 _ g1.sat
  have ha1 := ha.ext e1
  obtain ⟨k1, -, -, k4⟩ := hsp P ha1.rep.1
  refine ⟨r, c1, f1, g1, e1, HQ.of h1 k1 fun h0 => ⟨(k4 h0).1, (k4 h0).2, by rw [hn]; rintro _ ⟨⟩⟩, hn, h2, ?_, ?_, ?_, ?_⟩
  · rw [h4]; exact ha1.z
  · rw [h5]; exact ha1.x
  · rw [h6]; exact ha1.y
  · rw [h3]; exact ha1.k

end Verif.Circuit
