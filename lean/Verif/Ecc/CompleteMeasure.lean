import Verif.Ecc.Measure
import Verif.Ecc.CompleteShamir
import Verif.Ecc.Grows

/-!
# Multi-exponentiation in shape mode returns

Where the slopes can be computed. The result is not the sum: after two windows, every further window multiplies by 17.
-/

set_option exponentiation.threshold 600

namespace Verif.Circuit
open Verif.Ecc

/-- The sums of the first two windows. -/
def shapeStart (Ps : List Pt) (ns : List ℕ) : Pt := mulSum Ps (ns.map (hexDigit 62)) + 2 ^ 4 • mulSum Ps (ns.map (hexDigit 63))

/-- What an honest multi-exponentiation in shape mode needs. -/
structure ShapeSafe (Ps : List Pt) (ns : List ℕ) : Prop where
  table : ∀ P ∈ Ps, ∀ k, 1 ≤ k → k ≤ 15 → Safe (k • P)
  window : Safe (mulSum Ps (ns.map (hexDigit 62)))
  doubled : ∀ i < 4, Safe (2 ^ i • mulSum Ps (ns.map (hexDigit 63)))
  inner : ∀ j, 62 ≤ j → j ≤ 63 → NoCancel 0 (List.zipWith (fun (P : Pt) (n : ℕ) => hexDigit j n • P) Ps ns)
  outer : shapeStart Ps ns = 0 → mulSum Ps (ns.map (hexDigit 62)) = 0
  loop : ∀ j < 62, ∀ i < 4, Safe (2 ^ i • 17 ^ j • shapeStart Ps ns)

theorem CSpec.expand {k : ℕ} (hk : k ≠ 0) (v : AV N) : CSpec tables (expand k v) (fun _ => True) (fun _ _ => True) := by
  constructor
  rintro ctx hg -
  have he : Ext ctx { ctx with
      offset := ctx.offset + k
      wit := Function.update ctx.wit (ctx.offset + k - 1) (Function.update (ctx.wit (ctx.offset + k - 1)) v.cell.col v.value) } :=
    ⟨Nat.le_add_right _ _, fun r hr => Function.update_of_ne (by omega) _ _⟩
  refine ⟨(), _, ?_, fun adv ha => ?_, he, trivial⟩
  · unfold Circuit.expand
    rw [if_neg (by omega)]
  · exact hg adv (ha.ext he)

theorem seventeen {P : Pt} (h : P + 2 ^ 4 • P = 0) : P = 0 := by
  have e : P + 2 ^ 4 • P = 17 • P := by
    rw [show (17 : ℕ) = 1 + 2 ^ 4 from rfl, add_nsmul, one_nsmul]
  rw [e] at h
  exact nsmul_zero_of_lt (by decide +kernel) (by norm_num) h

theorem CSpec.shapeLoop_q {rsize : ℕ} (hr : rsize ≠ 0) : ∀ (n : ℕ) (acc : APt) (P : Pt) (_ : ∀ j < n, ∀ i < 4, Safe (2 ^ i • 17 ^ j • P)),
    CSpec tables (shapeLoop rsize n acc) (fun c => HQ c acc P) (fun c r => HQ c r (17 ^ n • P))
  | 0, acc, P, _ => (CSpec.pure acc _).mono (fun _ h => h) (by rintro c r ⟨h, rfl⟩; simpa using h)
  | n + 1, acc, P, hs => by
    constructor
    intro ctx hg ha
    obtain ⟨u, c1, f1, g1, e1, -⟩ := (CSpec.expand hr acc.z).run ctx hg trivial
    obtain ⟨r, c2, f2, g2, e2, q2⟩ := (CSpec.doubles_q 4 acc P fun i hi => by simpa using hs 0 (by omega) i hi).run c1 g1 (ha.ext e1)
    have e12 := e1.trans e2
    obtain ⟨⟨p, a'⟩, c3, f3, g3, e3, q3, -⟩ := (CSpec.pAdd_q acc r P (2 ^ 4 • P) seventeen).run c2 g2
      ⟨ha.ext e12, q2, fun _ => by simpa using hs 0 (by omega) 0 (by omega)⟩
    dsimp only at q3
    have e : P + 2 ^ 4 • P = 17 • P := by rw [show (17 : ℕ) = 1 + 2 ^ 4 from rfl, add_nsmul, one_nsmul]
    rw [e] at q3
    obtain ⟨x, c4, f4, g4, e4, q4⟩ := (CSpec.shapeLoop_q hr n p (17 • P) fun j hj i hi => by
      have := hs (j + 1) (by omega) i hi
      rwa [pow_succ, mul_nsmul' (n := 17)] at this).run c3 g3 q3
    refine ⟨x, c4, ?_, g4, e12.trans (e3.trans e4), ?_⟩
    · unfold Circuit.shapeLoop
      rw [bind_some f1, bind_some f2, bind_some f3]
      exact f4
    · rw [pow_succ, mul_nsmul']
      exact q4

/-! ### A window takes rows -/

theorem bound {α β : Type} {x : M N α} {f : α → M N β} {ctx ctx' : Ctx N} {b : β} (h : (x >>= f) ctx = some (b, ctx')) :
    ∃ a c, x ctx = some (a, c) ∧ f a c = some (b, ctx') := by
  obtain ⟨⟨a, c⟩, h1, h2⟩ := Option.bind_eq_some_iff.1 h
  exact ⟨a, c, h1, h2⟩

theorem oneLine_rows {cs : List (Schema N × N)} {k : N} {m : List N} {next : N} {c c' : Ctx N} {r : Fin 5 → AV N} (h : Circuit.oneLine cs k m next c = some (r, c')) : c.offset < c'.offset := by
  unfold Circuit.oneLine oneLineSel at h
  split at h
  · obtain ⟨-, h⟩ := Prod.mk.inj (Option.some.inj h)
    rw [← h]
    exact Nat.lt_succ_self _
  · cases h

theorem inner_rows {a0 a1 : APt} {cs : List APt} {b : AV N} {bs : List (AV N)} {l : List (List APt × List (AV N))} {c c' : Ctx N} {r : APt}
    (h : Circuit.inner ((a0 :: a1 :: cs, b :: bs) :: l) c = some (r, c')) : c.offset < c'.offset := by
  unfold Circuit.inner at h
  obtain ⟨p, d1, h1, h2⟩ := bound h
  refine lt_of_lt_of_le ?_ (Grows.run _ _ _ h2).1
  unfold Circuit.pick at h1
  obtain ⟨p, d2, h1, h2⟩ := bound h1
  refine lt_of_lt_of_le ?_ (Grows.run _ _ _ h2).1
  unfold Circuit.pickPairs at h1
  obtain ⟨p, d3, i1, i2⟩ := bound h1
  obtain ⟨p', d3', i3, i4⟩ := bound i2
  cases i4
  refine lt_of_lt_of_le ?_ (Grows.run _ _ _ i3).1
  unfold Circuit.bisecPointCurv at i1
  obtain ⟨x, d4, j1, i1⟩ := bound i1
  obtain ⟨y, d5, j2, i1⟩ := bound i1
  obtain ⟨z, d6, j3, i1⟩ := bound i1
  obtain ⟨q, d7, j4, i1⟩ := bound i1
  obtain ⟨q', d8, j5, i1⟩ := bound i1
  obtain ⟨q'', d9, j6, i1⟩ := bound i1
  cases i1
  have g1 := (Grows.run _ _ _ j1).1
  have g2 := (Grows.run _ _ _ j2).1
  have g4 := (Grows.run _ _ _ j4).1
  have g5 := (Grows.run _ _ _ j5).1
  have g6 := (Grows.run _ _ _ j6).1
  obtain ⟨_, d10, j3, j7⟩ := bound j3
  cases j7
  have := oneLine_rows j3
  omega

theorem inner_rows' {c0 : Ctx N} {Ps : List Pt} {l : List (List APt × List (AV N))} (hl : List.Forall₂ (PickRow c0) Ps l) {c c' : Ctx N} {r : APt}
    (h : Circuit.inner l c = some (r, c')) : c.offset < c'.offset := by
  cases hl with
  | nil => cases h
  | @cons P x _ _ hx _ =>
    obtain ⟨cs, bs⟩ := x
    have h1 := hx.len
    have h2 := hx.len4
    dsimp only at h1 h2
    match cs, bs, h1, h2 with
    | a0 :: a1 :: cs, b :: bs, _, _ => exact inner_rows h

/-! ### The whole -/

theorem CSpec.shamirShape_q (points : List APt) (scalars : List (AV N)) (Ps : List Pt) (hs : ShapeSafe Ps (scalars.map fun s => s.value.val))
    (hl : points.length = scalars.length) (hne : points ≠ []) : CSpec tables (Circuit.shamirShape points scalars)
      (fun c => List.Forall₂ (HQ c) points Ps ∧ ∀ s ∈ scalars, ValidAV c s)
      (fun c r => HQ c r (17 ^ 62 • shapeStart Ps (scalars.map fun s => s.value.val))) := by
  constructor
  rintro ctx hg ⟨hp, hv⟩
  obtain ⟨windows, c1, f1, g1, e1, w1⟩ := (CSpec.decomposeAll_q scalars).run ctx hg hv
  obtain ⟨id, c2, f2, g2, e2, q2, k2⟩ := CSpec.assignIdentity_q.run c1 g1 trivial
  have e12 := e1.trans e2
  obtain ⟨cands, c3, f3, g3, e3, t3⟩ := (CSpec.allCands_q id points Ps hs.table).run c2 g2 ⟨q2, k2, hp.imp fun _ _ h => h.ext e12⟩
  have w3 := w1.imp fun _ _ h => h.ext (e2.trans e3)
  have hlen : Ps.length = (scalars.map fun s => s.value.val).length := by rw [List.length_map, ← hl, hp.length_eq]
  have hcn : cands ≠ [] := by
    intro h
    rw [h] at t3
    cases t3
    cases hp
    exact hne rfl
  have get : ∀ n < 64, ∃ bits, windows.mapM (fun w => w[n]?) = some bits := fun n hn => mapM_get_some (n := n) (l := windows) (by
    intro w hmem
    obtain ⟨i, hi, rfl⟩ := List.mem_iff_getElem.1 hmem
    have := (List.forall₂_iff_get.1 w3).2 i (by rw [w3.length_eq]; exact hi) hi
    have := this.len
    simp only [List.get_eq_getElem] at this
    omega)
  have hzip : ∀ {n : ℕ} {bits}, windows.mapM (fun w => w[n]?) = some bits → cands.zip bits ≠ [] := by
    intro n bits hbits h
    have l1 := congrArg List.length h
    rw [List.length_zip, ← (mapM_get hbits).length_eq, ← w3.length_eq, ← hlen, t3.length_eq, min_self] at l1
    exact hcn (List.length_eq_zero_iff.1 l1)
  cases hwc : windows with
  | nil =>
    rw [hwc] at w1
    have := w1.length_eq
    rw [List.length_map, ← hl] at this
    exact absurd (List.length_eq_zero_iff.1 this) hne
  | cons w0 ws =>
    have hl0 : w0.length = 64 := by
      rw [hwc] at w1
      cases hns : scalars.map (fun s => s.value.val) with
      | nil => rw [hns] at w1; cases w1
      | cons n ns => rw [hns] at w1; exact (List.forall₂_cons.1 w1).1.len
    obtain ⟨bits, hbits⟩ := get 0 (by omega)
    obtain ⟨hrow, hch⟩ := rows (by omega) t3 w3 (mapM_get hbits) hlen
    obtain ⟨acc, c4, f4, g4, e4, q4⟩ := (CSpec.inner_q (cands.zip bits) Ps (hzip hbits) (by rw [hch]; exact hs.inner _ (by omega) (by omega))).run c3 g3 hrow
    rw [hch, ← mulSum_map] at q4
    have t4 := t3.imp fun _ _ h => h.ext e4
    have w4 := w3.imp fun _ _ h => h.ext e4
    obtain ⟨bits1, hbits1⟩ := get 1 (by omega)
    obtain ⟨hrow1, hch1⟩ := rows (by omega) t4 w4 (mapM_get hbits1) hlen
    obtain ⟨in1, c5, f5, g5, e5, q5⟩ := (CSpec.inner_q (cands.zip bits1) Ps (hzip hbits1) (by rw [hch1]; exact hs.inner _ (by omega) (by omega))).run c4 g4 hrow1
    rw [hch1, ← mulSum_map] at q5
    have hrs : c5.offset - c4.offset ≠ 0 := by
      have := inner_rows' hrow1 f5
      omega
    obtain ⟨dbl, c6, f6, g6, e6, q6⟩ := (CSpec.doubles_q 4 acc _ hs.doubled).run c5 g5 (q4.ext e5)
    obtain ⟨⟨p, a'⟩, c7, f7, g7, e7, q7, -⟩ := (CSpec.pAdd_q in1 dbl _ _ hs.outer).run c6 g6 ⟨q5.ext e6, q6, fun _ => hs.window⟩
    dsimp only at q7
    obtain ⟨r, c8, f8, g8, e8, q8⟩ := (CSpec.shapeLoop_q hrs 62 p (shapeStart Ps (scalars.map fun s : AV N => s.value.val)) hs.loop).run c7 g7 q7
    refine ⟨r, c8, ?_, g8, e12.trans (e3.trans (e4.trans (e5.trans (e6.trans (e7.trans e8))))), q8⟩
    have f0 : Circuit.assertM (F := N) (points.length = scalars.length) ctx = some ((), ctx) := by
      unfold Circuit.assertM
      rw [if_pos hl]
    have f3' : Circuit.unwrapM windows.head? c3 = some (w0, c3) := by rw [hwc]; rfl
    have fb : Circuit.unwrapM (windows.mapM fun w => w[0]?) c3 = some (bits, c3) := by rw [hbits]; rfl
    have fb1 : Circuit.unwrapM (windows.mapM fun w => w[1]?) c4 = some (bits1, c4) := by rw [hbits1]; rfl
    have ft : Circuit.timed (Circuit.inner (cands.zip bits1)) c4 = some ((in1, c5.offset - c4.offset), c5) := by
      unfold Circuit.timed
      rw [f5]
      rfl
    unfold Circuit.shamirShape
    rw [bind_some f0, bind_some f1, bind_some f2, bind_some f3, bind_some f3', hl0]
    dsimp only
    rw [bind_some fb, bind_some f4]
    change Circuit.shapeTail cands windows (62 + 1) acc c4 = _
    rw [Circuit.shapeTail]
    rw [bind_some fb1, bind_some ft]
    dsimp only
    rw [bind_some f6, bind_some f7]
    exact f8

end Verif.Circuit
