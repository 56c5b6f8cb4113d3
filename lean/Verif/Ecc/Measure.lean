import Verif.Ecc.Count
import Mathlib.Data.Fintype.Prod

/-!
# The measuring pass of the ECC chip

The floor planner `V1` runs `synthesize` twice: once to measure how many rows each region takes, and once to assign. In the first pass the
context of the first region is in shape mode (verify_circuit.rs:413), and `shamir` then computes its first two windows in full and skips
the rows of every other (ecc_chip.rs:190-241). Regions are placed with the measured numbers, so these must not be smaller than the numbers
of rows that are assigned later.
-/

namespace Verif.Circuit
open Verif.Ecc

/-! ### Shape mode -/

/-- `Context::expand`: gates/base_gate.rs:130-139. One cell is assigned in the last of the rows; `*self.offset + size - 1` underflows when
both are zero. -/
def expand (size : ℕ) (v : AV N) : M N Unit := fun ctx =>
  if ctx.offset + size = 0 then none
  else some ((), { ctx with
    offset := ctx.offset + size
    wit := Function.update ctx.wit (ctx.offset + size - 1) (Function.update (ctx.wit (ctx.offset + size - 1)) v.cell.col v.value) })

/-- `let c = *ctx.offset; …; let rsize = *ctx.offset - c;`: ecc_chip.rs:208, 221-223. -/
def timed {α : Type} (x : M N α) : M N (α × ℕ) := fun ctx => (x ctx).map fun r => ((r.1, r.2.offset - ctx.offset), r.2)

/-- `FiveColumnBaseGate::in_shape_mode`: five/base_gate.rs:15-25. The row that is written to find out. -/
def shapeRow : M N Unit := do
  let _ ← oneLine [(.unassigned 1, -1)] 1 [] 0
  return ()

/-- The windows from number 2 on: ecc_chip.rs:193-205, 226-241, where `round_size` is known. The accumulator stands for the sum of the
window. -/
def shapeLoop (rsize : ℕ) : ℕ → APt → M N APt
  | 0, acc => pure acc
  | n + 1, acc => do
    expand rsize acc.z
    let r ← doubles 4 acc
    let (r, _) ← pAdd acc r
    shapeLoop rsize n r

/-- Window 1, whose rows are counted, and those after it: ecc_chip.rs:193-241. -/
def shapeTail (cands : List (List APt)) (windows : List (List (List (AV N)))) : ℕ → APt → M N APt
  | 0, acc => pure acc
  | n + 1, acc => do
    let bits ← unwrapM (windows.mapM fun w => w[1]?)
    let (innerAcc, rsize) ← timed (inner (cands.zip bits))
    let acc ← doubles 4 acc
    let (acc, _) ← pAdd innerAcc acc
    shapeLoop rsize n acc

/-- `shamir` in shape mode: ecc_chip.rs:139-244. -/
def shamirShape (points : List APt) (scalars : List (AV N)) : M N APt := do
  assertM (points.length = scalars.length)
  let windows ← decomposeAll scalars
  let identity ← assignIdentity
  let cands ← allCands identity points
  let w0 ← unwrapM windows.head?
  match w0.length with
  | 0 => unwrapM none
  | n + 1 => do
    let bits ← unwrapM (windows.mapM fun w => w[0]?)
    let acc ← inner (cands.zip bits)
    shapeTail cands windows n acc

/-! ### Its operations -/

theorem Takes.expand (k : ℕ) (v : AV N) : Takes (expand k v) (tick k) Any := by
  constructor
  intro c a c' h
  unfold Circuit.expand at h
  split at h
  · cases h
  · cases h
    exact ⟨rfl, trivial⟩

theorem Takes.timed {α β : Type} {x : M N α} {y : Cnt β} {R : α → β → Prop} (h : Takes x y R) : Takes (timed x) y fun a b => R a.1 b ∧ a.2 = y.2 := by
  constructor
  intro c a c' h1
  unfold Circuit.timed at h1
  obtain ⟨⟨a1, c1⟩, h2, h3⟩ := Option.map_eq_some_iff.1 h1
  cases h3
  obtain ⟨e, r⟩ := h.run _ _ _ h2
  refine ⟨e, r, ?_⟩
  show c1.offset - c.offset = y.2
  omega

theorem Takes.shapeRow : Takes shapeRow (tick 1) Any := Takes.then (Takes.oneLine _ _ _ _)

/-! ### The shapes that occur -/

/-- A result after `k` rows. -/
def cost {α : Type} (k : ℕ) (a : α) : Cnt α := (a, k)

/-- A point as it is read, assigned or normalized: it has been reduced, and its curvature has not been computed. -/
def flat (f : Bool × Bool) : PSh := ⟨⟨0, f.1⟩, ⟨0, f.2⟩, none⟩

/-- A point picked from a table. -/
def picked : PSh := ⟨⟨28, false⟩, ⟨28, false⟩, some ⟨0, false⟩⟩

/-- A sum. -/
def summed : PSh := ⟨⟨28, false⟩, ⟨30, false⟩, none⟩

instance {α : Type} [DecidableEq α] : DecidableEq (Cnt α) := inferInstanceAs (DecidableEq (α × ℕ))

/-- The rows of the table of a point. -/
def tableRows (f : Bool × Bool) : ℕ := (Count.buildCandsCurv (flat f) 14 (flat f)).2

theorem pick_table : ∀ f, Count.pick 4 (Count.assignIdentity.1 :: (Count.buildCandsCurv (flat f) 14 (flat f)).1) = cost 210 picked := by decide +kernel

theorem pAdd_pp : Count.pAdd picked picked = cost 192 (summed, picked) := by decide +kernel

theorem pAdd_ps : Count.pAdd picked summed = cost 192 (summed, picked) := by decide +kernel

/-- Four doublings and an addition. -/
def Count.step (i a : PSh) : Cnt PSh := do
  let a ← Count.doubles 4 a
  let r ← Count.pAdd i a
  return r.1

theorem step_pp : Count.step picked picked = cost 793 summed := by decide +kernel

theorem step_ps : Count.step picked summed = cost 885 summed := by decide +kernel

theorem step_ss : Count.step summed summed = cost 987 summed := by decide +kernel

variable {p q : APt} {v w : PSh}

theorem Takes.step {γ δ : Type} {f : APt → M N γ} {g : Cnt δ} {S : γ → δ → Prop} (hq : SP q w) (hp : SP p v)
    (hf : ∀ r, SP r (Count.step w v).1 → Takes (f r) g S) :
    Takes (Circuit.doubles 4 p >>= fun a => Circuit.pAdd q a >>= fun r => f r.1) (Count.step w v >>= fun _ => g) S :=
  ((Takes.doubles 4 hp).bind (g := fun a => Count.pAdd w a >>= fun _ => g) fun _ q1 => (Takes.pAdd hq q1).bind fun r q2 => hf r.1 q2.1).cast
    (Prod.ext rfl (by
      show (Count.doubles 4 v).2 + ((Count.pAdd w (Count.doubles 4 v).1).2 + g.2) =
        (Count.doubles 4 v).2 + ((Count.pAdd w (Count.doubles 4 v).1).2 + 0) + g.2
      omega))

/-! ### Windows -/

/-- A table from which four bits pick a point with 210 rows. -/
def Costed (cs : List APt) : Prop := ∀ bits : List (AV N), bits.length = 4 → Takes (pick bits cs) (cost 210 picked) SP

theorem Takes.decomposeAll : ∀ ss : List (AV N), Takes (decomposeAll ss) (tick (320 * ss.length)) fun r _ =>
    r.length = ss.length ∧ ∀ w ∈ r, w.length = 64 ∧ ∀ b ∈ w, b.length = 4
  | [] => (Takes.pure (b := ()) ⟨rfl, nofun⟩).cast rfl
  | s :: ss => by
    refine ((Takes.decomposeScalar 4 62 s (by decide)).bind (g := fun _ => (tick (320 * ss.length) >>= fun _ => Pure.pure () : Cnt Unit)) fun w q1 =>
      (Takes.decomposeAll ss).bind fun ws q2 => Takes.pure ⟨by rw [List.length_cons, List.length_cons, q2.1], fun v hv => ?_⟩).cast ?_
    · exact Prod.ext rfl (by show (62 + 2) * (1 + min 4 5) + (320 * ss.length + 0) = 320 * (ss.length + 1); omega)
    · rcases List.mem_cons.1 hv with rfl | hv
      · exact q1
      · exact q2.2 v hv

theorem Takes.allCands {i : APt} (hi : SP i Count.assignIdentity.1) : ∀ {ps : List APt} {fs : List (Bool × Bool)}, List.Forall₂ (fun p f => SP p (flat f)) ps fs →
    Takes (allCands i ps) (tick (fs.map tableRows).sum) fun r _ => r.length = ps.length ∧ ∀ cs ∈ r, Costed cs
  | _, _, .nil => (Takes.pure (b := ()) ⟨rfl, nofun⟩).cast rfl
  | _, _, .cons (a := p) (b := f) (l₁ := ps) (l₂ := fs) h hs => by
    refine ((Takes.buildCandsCurv h 14 h).bind (g := fun _ => (tick (fs.map tableRows).sum >>= fun _ => Pure.pure () : Cnt Unit)) fun cs q1 =>
      (Takes.allCands hi hs).bind fun r q2 => Takes.pure ⟨by rw [List.length_cons, List.length_cons, q2.1], fun l hl => ?_⟩).cast ?_
    · exact Prod.ext rfl (by rw [List.map_cons, List.sum_cons]; rfl)
    · rcases List.mem_cons.1 hl with rfl | hl
      · intro bits hb
        have := Takes.pick bits (.cons hi q1)
        rwa [hb, pick_table] at this
      · exact q2.2 l hl

/-- Tables with four bits each. -/
def Picks (l : List (List APt × List (AV N))) : Prop := ∀ x ∈ l, Costed x.1 ∧ x.2.length = 4

theorem Takes.innerLoop : ∀ {l : List (List APt × List (AV N))} {p : APt}, Picks l → SP p summed → Takes (innerLoop l p) (cost (402 * l.length) summed) SP
  | [], _, _, h => (Takes.pure h).cast rfl
  | (cs, bits) :: l, _, hl, h => by
    have h1 := (hl _ List.mem_cons_self).1 bits (hl _ List.mem_cons_self).2
    refine (h1.bind (g := fun a => Count.pAdd a summed >>= fun _ => (cost (402 * l.length) summed)) fun c q1 => (Takes.pAdd q1 h).bind fun r q2 => ?_).cast ?_
    · change SP r.1 (Count.pAdd picked summed).1.1 ∧ _ at q2
      rw [pAdd_ps] at q2
      exact Takes.innerLoop (fun x hx => hl x (List.mem_cons_of_mem _ hx)) q2.1
    · refine Prod.ext rfl ?_
      show 210 + ((Count.pAdd picked summed).2 + 402 * l.length) = 402 * (l.length + 1)
      rw [pAdd_ps]
      show 210 + (192 + 402 * l.length) = 402 * (l.length + 1)
      omega

/-- The sum of the points of a window. -/
def windowSum (n : ℕ) : Cnt PSh := if n = 1 then cost 210 picked else (cost (402 * n - 192) summed)

theorem Takes.inner : ∀ {l : List (List APt × List (AV N))}, Picks l → Takes (inner l) (windowSum l.length) SP
  | [], _ => Takes.fail
  | [(cs, bits)], hl => by
    have h1 := (hl _ List.mem_cons_self).1 bits (hl _ List.mem_cons_self).2
    exact (h1.bind (g := fun a => Pure.pure a) fun c q1 => Takes.pure q1).cast rfl
  | (cs, bits) :: (ds, cits) :: l, hl => by
    have h1 := (hl _ List.mem_cons_self).1 bits (hl _ List.mem_cons_self).2
    have hl' : Picks ((ds, cits) :: l) := fun x hx => hl x (List.mem_cons_of_mem _ hx)
    have h2 := (hl' _ List.mem_cons_self).1 cits (hl' _ List.mem_cons_self).2
    refine (h1.bind (g := fun b => cost 210 picked >>= fun a => Count.pAdd a b >>= fun _ => (cost (402 * l.length) summed)) fun c q1 =>
      h2.bind fun d q2 => (Takes.pAdd q2 q1).bind fun r q3 => ?_).cast ?_
    · change SP r.1 (Count.pAdd picked picked).1.1 ∧ _ at q3
      rw [pAdd_pp] at q3
      exact Takes.innerLoop (fun x hx => hl' x (List.mem_cons_of_mem _ hx)) q3.1
    · have e : windowSum ((cs, bits) :: (ds, cits) :: l).length = cost (402 * (l.length + 2) - 192) summed := if_neg (by simp)
      rw [e]
      refine Prod.ext rfl ?_
      show 210 + (210 + ((Count.pAdd picked picked).2 + 402 * l.length)) = 402 * (l.length + 2) - 192
      rw [pAdd_pp]
      show 210 + (210 + (192 + 402 * l.length)) = 402 * (l.length + 2) - 192
      omega

/-- The bits of a window of every scalar. -/
theorem Takes.windowBits {γ δ : Type} {f : List (List (AV N)) → M N γ} {y : Cnt δ} {S : γ → δ → Prop} {ws : List (List (List (AV N)))} (i : ℕ)
    (hw : ∀ w ∈ ws, ∀ b ∈ w, b.length = 4) (hf : ∀ bits : List (List (AV N)), bits.length = ws.length → (∀ b ∈ bits, b.length = 4) → Takes (f bits) y S) :
    Takes (Circuit.unwrapM (ws.mapM fun w => w[i]?) >>= f) y S := by
  cases h : ws.mapM fun w => w[i]? with
  | none => exact ⟨fun c a c' h1 => by simp [Circuit.unwrapM, Bind.bind, StateT.bind] at h1⟩
  | some bits =>
    have h2 : bits.length = ws.length ∧ ∀ b ∈ bits, b.length = 4 := by
      clear hf
      induction ws generalizing bits with
      | nil =>
        cases h
        exact ⟨rfl, nofun⟩
      | cons w ws ih =>
        simp only [List.mapM_cons, Option.bind_eq_bind, Option.bind_eq_some_iff, Option.pure_def, Option.some.injEq] at h
        obtain ⟨b, hb, t, ht, rfl⟩ := h
        obtain ⟨h1, h2⟩ := ih (fun w hw' => hw w (List.mem_cons_of_mem _ hw')) t ht
        refine ⟨by rw [List.length_cons, h1, List.length_cons], fun b' hb' => ?_⟩
        rcases List.mem_cons.1 hb' with rfl | hb'
        · exact hw w List.mem_cons_self _ (List.mem_of_getElem? hb)
        · exact h2 b' hb'
    exact (hf bits h2.1 h2.2)

theorem picks_zip {cands : List (List APt)} {bits : List (List (AV N))} (hc : ∀ cs ∈ cands, Costed cs) (hb : ∀ b ∈ bits, b.length = 4) :
    Picks (cands.zip bits) := fun x hx => ⟨hc _ (List.of_mem_zip hx).1, hb _ (List.of_mem_zip hx).2⟩

theorem Takes.shamirLoop {cands : List (List APt)} {ws : List (List (List (AV N)))} (hc : ∀ cs ∈ cands, Costed cs) (hl : cands.length = ws.length)
    (hw : ∀ w ∈ ws, ∀ b ∈ w, b.length = 4) {k : ℕ} (hs : Count.step (windowSum ws.length).1 summed = cost k summed) : ∀ (n i : ℕ) {p : APt}, SP p summed →
    Takes (shamirLoop cands ws n i p) (cost (n * ((windowSum ws.length).2 + k)) summed) SP
  | 0, _, _, h => (Takes.pure h).cast (Prod.ext rfl (Nat.zero_mul _).symm)
  | n + 1, i, _, h => by
    refine Takes.windowBits i hw fun bits b1 b2 => ?_
    have hz : (cands.zip bits).length = ws.length := by rw [List.length_zip, hl, b1, Nat.min_self]
    have h1 := Takes.inner (picks_zip hc b2)
    rw [hz] at h1
    refine (h1.bind (g := fun a => Count.step a summed >>= fun _ => (cost (n * ((windowSum ws.length).2 + k)) summed)) fun c q1 => Takes.step q1 h fun r q2 => ?_).cast ?_
    · rw [hs] at q2
      exact Takes.shamirLoop hc hl hw hs n (i + 1) q2
    · refine Prod.ext rfl ?_
      show (windowSum ws.length).2 + ((Count.step (windowSum ws.length).1 summed).2 + n * ((windowSum ws.length).2 + k)) = (n + 1) * ((windowSum ws.length).2 + k)
      rw [hs]
      show (windowSum ws.length).2 + (k + n * ((windowSum ws.length).2 + k)) = (n + 1) * ((windowSum ws.length).2 + k)
      ring

theorem Takes.shapeLoop (k : ℕ) : ∀ (n : ℕ) {p : APt}, SP p summed → Takes (shapeLoop k n p) (cost (n * (k + 987)) summed) SP
  | 0, _, h => (Takes.pure h).cast (Prod.ext rfl (Nat.zero_mul _).symm)
  | n + 1, _, h => by
    refine ((Takes.expand k _).bind (g := fun _ => Count.step summed summed >>= fun _ => (cost (n * (k + 987)) summed)) fun _ _ => Takes.step h h fun r q2 => ?_).cast ?_
    · rw [step_ss] at q2
      exact Takes.shapeLoop k n q2
    · refine Prod.ext rfl ?_
      show k + ((Count.step summed summed).2 + n * (k + 987)) = (n + 1) * (k + 987)
      rw [step_ss]
      show k + (987 + n * (k + 987)) = (n + 1) * (k + 987)
      ring

/-! ### Multi-exponentiation -/

/-- The rows before the windows. -/
def tablesRows (fs : List (Bool × Bool)) : ℕ := 320 * fs.length + 5 + (fs.map tableRows).sum

/-- The rows that `shamir` takes for points with these flags. -/
def shamirRows (fs : List (Bool × Bool)) : ℕ :=
  tablesRows fs + if fs.length = 1 then 210 + (210 + 793) + 62 * (210 + 885) else 64 * (402 * fs.length - 192) + 63 * 987

/-- The rows that are measured for it. -/
def shapeRows (fs : List (Bool × Bool)) : ℕ :=
  tablesRows fs + if fs.length = 1 then 210 + (210 + 793) + 62 * (210 + 987) else 64 * (402 * fs.length - 192) + 63 * 987

theorem step_first (n : ℕ) : Count.step (windowSum n).1 (windowSum n).1 = cost (if n = 1 then 793 else 987) summed := by
  by_cases h : n = 1
  · subst h
    exact step_pp
  · have : windowSum n = cost (402 * n - 192) summed := if_neg h
    rw [this, if_neg h]
    exact step_ss

theorem step_later (n : ℕ) : Count.step (windowSum n).1 summed = cost (if n = 1 then 885 else 987) summed := by
  by_cases h : n = 1
  · subst h
    exact step_ps
  · have : windowSum n = cost (402 * n - 192) summed := if_neg h
    rw [this, if_neg h]
    exact step_ss

theorem Takes.unwrapped {α γ δ : Type} {o : Option α} {f : α → M N γ} {y : Cnt δ} {S : γ → δ → Prop} (hf : ∀ a, o = some a → Takes (f a) y S) :
    Takes (Circuit.unwrapM o >>= f) y S := by
  cases o with
  | none => exact ⟨fun c a c' h => by simp [Circuit.unwrapM, Bind.bind, StateT.bind] at h⟩
  | some a => exact hf a rfl

/-- What is common to the two passes. -/
theorem Takes.prefix {ps : List APt} {fs : List (Bool × Bool)} (hp : List.Forall₂ (fun p f => SP p (flat f)) ps fs) (ss : List (AV N))
    {f : List (List APt) → List (List (List (AV N))) → ℕ → APt → M N APt} {k : ℕ}
    (hf : ∀ cands ws p, (∀ cs ∈ cands, Costed cs) → cands.length = fs.length → ws.length = fs.length → (∀ w ∈ ws, ∀ b ∈ w, b.length = 4) →
      SP p (windowSum fs.length).1 → Takes (f cands ws 63 p) (cost k summed) SP) :
    Takes (do
      Circuit.assertM (ps.length = ss.length)
      let windows ← Circuit.decomposeAll ss
      let identity ← Circuit.assignIdentity
      let cands ← Circuit.allCands identity ps
      let w0 ← Circuit.unwrapM windows.head?
      match w0.length with
      | 0 => Circuit.unwrapM none
      | n + 1 => do
        let bits ← Circuit.unwrapM (windows.mapM fun w => w[0]?)
        let acc ← Circuit.inner (cands.zip bits)
        f cands windows n acc) (cost (tablesRows fs + (windowSum fs.length).2 + k) summed) SP := by
  by_cases hl : ps.length = ss.length
  · have e1 := hp.length_eq
    refine Takes.assertM fun _ => ((Takes.decomposeAll ss).bind (g := fun _ => Count.assignIdentity >>= fun _ => tick (fs.map tableRows).sum >>= fun _ =>
      windowSum fs.length >>= fun _ => (cost k summed)) fun ws q1 => Takes.assignIdentity.bind fun i q2 => (Takes.allCands q2 hp).bind fun cands q3 =>
      Takes.unwrapped fun w0 hw => ?_).cast ?_
    · have e64 := (q1.2 w0 (List.mem_of_mem_head? hw)).1
      cases e : w0.length with
      | zero => exact Takes.fail
      | succ n =>
        obtain rfl : n = 63 := by omega
        refine Takes.windowBits 0 (fun w hw => (q1.2 w hw).2) fun bits b1 b2 => ?_
        have h1 := Takes.inner (picks_zip q3.2 b2)
        rw [List.length_zip, q3.1, b1, q1.1, ← hl, Nat.min_self, e1] at h1
        exact h1.bind fun p q4 => hf cands ws p q3.2 (by rw [q3.1, e1]) (by rw [q1.1, ← hl, e1]) (fun w hw => (q1.2 w hw).2) q4
    · refine Prod.ext rfl ?_
      show 320 * ss.length + (5 + 0 + ((fs.map tableRows).sum + ((windowSum fs.length).2 + k))) = _
      rw [← hl, e1]
      unfold tablesRows
      show _ = 320 * fs.length + 5 + (fs.map tableRows).sum + (windowSum fs.length).2 + k
      omega
  · exact ⟨fun c a c' h => by simp [Circuit.assertM, Bind.bind, StateT.bind, hl] at h⟩

/-- The rows that `shamir` takes. -/
theorem Takes.shamir {ps : List APt} {fs : List (Bool × Bool)} (hp : List.Forall₂ (fun p f => SP p (flat f)) ps fs) (ss : List (AV N)) :
    Takes (shamir ps ss) (cost (shamirRows fs) summed) SP := by
  refine (Takes.prefix hp ss (f := fun cands ws n p => Circuit.shamirLoop cands ws n 1 p)
    (k := (windowSum fs.length).2 + (if fs.length = 1 then 793 else 987) + 62 * ((windowSum fs.length).2 + if fs.length = 1 then 885 else 987))
    fun cands ws p hc l1 l2 hw q => ?_).cast ?_
  · refine Takes.windowBits 1 hw fun bits b1 b2 => ?_
    have h1 := Takes.inner (picks_zip hc b2)
    rw [List.length_zip, l1, b1, l2, Nat.min_self] at h1
    refine (h1.bind (g := fun a => Count.step a (windowSum fs.length).1 >>= fun _ => cost (62 * ((windowSum fs.length).2 + if fs.length = 1 then 885 else 987)) summed)
      fun c q1 => Takes.step q1 q fun r q2 => ?_).cast ?_
    · rw [step_first] at q2
      have := Takes.shamirLoop hc (l1.trans l2.symm) hw (by rw [l2]; exact step_later _) 62 2 q2
      rwa [l2] at this
    · refine Prod.ext rfl ?_
      show (windowSum fs.length).2 + ((Count.step (windowSum fs.length).1 (windowSum fs.length).1).2 + _) = _
      rw [step_first]
      show (windowSum fs.length).2 + ((if fs.length = 1 then 793 else 987) + 62 * ((windowSum fs.length).2 + if fs.length = 1 then 885 else 987)) =
        (windowSum fs.length).2 + (if fs.length = 1 then 793 else 987) + 62 * ((windowSum fs.length).2 + if fs.length = 1 then 885 else 987)
      omega
  · refine congrArg (cost · summed) ?_
    unfold shamirRows windowSum
    split
    · show tablesRows fs + 210 + (210 + 793 + 62 * (210 + 885)) = tablesRows fs + (210 + (210 + 793) + 62 * (210 + 885))
      omega
    · show tablesRows fs + (402 * fs.length - 192) + (402 * fs.length - 192 + 987 + 62 * (402 * fs.length - 192 + 987)) =
        tablesRows fs + (64 * (402 * fs.length - 192) + 63 * 987)
      omega

/-- The rows that are measured for it. -/
theorem Takes.shamirShape {ps : List APt} {fs : List (Bool × Bool)} (hp : List.Forall₂ (fun p f => SP p (flat f)) ps fs) (ss : List (AV N)) :
    Takes (shamirShape ps ss) (cost (shapeRows fs) summed) SP := by
  refine (Takes.prefix hp ss (f := fun cands ws n p => Circuit.shapeTail cands ws n p)
    (k := (windowSum fs.length).2 + (if fs.length = 1 then 793 else 987) + 62 * ((windowSum fs.length).2 + 987))
    fun cands ws p hc l1 l2 hw q => ?_).cast ?_
  · refine Takes.windowBits 1 hw fun bits b1 b2 => ?_
    have h1 := (Takes.inner (picks_zip hc b2)).timed
    rw [List.length_zip, l1, b1, l2, Nat.min_self] at h1
    refine (h1.bind (g := fun a => Count.step a (windowSum fs.length).1 >>= fun _ => cost (62 * ((windowSum fs.length).2 + 987)) summed)
      fun c q1 => Takes.step q1.1 q fun r q2 => ?_).cast ?_
    · rw [step_first] at q2
      rw [q1.2]
      exact Takes.shapeLoop _ 62 q2
    · refine Prod.ext rfl ?_
      show (windowSum fs.length).2 + ((Count.step (windowSum fs.length).1 (windowSum fs.length).1).2 + _) = _
      rw [step_first]
      show (windowSum fs.length).2 + ((if fs.length = 1 then 793 else 987) + 62 * ((windowSum fs.length).2 + 987)) =
        (windowSum fs.length).2 + (if fs.length = 1 then 793 else 987) + 62 * ((windowSum fs.length).2 + 987)
      omega
  · refine congrArg (cost · summed) ?_
    unfold shapeRows windowSum
    split
    · show tablesRows fs + 210 + (210 + 793 + 62 * (210 + 987)) = tablesRows fs + (210 + (210 + 793) + 62 * (210 + 987))
      omega
    · show tablesRows fs + (402 * fs.length - 192) + (402 * fs.length - 192 + 987 + 62 * (402 * fs.length - 192 + 987)) =
        tablesRows fs + (64 * (402 * fs.length - 192) + 63 * 987)
      omega

theorem shamirRows_le (fs : List (Bool × Bool)) : shamirRows fs ≤ shapeRows fs := by
  unfold shamirRows shapeRows
  split <;> omega

theorem shamirRows_eq {fs : List (Bool × Bool)} (h : fs.length ≠ 1) : shapeRows fs = shamirRows fs := by
  unfold shamirRows shapeRows
  rw [if_neg h, if_neg h]

theorem shamirRows_one {fs : List (Bool × Bool)} (h : fs.length = 1) : shapeRows fs = shamirRows fs + 62 * 102 := by
  unfold shamirRows shapeRows
  rw [if_pos h, if_pos h]

end Verif.Circuit
