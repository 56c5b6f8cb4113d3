import Verif.Sol.Ssa

/-!
# What register allocation does to a recorded program

`linear_scan` renames one location after the other. `linearScan_ok`: the result is one renaming of the whole program, and locations that
are live at the same time get words that are apart.
-/

namespace Verif.Sol

/-- An interval with the block it got. -/
abbrev Placed := Interval × Block

/-- The renaming that belongs to the blocks. -/
def lookupOf (done : List Placed) (o : ℕ) : Option ℕ := (done.find? fun x => x.1.expr = o).map (·.2.pos)

def Stmt.ren (ρ : ℕ → Option ℕ) : Stmt → Stmt
  | .assign l r => .assign (l.substitute ρ) (r.substitute ρ)
  | .updateHash e off => .updateHash (e.substitute ρ) off
  | s => s

def Stmt.leaves : Stmt → List Expr
  | .assign l r => l.leaves ++ r.leaves
  | .updateHash e _ => e.leaves
  | _ => []

/-- What is known about the intervals of a recorded program. -/
structure Plan (stmts : List Stmt) (finals : List Expr) (L : List Interval) (size : ℕ) : Prop where
  shape : ∀ s ∈ stmts, (∃ o t r, s = .assign (.memory o t) r) ∨ ∃ e off, s = .updateHash e off
  order : L.Pairwise fun a b => a.expr + a.t.len ≤ b.expr ∧ a.start < b.start
  bound : ∀ i ∈ L, i.expr + i.t.len ≤ size
  write : ∀ k o t r, stmts[k]? = some (.assign (.memory o t) r) → ∃ i ∈ L, i.expr = o ∧ i.t = t ∧ i.start = k
  reads : ∀ k s, stmts[k]? = some s → ∀ o t, .memory o t ∈ s.reads → ∃ i ∈ L, i.expr = o ∧ i.t = t ∧ i.start < k ∧ k ≤ i.finish
  readsFinals : ∀ e ∈ finals, ∀ o t, .memory o t ∈ e.leaves → ∃ i ∈ L, i.expr = o ∧ i.t = t ∧ i.start < stmts.length ∧ stmts.length < i.finish
  plain : ∀ s ∈ stmts, ∀ x ∈ s.reads, (∀ t, x ≠ .temp t) ∧ (∀ a b t, x ≠ .mulAddPM a b t) ∧ (∀ a b, x ≠ .mulAddMT a b)
  plainFinals : ∀ e ∈ finals, ∀ x ∈ e.leaves, (∀ t, x ≠ .temp t) ∧ (∀ a b t, x ≠ .mulAddPM a b t) ∧ (∀ a b, x ≠ .mulAddMT a b)

theorem Ty.len_pos (t : Ty) : 0 < t.len := by cases t <;> simp [Ty.len]

theorem Ty.len_le (t : Ty) : t.len ≤ 2 := by cases t <;> simp [Ty.len]

theorem Plan.unique {stmts : List Stmt} {finals : List Expr} {L : List Interval} {size : ℕ} (h : Plan stmts finals L size) {i j : Interval}
    (hi : i ∈ L) (hj : j ∈ L) (he : i.expr = j.expr) : i = j := by
  by_contra hne
  have : ∀ a b : Interval, (a.expr + a.t.len ≤ b.expr ∧ a.start < b.start) → a.expr ≠ b.expr := fun a b hab heq => by
    have := a.t.len_pos
    omega
  have hpw : L.Pairwise fun a b => a.expr ≠ b.expr := h.order.imp fun {a b} hab => this a b hab
  haveI : Std.Symm fun a b : Interval => a.expr ≠ b.expr := ⟨fun a b hab => hab.symm⟩
  exact hpw.forall hi hj hne he

theorem Plan.occurs {stmts : List Stmt} {finals : List Expr} {L : List Interval} {size : ℕ} (h : Plan stmts finals L size) {i : Interval}
    (hi : i ∈ L) {k : ℕ} {s : Stmt} (hs : stmts[k]? = some s) {t : Ty} (hm : .memory i.expr t ∈ s.leaves) : i.start ≤ k := by
  rcases h.shape s (List.mem_iff_getElem?.2 ⟨k, hs⟩) with ⟨o, t', r, rfl⟩ | ⟨e, off, rfl⟩
  · simp only [Stmt.leaves, Expr.leaves, List.singleton_append, List.mem_cons] at hm
    rcases hm with hm | hm
    · injection hm with h1 h2
      obtain ⟨j, hj, h3, h4, h5⟩ := h.write k o t' r hs
      have := h.unique hi hj (h1.trans h3.symm)
      subst this
      omega
    · obtain ⟨j, hj, h3, h4, h5, -⟩ := h.reads k _ hs _ _ hm
      have := h.unique hi hj h3.symm
      subst this
      omega
  · obtain ⟨j, hj, h3, h4, h5, -⟩ := h.reads k _ hs _ _ hm
    have := h.unique hi hj h3.symm
    subst this
    omega

/-! ### Renamings -/

theorem lookupOf_append (done : List Placed) (x : Placed) (o : ℕ) :
    lookupOf (done ++ [x]) o = (lookupOf done o).or (rename x.1.expr x.2.pos o) := by
  unfold lookupOf rename
  rw [List.find?_append]
  generalize done.find? (fun x => decide (x.1.expr = o)) = y
  rcases y with _ | y
  · simp only [Option.none_or, Option.map_none]
    by_cases h : x.1.expr = o
    · simp [h]
    · simp [h, Ne.symm h]
  · rfl

theorem lookupOf_mem {done : List Placed} {o v : ℕ} (h : lookupOf done o = some v) : ∃ x ∈ done, x.1.expr = o ∧ x.2.pos = v := by
  unfold lookupOf at h
  obtain ⟨x, h1, h2⟩ := Option.map_eq_some_iff.1 h
  exact ⟨x, List.mem_of_find?_eq_some h1, by simpa using List.find?_some h1, h2⟩

theorem lookupOf_none {done : List Placed} {o : ℕ} (h : ∀ x ∈ done, x.1.expr ≠ o) : lookupOf done o = none := by
  unfold lookupOf
  rw [Option.map_eq_none_iff, List.find?_eq_none]
  intro x hx
  simpa using h x hx

theorem substLeaf_step {done : List Placed} {x : Placed} (hv : ∀ y ∈ done, y.2.pos ≠ Expr.deadbeaf → y.2.pos ≠ x.1.expr) (e : Expr) :
    Expr.substLeaf (rename x.1.expr x.2.pos) (Expr.substLeaf (lookupOf done) e) = Expr.substLeaf (lookupOf (done ++ [x])) e := by
  cases e with
  | memory o t =>
    simp only [Expr.substLeaf, lookupOf_append]
    rcases hl : lookupOf done o with _ | v
    · simp [Option.none_or]
    · obtain ⟨y, hy, -, rfl⟩ := lookupOf_mem hl
      simp only [Option.some_or]
      by_cases hd : y.2.pos = Expr.deadbeaf
      · simp only [if_pos hd]
      · simp [if_neg hd, rename, hv y hy hd]
  | _ => rfl

theorem substitute_congr {ρ σ : ℕ → Option ℕ} {e : Expr} (h : ∀ o t, .memory o t ∈ e.leaves → ρ o = σ o) : e.substitute ρ = e.substitute σ := by
  unfold Expr.substitute
  induction e with
  | add l r t ihl ihr | sub l r t ihl ihr | mul l r t ihl ihr | div l r t ihl ihr =>
    simp only [Expr.leaves, List.mem_append] at h
    simp only [Expr.map, ihl fun o t hx => h o t (.inl hx), ihr fun o t hx => h o t (.inr hx)]
  | mulAdd l r c t ihl ihr ihc =>
    simp only [Expr.leaves, List.mem_append] at h
    simp only [Expr.map, ihl fun o t hx => h o t (.inl (.inl hx)), ihr fun o t hx => h o t (.inl (.inr hx)), ihc fun o t hx => h o t (.inr hx)]
  | pow b n t ih =>
    simp only [Expr.leaves] at h
    simp only [Expr.map, ih h]
  | memory o t =>
    simp [Expr.map, Expr.substLeaf, h o t (by simp [Expr.leaves])]
  | _ => rfl

theorem ren_congr {ρ σ : ℕ → Option ℕ} {s : Stmt} (h : ∀ o t, .memory o t ∈ s.leaves → ρ o = σ o) : s.ren ρ = s.ren σ := by
  cases s with
  | assign l r =>
    simp only [Stmt.leaves, List.mem_append] at h
    simp only [Stmt.ren, substitute_congr fun o t hm => h o t (.inl hm), substitute_congr fun o t hm => h o t (.inr hm)]
  | updateHash e off =>
    simp only [Stmt.ren, substitute_congr (e := e) fun o t hm => h o t hm]
  | _ => rfl

theorem substFrom_ren {stmts : List Stmt} {done : List Placed} {x : Placed} (hshape : ∀ s ∈ stmts, (∃ o t r, s = .assign (.memory o t) r) ∨
    ∃ e off, s = .updateHash e off) (hv : ∀ y ∈ done, y.2.pos ≠ Expr.deadbeaf → y.2.pos ≠ x.1.expr)
    (hocc : ∀ k s, stmts[k]? = some s → ∀ t, .memory x.1.expr t ∈ s.leaves → x.1.start ≤ k) :
    substFrom (rename x.1.expr x.2.pos) x.1.start (stmts.map (Stmt.ren (lookupOf done))) =
      some (stmts.map (Stmt.ren (lookupOf (done ++ [x])))) := by
  have hdrop : ∀ l : List Stmt, (∀ s ∈ l, (∃ o t r, s = .assign (.memory o t) r) ∨ ∃ e off, s = .updateHash e off) →
      (l.map (Stmt.ren (lookupOf done))).mapM (Stmt.substitute (rename x.1.expr x.2.pos)) = some (l.map (Stmt.ren (lookupOf (done ++ [x])))) := by
    intro l
    induction l with
    | nil => intro _; rfl
    | cons s l ih =>
      intro hs
      have h1 : Stmt.substitute (rename x.1.expr x.2.pos) (s.ren (lookupOf done)) = some (s.ren (lookupOf (done ++ [x]))) := by
        rcases hs s (List.mem_cons_self ..) with ⟨o, t, r, rfl⟩ | ⟨e, off, rfl⟩
        · simp only [Stmt.ren, Stmt.substitute, substitute_substitute fun y _ => substLeaf_step hv y]
        · simp only [Stmt.ren, Stmt.substitute, substitute_substitute fun y _ => substLeaf_step hv y]
      rw [List.map_cons, List.mapM_cons, h1, ih fun s' hs' => hs s' (List.mem_cons_of_mem _ hs')]
      rfl
  unfold substFrom
  rw [← List.map_take, ← List.map_drop, hdrop _ fun s hs => hshape s (List.mem_of_mem_drop hs)]
  have htake : (stmts.take x.1.start).map (Stmt.ren (lookupOf done)) = (stmts.take x.1.start).map (Stmt.ren (lookupOf (done ++ [x]))) := by
    apply List.map_congr_left
    intro s hs
    apply ren_congr
    intro o t hm
    obtain ⟨k, hk⟩ := List.mem_iff_getElem?.1 hs
    rw [List.getElem?_take] at hk
    split at hk
    · next hlt =>
      rw [lookupOf_append]
      have : o ≠ x.1.expr := by
        rintro rfl
        have := hocc k s hk t hm
        omega
      simp [rename, this]
    · cases hk
  rw [htake]
  simp [← List.map_append]

/-! ### Counting words -/

theorem card_le_sum (live : List Block) : ∀ (S : Finset ℕ), (∀ w ∈ S, ∃ b ∈ live, b.Has w) → S.card ≤ (live.map fun b => b.t.len).sum := by
  induction live with
  | nil =>
    intro S h
    have : S = ∅ := Finset.eq_empty_of_forall_notMem fun w hw => by
      obtain ⟨b, hb, _⟩ := h w hw
      cases hb
    simp [this]
  | cons b live ih =>
    intro S h
    classical
    have h1 : (S.filter fun w => ¬ b.Has w).card ≤ (live.map fun b => b.t.len).sum := by
      apply ih
      intro w hw
      obtain ⟨h1, h2⟩ := Finset.mem_filter.1 hw
      obtain ⟨c, hc, h3⟩ := h w h1
      rcases List.mem_cons.1 hc with rfl | hc
      · exact absurd h3 h2
      · exact ⟨c, hc, h3⟩
    have h2 : (S.filter fun w => b.Has w).card ≤ b.t.len := by
      have : (S.filter fun w => b.Has w) ⊆ Finset.Ico b.pos (b.pos + b.t.len) := by
        intro w hw
        exact Finset.mem_Ico.2 (Finset.mem_filter.1 hw).2
      simpa using Finset.card_le_card this
    have h3 : (S.filter fun w => b.Has w).card + (S.filter fun w => ¬ b.Has w).card = S.card := Finset.card_filter_add_card_filter_not ..
    simp only [List.map_cons, List.sum_cons]
    omega

theorem Pool.Ok.full {p : Pool} {live : List Block} (h : p.Ok live) (he : p.free256 = ∅) : p.capability ≤ (live.map fun b => b.t.len).sum := by
  have := card_le_sum live (Finset.range p.capability) (by
    intro w hw
    by_contra hn
    push Not at hn
    have := (h.words w).2 ⟨Finset.mem_range.1 hw, hn⟩
    rw [he] at this
    simp at this)
  simpa using this

/-! ### The loop -/

/-- Not both live, or not both in `m`, or apart. -/
def NoClash (a b : Placed) : Prop :=
  a.2.pos = Expr.deadbeaf ∨ b.2.pos = Expr.deadbeaf ∨ a.1.finish ≤ b.1.start ∨ Block.Apart a.2 b.2

/-- A temporary for an interval of length one, or words of `m`. -/
def Fits (cap : ℕ) (x : Placed) : Prop :=
  (x.2.pos = Expr.deadbeaf ∧ x.1.finish = x.1.start + 1) ∨
  (x.2.pos ≠ Expr.deadbeaf ∧ x.2.t = x.1.t ∧ x.2.pos < x.1.expr + x.1.t.len ∧ x.2.pos + x.2.t.len ≤ cap)

def Placed.active (x : Placed) : Interval := { x.1 with block := some x.2 }

structure ScanOk (stmts : List Stmt) (finals : List Expr) (done : List Placed) (s : Scan) (acts : List Placed) (last next : ℕ) : Prop where
  active : s.active = acts.map Placed.active
  sub : ∀ x ∈ acts, x ∈ done ∧ x.2.pos ≠ Expr.deadbeaf
  complete : ∀ x ∈ done, x.2.pos ≠ Expr.deadbeaf → last < x.1.finish → x ∈ acts
  pool : s.pool.Ok (acts.map (·.2))
  stmtsEq : s.stmts = stmts.map (Stmt.ren (lookupOf done))
  finalsEq : s.finals = finals.map (Expr.substitute (lookupOf done))
  clash : done.Pairwise NoClash
  fits : ∀ x ∈ done, Fits s.pool.capability x
  below : ∀ x ∈ done, x.1.expr + x.1.t.len ≤ next
  cap : s.pool.capability ≤ next + next % 2
  sum : (acts.map fun x => x.1.t.len).sum ≤ next

theorem free_all {D : List Placed} : ∀ {p : Pool} {R : List Placed}, p.Ok ((D ++ R).map (·.2)) →
    ∃ p', (D.map Placed.active).foldlM (fun p j => j.block.map p.free) p = some p' ∧ p'.Ok (R.map (·.2)) ∧ p'.capability = p.capability := by
  induction D with
  | nil => intro p R h; exact ⟨p, rfl, h, rfl⟩
  | cons x D ih =>
    intro p R h
    obtain ⟨p', h1, h2, h3⟩ := ih (p := p.free x.2) (R := R) h.free
    refine ⟨p', ?_, h2, h3.trans ?_⟩
    · rw [List.map_cons, List.foldlM_cons]
      exact h1
    · unfold Pool.free
      split <;> rfl

theorem expire_ok {ord : List Interval → List Interval} (hord : ∀ l, (ord l).Perm l) {acts : List Placed} {p : Pool} (hp : p.Ok (acts.map (·.2)))
    (start : ℕ) : ∃ p', expire ord start (acts.map Placed.active) p = some ((acts.filter fun x => ¬ x.1.finish ≤ start).map Placed.active, p') ∧
      p'.Ok ((acts.filter fun x => ¬ x.1.finish ≤ start).map (·.2)) ∧ p'.capability = p.capability := by
  have hperm : ((ord (acts.map Placed.active)).filter fun j => j.finish ≤ start).Perm
      ((acts.filter fun x => x.1.finish ≤ start).map Placed.active) := by
    refine ((hord _).filter _).trans ?_
    rw [List.filter_map]
    exact List.Perm.refl _
  obtain ⟨D, hD1, hD2⟩ : ∃ D : List Placed, D.map Placed.active = (ord (acts.map Placed.active)).filter (fun j => j.finish ≤ start) ∧
      D.Perm (acts.filter fun x => x.1.finish ≤ start) := by
    generalize ((ord (acts.map Placed.active)).filter fun j => j.finish ≤ start) = A at hperm
    generalize (acts.filter fun x => x.1.finish ≤ start) = B at hperm
    obtain ⟨D, h1, h2⟩ : ∃ D : List Placed, D.Perm B ∧ D.map Placed.active = A := by
      generalize hC : B.map Placed.active = C at hperm
      induction hperm generalizing B with
      | nil => exact ⟨[], by rw [List.map_eq_nil_iff.1 hC], rfl⟩
      | cons x _ ih =>
        obtain ⟨b, B, rfl, h1, h2⟩ := List.map_eq_cons_iff.1 hC
        obtain ⟨D, h3, h4⟩ := ih _ h2
        exact ⟨b :: D, h3.cons b, by rw [List.map_cons, h4, h1]⟩
      | swap x y l =>
        obtain ⟨b, B, rfl, h1, h2⟩ := List.map_eq_cons_iff.1 hC
        obtain ⟨b', B, rfl, h3, h4⟩ := List.map_eq_cons_iff.1 h2
        exact ⟨b' :: b :: B, List.Perm.swap .., by rw [List.map_cons, List.map_cons, h1, h3, h4]⟩
      | trans _ _ ih1 ih2 =>
        obtain ⟨D, h1, h2⟩ := ih2 _ hC
        obtain ⟨D', h3, h4⟩ := ih1 _ h2
        exact ⟨D', h3.trans h1, h4⟩
    exact ⟨D, h2, h1⟩
  have hsplit : (acts.filter (fun x => decide (x.1.finish ≤ start)) ++ acts.filter (fun x => decide (¬ x.1.finish ≤ start))).Perm acts := by
    have := List.filter_append_perm (fun x : Placed => decide (x.1.finish ≤ start)) acts
    simpa only [decide_not] using this
  have hall : p.Ok ((D ++ acts.filter fun x => ¬ x.1.finish ≤ start).map (·.2)) :=
    hp.perm (((hD2.append_right _).trans hsplit).map _).symm
  obtain ⟨p', h1, h2, h3⟩ := free_all hall
  refine ⟨p', ?_, h2, h3⟩
  unfold expire
  simp only [← hD1]
  rw [h1]
  simp only [Option.pure_def, Option.bind_eq_bind, Option.bind_some, List.filter_map]
  rfl

theorem choose_ok {i : Interval} {p : Pool} {acts : List Placed} {next : ℕ} (hp : p.Ok (acts.map (·.2))) (hcap : p.capability ≤ next + next % 2)
    (hsum : (acts.map fun x => x.1.t.len).sum ≤ next) (ht : ∀ x ∈ acts, x.2.t = x.1.t) (hn : next ≤ i.expr) (hb : i.expr + i.t.len ≤ Expr.deadbeaf) :
    ∃ b p', choose i p = some (b, p') ∧ p.capability ≤ p'.capability ∧ p'.capability ≤ i.expr + i.t.len + (i.expr + i.t.len) % 2 ∧
      ((b.pos = Expr.deadbeaf ∧ i.finish = i.start + 1 ∧ p' = p) ∨
       (b.pos ≠ Expr.deadbeaf ∧ i.finish ≠ i.start + 1 ∧ b.t = i.t ∧ b.pos < i.expr + i.t.len ∧ b.pos + b.t.len ≤ p'.capability ∧
        p'.Ok (b :: acts.map (·.2)))) := by
  have hev := hp.even
  unfold choose
  by_cases hf : i.finish = i.start + 1
  · rw [if_pos hf]
    refine ⟨_, p, rfl, le_rfl, ?_, .inl ⟨rfl, hf, rfl⟩⟩
    have := i.t.len_pos
    omega
  · rw [if_neg hf]
    cases hty : i.t with
    | scalar =>
      rw [hty] at hb
      simp only [Ty.len] at hb ⊢
      by_cases he : p.free256 = ∅
      · rw [if_pos he]
        have hlen : (acts.map fun x => x.1.t.len) = (acts.map (·.2)).map fun b => b.t.len := by
          rw [List.map_map]
          exact List.map_congr_left fun x hx => by simp [ht x hx]
        have hfull := hp.full he
        rw [← hlen] at hfull
        have hok := hp.expand
        obtain ⟨n, hfirst⟩ := Pool.first_isSome (s := p.expand.free256) (by
          simp only [Pool.expand]
          exact Finset.insert_ne_empty _ _)
        obtain ⟨⟨b, p'⟩, ha⟩ : ∃ x, p.expand.allocScalar = some x := by
          unfold Pool.allocScalar
          rw [hfirst]
          exact ⟨_, rfl⟩
        obtain ⟨g1, g2, g3, g4, g5⟩ := hok.scalar ha
        have hbp : b.pos ≤ p.capability := g4 _ (by simp [Pool.expand])
        have hr := g1.inRange b (List.mem_cons_self ..)
        have hx : p.expand.capability = p.capability + 2 := rfl
        refine ⟨b, p', ha, by omega, by omega, .inr ⟨?_, hf, g2, by omega, hr, g1⟩⟩
        omega
      · rw [if_neg he]
        obtain ⟨n, hfirst⟩ := Pool.first_isSome he
        obtain ⟨⟨b, p'⟩, ha⟩ : ∃ x, p.allocScalar = some x := by
          unfold Pool.allocScalar
          rw [hfirst]
          exact ⟨_, rfl⟩
        obtain ⟨g1, g2, g3, g4, g5⟩ := hp.scalar ha
        have hbp : b.pos < p.capability := ((hp.words _).1 g3).1
        have hr := g1.inRange b (List.mem_cons_self ..)
        refine ⟨b, p', ha, by omega, by omega, .inr ⟨?_, hf, g2, by omega, hr, g1⟩⟩
        omega
    | point =>
      rw [hty] at hb
      simp only [Ty.len] at hb ⊢
      by_cases he : p.free512 = ∅
      · rw [if_pos he]
        have hok := hp.expand
        obtain ⟨n, hfirst⟩ := Pool.first_isSome (s := p.expand.free512) (by
          simp only [Pool.expand]
          exact Finset.insert_ne_empty _ _)
        obtain ⟨⟨b, p'⟩, ha⟩ : ∃ x, p.expand.allocPoint = some x := by
          unfold Pool.allocPoint
          rw [hfirst]
          exact ⟨_, rfl⟩
        obtain ⟨g1, g2, g3, g4, g5⟩ := hok.point ha
        have hbp : b.pos ≤ p.capability := g4 _ (by simp [Pool.expand])
        have hr := g1.inRange b (List.mem_cons_self ..)
        have hx : p.expand.capability = p.capability + 2 := rfl
        refine ⟨b, p', ha, by omega, by omega, .inr ⟨?_, hf, g2, by omega, hr, g1⟩⟩
        omega
      · rw [if_neg he]
        obtain ⟨n, hfirst⟩ := Pool.first_isSome he
        obtain ⟨⟨b, p'⟩, ha⟩ : ∃ x, p.allocPoint = some x := by
          unfold Pool.allocPoint
          rw [hfirst]
          exact ⟨_, rfl⟩
        obtain ⟨g1, g2, g3, g4, g5⟩ := hp.point ha
        have hbp : b.pos + 1 < p.capability := ((hp.words _).1 ((hp.pairs _).1 g3).2.2).1
        have hr := g1.inRange b (List.mem_cons_self ..)
        refine ⟨b, p', ha, by omega, by omega, .inr ⟨?_, hf, g2, by omega, hr, g1⟩⟩
        omega

theorem sum_filter_le (acts : List Placed) (q : Placed → Bool) : ((acts.filter q).map fun x => x.1.t.len).sum ≤ (acts.map fun x => x.1.t.len).sum := by
  induction acts with
  | nil => simp
  | cons x acts ih =>
    rw [List.filter_cons]
    split <;> simp only [List.map_cons, List.sum_cons] <;> omega

theorem scanStep_ok {ord : List Interval → List Interval} (hord : ∀ l, (ord l).Perm l) {stmts : List Stmt} {finals : List Expr} {done : List Placed}
    {s : Scan} {acts : List Placed} {last next : ℕ} (h : ScanOk stmts finals done s acts last next) {i : Interval}
    (hshape : ∀ s ∈ stmts, (∃ o t r, s = .assign (.memory o t) r) ∨ ∃ e off, s = .updateHash e off)
    (hocc : ∀ k s, stmts[k]? = some s → ∀ t, .memory i.expr t ∈ s.leaves → i.start ≤ k)
    (hn : next ≤ i.expr) (hl : last ≤ i.start) (hb : i.expr + i.t.len ≤ Expr.deadbeaf) :
    ∃ b s' acts', scanStep ord s i = some s' ∧ ScanOk stmts finals (done ++ [(i, b)]) s' acts' i.start (i.expr + i.t.len) := by
  obtain ⟨p1, h1, h2, h3⟩ := expire_ok hord h.pool i.start
  set acts1 := acts.filter fun x => ¬ x.1.finish ≤ i.start with hacts1
  have hsub1 : ∀ x ∈ acts1, x ∈ acts := fun x hx => List.mem_of_mem_filter hx
  have hfit : ∀ x ∈ acts, x.2.t = x.1.t := by
    intro x hx
    obtain ⟨hd, hp⟩ := h.sub x hx
    rcases h.fits x hd with h4 | h4
    · exact absurd h4.1 hp
    · exact h4.2.1
  obtain ⟨b, p2, g1, g2, g3, g4⟩ := choose_ok (i := i) h2 (by rw [h3]; exact h.cap) ((sum_filter_le ..).trans h.sum) (fun x hx => hfit x (hsub1 x hx)) hn hb
  have hne : ∀ y ∈ done, y.2.pos ≠ Expr.deadbeaf → y.2.pos ≠ i.expr := by
    intro y hy hp
    have := h.below y hy
    rcases h.fits y hy with h4 | h4
    · exact absurd h4.1 hp
    · omega
  have hst := substFrom_ren (x := (i, b)) hshape hne hocc
  have hcomplete : ∀ x ∈ done, x.2.pos ≠ Expr.deadbeaf → i.start < x.1.finish → x ∈ acts1 := by
    intro x hx hp hf
    exact List.mem_filter.2 ⟨h.complete x hx hp (by omega), by simpa using hf⟩
  have hfin : s.finals.map (Expr.substitute (rename i.expr b.pos)) = finals.map (Expr.substitute (lookupOf (done ++ [(i, b)]))) := by
    rw [h.finalsEq, List.map_map]
    apply List.map_congr_left
    intro e _
    exact substitute_substitute fun y _ => substLeaf_step (x := (i, b)) hne y
  have hrun : scanStep ord s i = some ⟨if b.pos ≠ Expr.deadbeaf then Placed.active (i, b) :: acts1.map Placed.active else acts1.map Placed.active,
      p2, stmts.map (Stmt.ren (lookupOf (done ++ [(i, b)]))), finals.map (Expr.substitute (lookupOf (done ++ [(i, b)])))⟩ := by
    unfold scanStep
    rw [h.active, h1]
    simp only [Option.bind_eq_bind, Option.bind_some, g1, h.stmtsEq, hst, hfin, Option.pure_def]
    rfl
  have hnext : ∀ x ∈ done ++ [(i, b)], x.1.expr + x.1.t.len ≤ i.expr + i.t.len := by
    intro x hx
    rcases List.mem_append.1 hx with hx | hx
    · have := h.below x hx
      omega
    · rw [List.mem_singleton.1 hx]
  have hfits : ∀ x ∈ done, Fits p2.capability x := by
    intro x hx
    rcases h.fits x hx with h4 | ⟨h4, h5, h6, h7⟩
    · exact .inl h4
    · exact .inr ⟨h4, h5, h6, by omega⟩
  have hsum1 : (acts1.map fun x => x.1.t.len).sum ≤ next := (sum_filter_le ..).trans h.sum
  rcases g4 with ⟨hd, hf, rfl⟩ | ⟨hd, hf, ht, hpos, hcap, hok⟩
  · refine ⟨b, _, acts1, hrun, ?_⟩
    rw [if_neg (by simpa using hd)]
    refine ⟨rfl, ?_, ?_, h2, rfl, rfl, ?_, ?_, hnext, g3, by omega⟩
    · intro x hx
      exact ⟨List.mem_append_left _ (h.sub x (hsub1 x hx)).1, (h.sub x (hsub1 x hx)).2⟩
    · intro x hx hp hlt
      rcases List.mem_append.1 hx with hx | hx
      · exact hcomplete x hx hp hlt
      · rw [List.mem_singleton.1 hx] at hp
        exact absurd hd hp
    · refine List.pairwise_append.2 ⟨h.clash, List.pairwise_singleton _ _, fun x _ y hy => ?_⟩
      rw [List.mem_singleton.1 hy]
      exact .inr (.inl hd)
    · intro x hx
      rcases List.mem_append.1 hx with hx | hx
      · exact hfits x hx
      · rw [List.mem_singleton.1 hx]
        exact .inl ⟨hd, hf⟩
  · refine ⟨b, _, (i, b) :: acts1, hrun, ?_⟩
    rw [if_pos hd]
    refine ⟨rfl, ?_, ?_, hok, rfl, rfl, ?_, ?_, hnext, g3, ?_⟩
    · intro x hx
      rcases List.mem_cons.1 hx with rfl | hx
      · exact ⟨List.mem_append_right _ (List.mem_singleton.2 rfl), hd⟩
      · exact ⟨List.mem_append_left _ (h.sub x (hsub1 x hx)).1, (h.sub x (hsub1 x hx)).2⟩
    · intro x hx hp hlt
      rcases List.mem_append.1 hx with hx | hx
      · exact List.mem_cons_of_mem _ (hcomplete x hx hp hlt)
      · rw [List.mem_singleton.1 hx]
        exact List.mem_cons_self ..
    · refine List.pairwise_append.2 ⟨h.clash, List.pairwise_singleton _ _, fun x hx y hy => ?_⟩
      rw [List.mem_singleton.1 hy]
      by_cases hp : x.2.pos = Expr.deadbeaf
      · exact .inl hp
      by_cases hf : x.1.finish ≤ i.start
      · exact .inr (.inr (.inl hf))
      · have hm := hcomplete x hx hp (by omega)
        have := (List.pairwise_cons.1 hok.apart).1 x.2 (List.mem_map_of_mem hm)
        exact .inr (.inr (.inr fun w hw1 hw2 => this w hw2 hw1))
    · intro x hx
      rcases List.mem_append.1 hx with hx | hx
      · exact hfits x hx
      · rw [List.mem_singleton.1 hx]
        exact .inr ⟨hd, ht, hpos, hcap⟩
    · simp only [List.map_cons, List.sum_cons]
      omega

theorem scan_ok {ord : List Interval → List Interval} (hord : ∀ l, (ord l).Perm l) {stmts : List Stmt} {finals : List Expr}
    (hshape : ∀ s ∈ stmts, (∃ o t r, s = .assign (.memory o t) r) ∨ ∃ e off, s = .updateHash e off) : ∀ {L : List Interval} {done : List Placed}
    {s : Scan} {acts : List Placed} {last next : ℕ}, ScanOk stmts finals done s acts last next →
    L.Pairwise (fun a b => a.expr + a.t.len ≤ b.expr ∧ a.start < b.start) → (∀ i ∈ L, i.expr + i.t.len ≤ Expr.deadbeaf) →
    (∀ i ∈ L, ∀ k s, stmts[k]? = some s → ∀ t, .memory i.expr t ∈ s.leaves → i.start ≤ k) →
    (∀ i ∈ L, next ≤ i.expr ∧ last ≤ i.start) →
    ∃ s' done', L.foldlM (scanStep ord) s = some s' ∧ done'.map (·.1) = done.map (·.1) ++ L ∧
      ∃ acts' last' next', ScanOk stmts finals done' s' acts' last' next'
  | [], done, s, acts, last, next, h, _, _, _, _ => ⟨s, done, rfl, by simp, acts, last, next, h⟩
  | i :: L, done, s, acts, last, next, h, hord', hb, hocc, hle => by
    obtain ⟨h1, h2⟩ := List.pairwise_cons.1 hord'
    obtain ⟨b, s1, acts1, h3, h4⟩ := scanStep_ok hord h hshape (hocc i (List.mem_cons_self ..)) (hle i (List.mem_cons_self ..)).1
      (hle i (List.mem_cons_self ..)).2 (hb i (List.mem_cons_self ..))
    obtain ⟨s', done', g1, g2, g3⟩ := scan_ok hord hshape h4 h2 (fun j hj => hb j (List.mem_cons_of_mem _ hj))
      (fun j hj => hocc j (List.mem_cons_of_mem _ hj)) (fun j hj => ⟨(h1 j hj).1, (h1 j hj).2.le⟩)
    refine ⟨s', done', ?_, ?_, g3⟩
    · rw [List.foldlM_cons, h3]
      exact g1
    · rw [g2]
      simp

/-- The effect of `linear_scan`: one renaming; blocks of locations that live at the same time are apart. -/
theorem linearScan_ok {ord : List Interval → List Interval} (hord : ∀ l, (ord l).Perm l) {stmts : List Stmt} {finals : List Expr} {L : List Interval}
    {size : ℕ} (hp : Plan stmts finals L size) (hs : size ≤ Expr.deadbeaf) :
    ∃ s done, linearScan ord L stmts finals = some s ∧ done.map (·.1) = L ∧ s.stmts = stmts.map (Stmt.ren (lookupOf done)) ∧
      s.finals = finals.map (Expr.substitute (lookupOf done)) ∧ done.Pairwise NoClash ∧ ∀ x ∈ done, Fits s.pool.capability x := by
  have hnone : ∀ e : Expr, e.substitute (lookupOf []) = e := fun e => substitute_none fun o t _ => rfl
  have h0 : ScanOk stmts finals [] ⟨[], Pool.empty, stmts, finals⟩ [] 0 0 := by
    refine ⟨rfl, by simp, by simp, Pool.Ok.empty, ?_, ?_, List.Pairwise.nil, by simp, by simp, by simp [Pool.empty], by simp⟩
    · have : ∀ s ∈ stmts, Stmt.ren (lookupOf []) s = s := by
        intro s _
        cases s <;> simp [Stmt.ren, hnone]
      exact (List.map_id'' (fun s => by cases s <;> simp [Stmt.ren, hnone]) stmts).symm
    · exact (List.map_id'' hnone finals).symm
  obtain ⟨s, done, h1, h2, acts, last, next, h3⟩ := scan_ok hord hp.shape h0 hp.order (fun i hi => (hp.bound i hi).trans hs)
    (fun i hi k s hks t hm => hp.occurs hi hks hm) (fun i _ => ⟨Nat.zero_le _, Nat.zero_le _⟩)
  exact ⟨s, done, h1, by simpa using h2, h3.stmtsEq, h3.finalsEq, h3.clash, h3.fits⟩

end Verif.Sol
