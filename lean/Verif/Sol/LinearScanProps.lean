import Verif.Sol.Allocate

/-!
# Register allocation preserves the result (C42)
-/

namespace Verif.Sol

/-! ### Intervals of recorded programs -/

theorem RecordedFrom.next_le {finals : List Expr} {size : ℕ} : ∀ {stmts : List Stmt} {defs : List (ℕ × Ty)} {next : ℕ},
    RecordedFrom finals size defs next stmts → next ≤ size
  | [], _, _, h => h.2
  | .assign (.memory o t) r :: cs, _, _, h => by
    have := RecordedFrom.next_le h.2.2
    have := h.1.1
    omega
  | .updateHash e off :: cs, _, _, h => RecordedFrom.next_le h.2

theorem RecordedFrom.shape {finals : List Expr} {size : ℕ} : ∀ {stmts : List Stmt} {defs : List (ℕ × Ty)} {next : ℕ},
    RecordedFrom finals size defs next stmts → ∀ s ∈ stmts, (∃ o t r, s = .assign (.memory o t) r) ∨ ∃ e off, s = .updateHash e off
  | [], _, _, _ => by simp
  | .assign (.memory o t) r :: cs, _, _, h => by
    intro s hs
    rcases List.mem_cons.1 hs with rfl | hs
    · exact .inl ⟨o, t, r, rfl⟩
    · exact RecordedFrom.shape h.2.2 s hs
  | .updateHash e off :: cs, _, _, h => by
    intro s hs
    rcases List.mem_cons.1 hs with rfl | hs
    · exact .inr ⟨e, off, rfl⟩
    · exact RecordedFrom.shape h.2 s hs

theorem RecordedFrom.plain {finals : List Expr} {size : ℕ} : ∀ {stmts : List Stmt} {defs : List (ℕ × Ty)} {next : ℕ},
    RecordedFrom finals size defs next stmts →
    (∀ s ∈ stmts, ∀ x ∈ s.reads, (∀ t, x ≠ .temp t) ∧ (∀ a b t, x ≠ .mulAddPM a b t) ∧ (∀ a b, x ≠ .mulAddMT a b)) ∧
    (∀ e ∈ finals, ∀ x ∈ e.leaves, (∀ t, x ≠ .temp t) ∧ (∀ a b t, x ≠ .mulAddPM a b t) ∧ (∀ a b, x ≠ .mulAddMT a b))
  | [], _, _, h => ⟨by simp, fun e he x hx => (h.1 e he x hx).2⟩
  | .assign (.memory o t) r :: cs, _, _, h => by
    refine ⟨fun s hs => ?_, (RecordedFrom.plain h.2.2).2⟩
    rcases List.mem_cons.1 hs with rfl | hs
    · exact fun x hx => (h.2.1 x hx).2
    · exact (RecordedFrom.plain h.2.2).1 s hs
  | .updateHash e off :: cs, _, _, h => by
    refine ⟨fun s hs => ?_, (RecordedFrom.plain h.2).2⟩
    rcases List.mem_cons.1 hs with rfl | hs
    · exact fun x hx => (h.1 x hx).2
    · exact (RecordedFrom.plain h.2).1 s hs

theorem RecordedFrom.assigns {finals : List Expr} {size : ℕ} : ∀ {stmts : List Stmt} {defs : List (ℕ × Ty)} {next : ℕ} (now : ℕ),
    RecordedFrom finals size defs next stmts →
    (assigns now stmts).Pairwise (fun a b => a.1 + a.2.1.len ≤ b.1 ∧ a.2.2 < b.2.2) ∧
    (∀ a ∈ assigns now stmts, next ≤ a.1 ∧ a.1 + a.2.1.len ≤ size ∧ now ≤ a.2.2 ∧ a.2.2 < now + stmts.length) ∧
    (∀ k o t r, stmts[k]? = some (.assign (.memory o t) r) → (o, t, now + k) ∈ Sol.assigns now stmts)
  | [], _, _, _, _ => by simp [Sol.assigns]
  | .assign (.memory o t) r :: cs, defs, next, now, h => by
    obtain ⟨h1, h2, h3⟩ := RecordedFrom.assigns (now + 1) h.2.2
    have hn := h.1.1
    have hs := RecordedFrom.next_le h.2.2
    refine ⟨List.pairwise_cons.2 ⟨fun a ha => ?_, h1⟩, ?_, ?_⟩
    · have := h2 a ha
      exact ⟨this.1, by show now < _; omega⟩
    · intro a ha
      rcases List.mem_cons.1 ha with rfl | ha
      · exact ⟨hn, hs, le_rfl, by simp⟩
      · have := h2 a ha
        simp only [List.length_cons]
        have hl := t.len_pos
        refine ⟨by omega, this.2.1, by omega, by omega⟩
    · intro k o' t' r' hk
      rcases k with _ | k
      · simp only [List.getElem?_cons_zero, Option.some.injEq, Stmt.assign.injEq, Expr.memory.injEq] at hk
        obtain ⟨⟨rfl, rfl⟩, rfl⟩ := hk
        exact List.mem_cons_self ..
      · refine List.mem_cons_of_mem _ ?_
        rw [show now + (k + 1) = now + 1 + k by omega]
        exact h3 k o' t' r' (by simpa using hk)
  | .updateHash e off :: cs, defs, next, now, h => by
    obtain ⟨h1, h2, h3⟩ := RecordedFrom.assigns (now + 1) h.2
    refine ⟨h1, ?_, ?_⟩
    · intro a ha
      have := h2 a ha
      simp only [List.length_cons]
      refine ⟨this.1, this.2.1, by omega, by omega⟩
    · intro k o' t' r' hk
      rcases k with _ | k
      · simp at hk
      · show _ ∈ Sol.assigns (now + 1) cs
        rw [show now + (k + 1) = now + 1 + k by omega]
        exact h3 k o' t' r' (by simpa using hk)

theorem plan_of_recorded {p : Prog} (h : p.Recorded) : ∃ v, buildIntervals p.stmts p.finals = some v ∧ Plan p.stmts p.finals v.intervals p.size := by
  obtain ⟨v, h1, h2, -, h4, h5, -⟩ := buildIntervals_ok h
  obtain ⟨g1, g2, g3⟩ := RecordedFrom.assigns 0 h
  have hmem : ∀ {j iv}, v.intervals[j]? = some iv → iv ∈ v.intervals := fun {j iv} hj => List.mem_iff_getElem?.2 ⟨j, hj⟩
  have hkey : ∀ iv ∈ v.intervals, iv.key ∈ assigns 0 p.stmts := fun iv hiv => by
    rw [← h2]
    exact List.mem_map_of_mem hiv
  refine ⟨v, h1, RecordedFrom.shape h, ?_, ?_, ?_, ?_, ?_, (RecordedFrom.plain h).1, (RecordedFrom.plain h).2⟩
  · rw [← h2, List.pairwise_map] at g1
    exact g1
  · intro i hi
    exact (g2 _ (hkey i hi)).2.1
  · intro k o t r hk
    have := g3 k o t r hk
    rw [← h2, List.mem_map] at this
    obtain ⟨i, hi, he⟩ := this
    simp only [Interval.key, Prod.mk.injEq] at he
    exact ⟨i, hi, he.1, he.2.1, by omega⟩
  · intro k s hs o t hm
    obtain ⟨j, iv, -, c2, c3, c4, c5, c6⟩ := h4 k s hs o t hm
    exact ⟨iv, hmem c2, c3, c4, c5, c6⟩
  · intro e he o t hm
    obtain ⟨j, iv, -, c2, c3, c4, c5, c6⟩ := h5 e he o t hm
    have := (g2 _ (hkey iv (hmem c2))).2.2
    simp only [Interval.key] at this
    exact ⟨iv, hmem c2, c3, c4, by omega, by omega⟩

/-! ### Simulation -/

def Expr.IsLeaf : Expr → Prop
  | .add _ _ _ | .sub _ _ _ | .mul _ _ _ | .div _ _ _ | .mulAdd _ _ _ _ | .pow _ _ _ => False
  | _ => True

theorem Expr.isLeaf_of_mem {x : Expr} : ∀ {e : Expr}, x ∈ e.leaves → x.IsLeaf := by
  intro e
  induction e with
  | add a b t iha ihb | sub a b t iha ihb | mul a b t iha ihb | div a b t iha ihb =>
    intro hx
    rcases List.mem_append.1 hx with hx | hx
    · exact iha hx
    · exact ihb hx
  | mulAdd a b c t iha ihb ihc =>
    intro hx
    simp only [Expr.leaves, List.mem_append] at hx
    rcases hx with (hx | hx) | hx
    · exact iha hx
    · exact ihb hx
    · exact ihc hx
  | pow b n t ih => exact ih
  | _ => intro hx; rw [List.mem_singleton.1 hx]; trivial

/-- After `k` statements, the words of live locations are where the renaming says. -/
structure Sim (done : List Placed) (k : ℕ) (s s' : St) : Prop where
  abs : s'.abs = s.abs
  mem : ∀ x ∈ done, x.1.start < k → k ≤ x.1.finish → x.2.pos ≠ Expr.deadbeaf → ∀ d < x.1.t.len, s'.m (x.2.pos + d) = s.m (x.1.expr + d)
  temp : ∀ x ∈ done, x.1.start < k → k ≤ x.1.finish → x.2.pos = Expr.deadbeaf → s'.t0 = s.m x.1.expr ∧ (x.1.t = .point → s'.t1 = s.m (x.1.expr + 1))

/-- Both fail, or the results are related. -/
def OptRel {α β : Type} (R : α → β → Prop) : Option α → Option β → Prop
  | none, none => True
  | some a, some b => R a b
  | _, _ => False

section
variable {stmts : List Stmt} {finals : List Expr} {size cap : ℕ} {done : List Placed} (hp : Plan stmts finals (done.map (·.1)) size)
  (hclash : done.Pairwise NoClash) (hfits : ∀ x ∈ done, Fits cap x)

include hp in
theorem placed_unique {x y : Placed} (hx : x ∈ done) (hy : y ∈ done) (he : x.1.expr = y.1.expr) : x = y := by
  by_contra hne
  have h1 : done.Pairwise fun a b => a.1.expr ≠ b.1.expr := by
    have := hp.order
    rw [List.pairwise_map] at this
    refine this.imp fun {a b} hab heq => ?_
    have := a.1.t.len_pos
    omega
  haveI : Std.Symm fun a b : Placed => a.1.expr ≠ b.1.expr := ⟨fun a b hab => hab.symm⟩
  exact h1.forall hx hy hne he

include hp hclash in
theorem placed_apart {x y : Placed} (hx : x ∈ done) (hy : y ∈ done) (h : x.1.start < y.1.start) : x.1.expr + x.1.t.len ≤ y.1.expr ∧ NoClash x y := by
  have h1 : done.Pairwise fun a b => (a.1.expr + a.1.t.len ≤ b.1.expr ∧ a.1.start < b.1.start) ∧ NoClash a b := by
    have := hp.order
    rw [List.pairwise_map] at this
    exact this.and hclash
  have h2 : done.Pairwise fun a b => (a.1.start < b.1.start → a.1.expr + a.1.t.len ≤ b.1.expr ∧ NoClash a b) ∧
      (b.1.start < a.1.start → b.1.expr + b.1.t.len ≤ a.1.expr ∧ NoClash b a) := by
    refine h1.imp fun {a b} hab => ⟨fun _ => ⟨hab.1.1, hab.2⟩, fun hlt => ?_⟩
    have := hab.1.2
    omega
  haveI : Std.Symm fun a b : Placed => (a.1.start < b.1.start → a.1.expr + a.1.t.len ≤ b.1.expr ∧ NoClash a b) ∧
      (b.1.start < a.1.start → b.1.expr + b.1.t.len ≤ a.1.expr ∧ NoClash b a) := ⟨fun a b hab => hab.symm⟩
  refine (h2.forall hx hy (fun he => ?_)).1 h
  rw [he] at h
  omega

include hp in
theorem placed_start {x y : Placed} (hx : x ∈ done) (hy : y ∈ done) (h : x.1.start = y.1.start) : x = y := by
  by_contra hne
  have h1 : done.Pairwise fun a b => a.1.start ≠ b.1.start := by
    have := hp.order
    rw [List.pairwise_map] at this
    exact this.imp fun {a b} hab heq => by omega
  haveI : Std.Symm fun a b : Placed => a.1.start ≠ b.1.start := ⟨fun a b hab => hab.symm⟩
  exact h1.forall hx hy hne h

include hp in
theorem lookup_placed {x : Placed} (hx : x ∈ done) : lookupOf done x.1.expr = some x.2.pos := by
  rcases h : lookupOf done x.1.expr with _ | v
  · exfalso
    unfold lookupOf at h
    rw [Option.map_eq_none_iff, List.find?_eq_none] at h
    exact h x hx (by simp)
  · obtain ⟨y, hy, h1, h2⟩ := lookupOf_mem h
    rw [← h2, placed_unique hp hx hy h1.symm]

theorem load_lt {E : Env} {s : St} {i : ℕ} (h : i < E.size) : E.load s i = some (s.m i) := by
  simp [Env.load, h]

include hp hfits in
theorem leaf_eval {c : Call} {k : ℕ} {s s' : St} (hs : Sim done k s s') {e : Expr}
    (hm : ∀ o t, e = .memory o t → ∃ i ∈ done.map (·.1), i.expr = o ∧ i.t = t ∧ i.start < k ∧ k ≤ i.finish)
    (hpl : (∀ t, e ≠ .temp t) ∧ (∀ a b t, e ≠ .mulAddPM a b t) ∧ (∀ a b, e ≠ .mulAddMT a b)) (hl : e.IsLeaf) :
    eval (c.env size) s e = eval (c.env cap) s' (Expr.substLeaf (lookupOf done) e) := by
  cases e with
  | memory o t =>
    obtain ⟨i, hi, rfl, rfl, h1, h2⟩ := hm o t rfl
    obtain ⟨x, hx, rfl⟩ := List.mem_map.1 hi
    have hb := hp.bound x.1 hi
    simp only [Expr.substLeaf, lookup_placed hp hx]
    by_cases hd : x.2.pos = Expr.deadbeaf
    · obtain ⟨h3, h4⟩ := hs.temp x hx h1 h2 hd
      simp only [if_pos hd, eval]
      cases ht : x.1.t with
      | scalar =>
        rw [ht] at hb
        simp only [Ty.len] at hb
        rw [Env.readMem, load_lt (show x.1.expr < (c.env size).size by show _ < size; omega), readTemp, h3]
        rfl
      | point =>
        rw [ht] at hb
        simp only [Ty.len] at hb
        rw [Env.readMem, load_lt (show x.1.expr < (c.env size).size by show _ < size; omega),
          load_lt (show x.1.expr + 1 < (c.env size).size by show _ < size; omega), readTemp, h3, h4 ht]
        rfl
    · have h3 := hs.mem x hx h1 h2 hd
      rcases hfits x hx with hf | ⟨-, hty, -, hcap⟩
      · exact absurd hf.1 hd
      rw [hty] at hcap
      simp only [if_neg hd, eval]
      cases ht : x.1.t with
      | scalar =>
        rw [ht] at hb h3 hcap
        simp only [Ty.len] at hb h3 hcap
        have h4 := h3 0 (by omega)
        simp only [Nat.add_zero] at h4
        rw [Env.readMem, Env.readMem, load_lt (show x.1.expr < (c.env size).size by show _ < size; omega),
          load_lt (show x.2.pos < (c.env cap).size by show _ < cap; omega), h4]
      | point =>
        rw [ht] at hb h3 hcap
        simp only [Ty.len] at hb h3 hcap
        have h4 := h3 0 (by omega)
        have h5 := h3 1 (by omega)
        simp only [Nat.add_zero] at h4
        rw [Env.readMem, Env.readMem, load_lt (show x.1.expr < (c.env size).size by show _ < size; omega),
          load_lt (show x.2.pos < (c.env cap).size by show _ < cap; omega), load_lt (show x.1.expr + 1 < (c.env size).size by show _ < size; omega),
          load_lt (show x.2.pos + 1 < (c.env cap).size by show _ < cap; omega), h4, h5]
  | temp t => exact absurd rfl (hpl.1 t)
  | mulAddPM a b t => exact absurd rfl (hpl.2.1 a b t)
  | mulAddMT a b => exact absurd rfl (hpl.2.2 a b)
  | add | sub | mul | div | mulAdd | pow => exact hl.elim
  | _ => rfl

include hp hfits in
theorem expr_eval {c : Call} {k : ℕ} {s s' : St} (hs : Sim done k s s') {e : Expr}
    (hm : ∀ o t, .memory o t ∈ e.leaves → ∃ i ∈ done.map (·.1), i.expr = o ∧ i.t = t ∧ i.start < k ∧ k ≤ i.finish)
    (hpl : ∀ x ∈ e.leaves, (∀ t, x ≠ .temp t) ∧ (∀ a b t, x ≠ .mulAddPM a b t) ∧ (∀ a b, x ≠ .mulAddMT a b)) :
    eval (c.env size) s e = eval (c.env cap) s' (e.substitute (lookupOf done)) :=
  eval_map fun x hx => leaf_eval hp hfits hs (fun o t h => hm o t (h ▸ hx)) (hpl x hx) (Expr.isLeaf_of_mem hx)

theorem substitute_hash_iff {ρ : ℕ → Option ℕ} {e : Expr} {o : ℕ} : e.substitute ρ = .hash o ↔ e = .hash o := by
  cases e with
  | memory a t =>
    simp only [Expr.substitute, Expr.map, Expr.substLeaf, reduceCtorEq, iff_false]
    split
    · split <;> simp
    · simp
  | _ => simp [Expr.substitute, Expr.map, Expr.substLeaf]

theorem evalRhs_of_ne {E : Env} {s : St} {e : Expr} (h : ∀ o, e ≠ .hash o) : evalRhs E s e = (eval E s e).map fun v => (s, v) := by
  unfold evalRhs
  split
  · exact absurd rfl (h _)
  · rfl

include hp hfits in
theorem rhs_eval {c : Call} {k : ℕ} {s s' : St} (hs : Sim done k s s') {e : Expr}
    (hm : ∀ o t, .memory o t ∈ e.leaves → ∃ i ∈ done.map (·.1), i.expr = o ∧ i.t = t ∧ i.start < k ∧ k ≤ i.finish)
    (hpl : ∀ x ∈ e.leaves, (∀ t, x ≠ .temp t) ∧ (∀ a b t, x ≠ .mulAddPM a b t) ∧ (∀ a b, x ≠ .mulAddMT a b)) :
    OptRel (fun a b => Sim done k a.1 b.1 ∧ a.2 = b.2) (evalRhs (c.env size) s e) (evalRhs (c.env cap) s' (e.substitute (lookupOf done))) := by
  by_cases h : ∃ o, e = .hash o
  · obtain ⟨o, rfl⟩ := h
    have : (Expr.hash o).substitute (lookupOf done) = .hash o := rfl
    rw [this]
    simp only [evalRhs, hs.abs]
    show OptRel _ ((squeezeChallenge c.D s.abs o).bind _) ((squeezeChallenge c.D s.abs o).bind _)
    cases squeezeChallenge c.D s.abs o with
    | none => trivial
    | some r => exact ⟨⟨rfl, hs.mem, hs.temp⟩, rfl⟩
  · push Not at h
    rw [evalRhs_of_ne h, evalRhs_of_ne fun o ho => h o (substitute_hash_iff.1 ho), ← expr_eval hp hfits hs hm hpl]
    cases eval (c.env size) s e with
    | none => trivial
    | some v => exact ⟨hs, rfl⟩

def Val.ty : Val → Ty
  | .s _ => .scalar
  | .p _ _ => .point

def Val.word : Val → ℕ → Word
  | .s w, _ => w
  | .p x _, 0 => x
  | .p _ y, _ => y

theorem put_memory {E : Env} {s : St} {o : ℕ} {t : Ty} {v : Val} (h : o + t.len ≤ E.size) :
    if v.ty = t then ∃ s1, put E s (.memory o t) v = some s1 ∧ s1.abs = s.abs ∧ s1.t0 = s.t0 ∧ s1.t1 = s.t1 ∧
      (∀ d < t.len, s1.m (o + d) = v.word d) ∧ ∀ j, (j < o ∨ o + t.len ≤ j) → s1.m j = s.m j
    else put E s (.memory o t) v = none := by
  cases t <;> cases v <;> simp only [Ty.len] at h
  · simp only [Val.ty, if_true, put, Env.save, if_pos (show o < E.size by omega)]
    refine ⟨_, rfl, rfl, rfl, rfl, fun d hd => ?_, fun j hj => ?_⟩
    · have : d = 0 := by simp only [Ty.len] at hd; omega
      subst this
      simp [Val.word]
    · exact Function.update_of_ne (by simp only [Ty.len] at hj; omega) _ _
  · simp [Val.ty, put]
  · simp [Val.ty, put]
  · rename_i x y
    simp only [Val.ty, if_true]
    refine ⟨{ s with m := Function.update (Function.update s.m o x) (o + 1) y }, ?_, rfl, rfl, rfl, fun d hd => ?_, fun j hj => ?_⟩
    · simp only [put, Env.save, if_pos (show o < E.size by omega)]
      show (if o + 1 < E.size then _ else _) = _
      rw [if_pos (show o + 1 < E.size by omega)]
    · simp only [Ty.len] at hd
      have : d = 0 ∨ d = 1 := by omega
      rcases this with rfl | rfl <;> simp [Val.word, Function.update_apply]
    · simp only [Ty.len] at hj
      show Function.update (Function.update s.m o x) (o + 1) y j = s.m j
      rw [Function.update_of_ne (by omega), Function.update_of_ne (by omega)]

theorem put_temp {E : Env} {s : St} {t : Ty} {v : Val} :
    if v.ty = t then ∃ s1, put E s (.temp t) v = some s1 ∧ s1.abs = s.abs ∧ s1.m = s.m ∧ s1.t0 = v.word 0 ∧ (t = .point → s1.t1 = v.word 1)
    else put E s (.temp t) v = none := by
  cases t <;> cases v <;> simp [Val.ty, put, Val.word]

include hp hclash hfits in
theorem put_sim {c : Call} {k : ℕ} {s s' : St} (hs : Sim done k s s') {x : Placed} (hx : x ∈ done) (hk : x.1.start = k) (v : Val) :
    OptRel (Sim done (k + 1)) (put (c.env size) s (.memory x.1.expr x.1.t) v)
      (put (c.env cap) s' ((Expr.memory x.1.expr x.1.t).substitute (lookupOf done)) v) := by
  have hb := hp.bound x.1 (List.mem_map_of_mem hx)
  have hsub : (Expr.memory x.1.expr x.1.t).substitute (lookupOf done) = if x.2.pos = Expr.deadbeaf then .temp x.1.t else .memory x.2.pos x.1.t := by
    simp only [Expr.substitute, Expr.map, Expr.substLeaf, lookup_placed hp hx]
  have hold : ∀ y ∈ done, y.1.start < k + 1 → k + 1 ≤ y.1.finish → y = x ∨
      (y.2.pos ≠ Expr.deadbeaf ∧ y.1.start < k ∧ k ≤ y.1.finish ∧ y.1.expr + y.1.t.len ≤ x.1.expr ∧ (x.2.pos = Expr.deadbeaf ∨ Block.Apart y.2 x.2)) := by
    intro y hy h1 h2
    by_cases he : y.1.start = k
    · exact .inl (placed_start hp hy hx (he.trans hk.symm))
    · have h3 := placed_apart hp hclash hy hx (show y.1.start < x.1.start by omega)
      have hd : y.2.pos ≠ Expr.deadbeaf := by
        intro hd
        rcases hfits y hy with hf | hf
        · have := hf.2
          omega
        · exact hf.1 hd
      refine .inr ⟨hd, by omega, by omega, h3.1, ?_⟩
      rcases h3.2 with h | h | h | h
      · exact absurd h hd
      · exact .inl h
      · omega
      · exact .inr h
  have h1 := put_memory (s := s) (v := v) (E := c.env size) hb
  by_cases hty : v.ty = x.1.t
  · rw [if_pos hty] at h1
    obtain ⟨s1, h1, ha, -, -, hnew, hkeep⟩ := h1
    rw [h1, hsub]
    by_cases hd : x.2.pos = Expr.deadbeaf
    · rw [if_pos hd]
      have h2 := put_temp (E := c.env cap) (s := s') (t := x.1.t) (v := v)
      rw [if_pos hty] at h2
      obtain ⟨s2, h2, hb2, hm2, hw0, hw1⟩ := h2
      rw [h2]
      refine ⟨by rw [hb2, ha, hs.abs], fun y hy g1 g2 g3 d hd' => ?_, fun y hy g1 g2 g3 => ?_⟩
      · rcases hold y hy g1 g2 with rfl | ⟨k1, k2, k3, k4, k5⟩
        · exact absurd hd g3
        · rw [hm2, hs.mem y hy k2 k3 g3 d hd', hkeep _ (.inl (by omega))]
      · rcases hold y hy g1 g2 with rfl | ⟨k1, k2, k3, k4, k5⟩
        · refine ⟨?_, fun ht => ?_⟩
          · rw [hw0, ← hnew 0 (Ty.len_pos _), Nat.add_zero]
          · rw [hw1 ht, ← hnew 1 (by rw [ht]; decide)]
        · exact absurd g3 k1
    · rw [if_neg hd]
      obtain ⟨-, htt, -, hcap⟩ := (hfits x hx).resolve_left fun h => hd h.1
      rw [htt] at hcap
      have h2 := put_memory (E := c.env cap) (s := s') (o := x.2.pos) (t := x.1.t) (v := v) hcap
      rw [if_pos hty] at h2
      obtain ⟨s2, h2, hb2, -, -, hnew2, hkeep2⟩ := h2
      rw [h2]
      refine ⟨by rw [hb2, ha, hs.abs], fun y hy g1 g2 g3 d hd' => ?_, fun y hy g1 g2 g3 => ?_⟩
      · rcases hold y hy g1 g2 with rfl | ⟨k1, k2, k3, k4, k5⟩
        · rw [hnew2 d hd', hnew d hd']
        · have k6 := k5.resolve_left hd
          obtain ⟨-, hty2, -, -⟩ := (hfits y hy).resolve_left fun h => g3 h.1
          have k7 := k6 (y.2.pos + d) ⟨by omega, by rw [hty2]; omega⟩
          simp only [Block.Has, htt, not_and, not_lt] at k7
          rw [hkeep2 _ (by omega), hs.mem y hy k2 k3 g3 d hd', hkeep _ (.inl (by omega))]
      · rcases hold y hy g1 g2 with rfl | ⟨k1, k2, k3, k4, k5⟩
        · exact absurd g3 hd
        · exact absurd g3 k1
  · rw [if_neg hty] at h1
    rw [h1, hsub]
    by_cases hd : x.2.pos = Expr.deadbeaf
    · rw [if_pos hd]
      have h2 := put_temp (E := c.env cap) (s := s') (t := x.1.t) (v := v)
      rw [if_neg hty] at h2
      rw [h2]
      trivial
    · rw [if_neg hd]
      obtain ⟨-, htt, -, hcap⟩ := (hfits x hx).resolve_left fun h => hd h.1
      rw [htt] at hcap
      have h2 := put_memory (E := c.env cap) (s := s') (o := x.2.pos) (t := x.1.t) (v := v) hcap
      rw [if_neg hty] at h2
      rw [h2]
      trivial

theorem OptRel.bind {α β γ δ : Type} {R : α → β → Prop} {S : γ → δ → Prop} {x : Option α} {y : Option β} {f : α → Option γ} {g : β → Option δ}
    (h : OptRel R x y) (hfg : ∀ a b, R a b → OptRel S (f a) (g b)) : OptRel S (x.bind f) (y.bind g) := by
  cases x <;> cases y
  · trivial
  · exact h.elim
  · exact h.elim
  · exact hfg _ _ h

/-- Nothing becomes live at `k` unless statement `k` writes it. -/
theorem Sim.skip {k : ℕ} {s s' : St} (hs : Sim done k s s') (hno : ∀ x ∈ done, x.1.start ≠ k) : Sim done (k + 1) s s' :=
  ⟨hs.abs, fun x hx h1 h2 => hs.mem x hx (by have := hno x hx; omega) (by omega), fun x hx h1 h2 => hs.temp x hx (by have := hno x hx; omega) (by omega)⟩

include hp hclash hfits in
theorem exec_sim {c : Call} {k : ℕ} {s s' : St} (hs : Sim done k s s') {st : Stmt} (hst : stmts[k]? = some st)
    (hstarts : ∀ x ∈ done, ∃ r, stmts[x.1.start]? = some (.assign (.memory x.1.expr x.1.t) r)) :
    OptRel (Sim done (k + 1)) (exec (c.env size) s st) (exec (c.env cap) s' (st.ren (lookupOf done))) := by
  have hmem := List.mem_of_getElem? hst
  have hr := hp.reads k st hst
  have hpl := hp.plain st hmem
  rcases hp.shape st hmem with ⟨o, t, r, rfl⟩ | ⟨e, off, rfl⟩
  · obtain ⟨i, hi, rfl, rfl, hk⟩ := hp.write k o t r hst
    obtain ⟨x, hx, rfl⟩ := List.mem_map.1 hi
    refine OptRel.bind (rhs_eval hp hfits hs hr hpl) fun a b hab => ?_
    obtain ⟨a1, a2⟩ := a
    obtain ⟨b1, b2⟩ := b
    obtain ⟨h1, h2⟩ := hab
    dsimp only at h1 h2
    subst h2
    exact put_sim hp hclash hfits h1 hx hk a2
  · have h1 := expr_eval hp hfits (c := c) hs hr hpl
    have hno : ∀ x ∈ done, x.1.start ≠ k := by
      rintro x hx rfl
      obtain ⟨r, hr⟩ := hstarts x hx
      rw [hst] at hr
      cases hr
    simp only [exec, Stmt.ren, ← h1, type_substitute]
    show OptRel _ ((eval (c.env size) s e).bind _) ((eval (c.env size) s e).bind _)
    rcases eval (c.env size) s e with _ | v
    · trivial
    · show OptRel _ (absorb s off e.type v) (absorb s' off e.type v)
      cases e.type <;> cases v
      · simp only [absorb, hs.abs]
        rename_i w
        cases updateHashScalar w s.abs off with
        | none => trivial
        | some a => exact ⟨rfl, (hs.skip hno).mem, (hs.skip hno).temp⟩
      · trivial
      · trivial
      · simp only [absorb, hs.abs]
        rename_i u v
        cases updateHashPoint u v s.abs off with
        | none => trivial
        | some a => exact ⟨rfl, (hs.skip hno).mem, (hs.skip hno).temp⟩

include hp hclash hfits in
theorem execAll_sim {c : Call} (hstarts : ∀ x ∈ done, ∃ r, stmts[x.1.start]? = some (.assign (.memory x.1.expr x.1.t) r)) :
    ∀ (cs pre : List Stmt) (s s' : St), stmts = pre ++ cs → Sim done pre.length s s' →
    OptRel (Sim done stmts.length) (execAll (c.env size) s cs) (execAll (c.env cap) s' (cs.map (Stmt.ren (lookupOf done))))
  | [], pre, s, s', he, hs => by
    subst he
    simpa [execAll, OptRel] using hs
  | st :: cs, pre, s, s', he, hs => by
    have hst : stmts[pre.length]? = some st := by simp [he]
    refine OptRel.bind (exec_sim hp hclash hfits hs hst hstarts) fun a b hab => ?_
    exact execAll_sim hstarts cs (pre ++ [st]) a b (by simp [he]) (by simpa using hab)

end

theorem mapM_congr_opt {α β γ : Type} {f : α → Option γ} {g : β → Option γ} {h : α → β} : ∀ {l : List α}, (∀ a ∈ l, f a = g (h a)) →
    l.mapM f = (l.map h).mapM g
  | [], _ => rfl
  | a :: l, hl => by
    rw [List.map_cons, List.mapM_cons, List.mapM_cons, hl a (List.mem_cons_self ..),
      mapM_congr_opt (l := l) fun b hb => hl b (List.mem_cons_of_mem _ hb)]

theorem starts_of_recorded {finals : List Expr} {size : ℕ} : ∀ {stmts : List Stmt} {defs : List (ℕ × Ty)} {next : ℕ} (now : ℕ),
    RecordedFrom finals size defs next stmts → ∀ a ∈ assigns now stmts, now ≤ a.2.2 ∧ ∃ r, stmts[a.2.2 - now]? = some (.assign (.memory a.1 a.2.1) r)
  | [], _, _, _, _ => by simp [assigns]
  | .assign (.memory o t) r :: cs, _, _, now, h => by
    intro a ha
    rcases List.mem_cons.1 ha with rfl | ha
    · exact ⟨le_rfl, r, by simp⟩
    · obtain ⟨h1, r', h2⟩ := starts_of_recorded (now + 1) h.2.2 a ha
      refine ⟨by omega, r', ?_⟩
      rw [show a.2.2 - now = (a.2.2 - (now + 1)) + 1 by omega, List.getElem?_cons_succ, h2]
  | .updateHash e off :: cs, _, _, now, h => by
    intro a ha
    obtain ⟨h1, r', h2⟩ := starts_of_recorded (now + 1) h.2 a ha
    refine ⟨by omega, r', ?_⟩
    rw [show a.2.2 - now = (a.2.2 - (now + 1)) + 1 by omega, List.getElem?_cons_succ, h2]

/-- What `memory_optimize` does after `combine_mul_add`: mod.rs:83-91. -/
def allocate (ord : List Interval → List Interval) (p : Prog) : Option Prog := do
  let v ← buildIntervals p.stmts p.finals
  let s ← linearScan ord v.intervals p.stmts p.finals
  return { p with stmts := s.stmts, finals := s.finals, size := s.pool.capability }

theorem C42_allocate {ord : List Interval → List Interval} (hord : ∀ l, (ord l).Perm l) {p : Prog} (hp : p.Recorded) (hs : p.size ≤ Expr.deadbeaf) :
    ∃ q, allocate ord p = some q ∧ q.absorbingLength = p.absorbingLength ∧
      ∀ (c : Call) (s s' : St), s'.abs = s.abs → q.runFrom c s' = p.runFrom c s := by
  obtain ⟨v, h1, h2⟩ := plan_of_recorded hp
  obtain ⟨s, done, h3, h4, h5, h6, h7, h8⟩ := linearScan_ok hord h2 hs
  refine ⟨{ p with stmts := s.stmts, finals := s.finals, size := s.pool.capability },
    by simp only [allocate, h1, h3, Option.bind_eq_bind, Option.bind_some, Option.pure_def], rfl, fun c s0 s1 habs => ?_⟩
  obtain ⟨v', g1, g2, -⟩ := buildIntervals_ok hp
  rw [h1] at g1
  obtain rfl := Option.some.inj g1
  have hstarts : ∀ x ∈ done, ∃ r, p.stmts[x.1.start]? = some (.assign (.memory x.1.expr x.1.t) r) := by
    intro x hx
    have hx' : x.1 ∈ v.intervals := h4 ▸ List.mem_map_of_mem hx
    have := starts_of_recorded 0 hp x.1.key (g2 ▸ List.mem_map_of_mem hx')
    simpa [Interval.key] using this.2
  rw [← h4] at h2
  have hsim := execAll_sim h2 h7 h8 hstarts (c := c) p.stmts [] s0 s1 rfl
    ⟨habs, fun x _ h => by simp at h, fun x _ h => by simp at h⟩
  simp only [Prog.runFrom, h5, h6]
  show (execAll (c.env s.pool.capability) s1 (p.stmts.map _)).bind _ = (execAll (c.env p.size) s0 p.stmts).bind _
  revert hsim
  rcases execAll (c.env p.size) s0 p.stmts with _ | a <;>
    rcases execAll (c.env s.pool.capability) s1 (p.stmts.map (Stmt.ren (lookupOf done))) with _ | b
  · intro _; rfl
  · intro h; exact h.elim
  · intro h; exact h.elim
  · intro hab
    simp only [Option.bind_some]
    refine (mapM_congr_opt fun e he => ?_).symm
    refine expr_eval h2 h8 hab (fun o t hm => ?_) (h2.plainFinals e he)
    obtain ⟨i, hi, a1, a2, a3, a4⟩ := h2.readsFinals e he o t hm
    exact ⟨i, hi, a1, a2, a3, by omega⟩

theorem C42_run {ord : List Interval → List Interval} (hord : ∀ l, (ord l).Perm l) {p : Prog} (hp : p.Recorded) (hs : p.size ≤ Expr.deadbeaf) :
    ∃ q, allocate ord p = some q ∧ ∀ c : Call, q.run c = p.run c := by
  obtain ⟨q, h1, h2, h3⟩ := C42_allocate hord hp hs
  exact ⟨q, h1, fun c => by rw [Prog.run, Prog.run, h2, h3 c _ _ rfl]⟩

/-! Example: a product, a sum, a challenge and two point operations. -/

def sample : Prog :=
  ⟨[.assign (.memory 0 .scalar) (.mul (.transcript 0 .scalar) (.transcript 1 .scalar) .scalar),
    .assign (.memory 1 .scalar) (.add (.memory 0 .scalar) (.inst 0 .scalar) .scalar),
    .updateHash (.memory 1 .scalar) 0,
    .assign (.memory 2 .scalar) (.hash 3),
    .assign (.memory 3 .point) (.mul (.memory 2 .scalar) (.transcript 2 .point) .point),
    .assign (.memory 5 .point) (.add (.memory 3 .point) (.transcript 2 .point) .point)],
   [.memory 5 .point, .memory 5 .point], 7, 10⟩

theorem sample_recorded : sample.Recorded := by
  simp [sample, Prog.Recorded, RecordedFrom, Expr.Known, Expr.leaves, Expr.type, Ty.len]

example : allocate id sample = some
    ⟨[.assign (.temp .scalar) (.mul (.transcript 0 .scalar) (.transcript 1 .scalar) .scalar),
      .assign (.temp .scalar) (.add (.temp .scalar) (.inst 0 .scalar) .scalar),
      .updateHash (.temp .scalar) 0,
      .assign (.temp .scalar) (.hash 3),
      .assign (.temp .point) (.mul (.temp .scalar) (.transcript 2 .point) .point),
      .assign (.memory 0 .point) (.add (.temp .point) (.transcript 2 .point) .point)],
     [.memory 0 .point, .memory 0 .point], 2, 10⟩ := by decide +kernel

example : ∃ q, allocate id sample = some q ∧ ∀ c : Call, q.run c = sample.run c :=
  C42_run (fun _ => List.Perm.refl _) sample_recorded (by decide)

end Verif.Sol
