import Verif.Sol.PoolProps

/-!
# Recorded programs and their live intervals

`Prog.Recorded` describes the programs the context records: every location is written once with a value of its type, offsets grow, and
what is read was written before. `buildIntervals` gives every location of such a program an interval that covers its uses.
-/

namespace Verif.Sol

/-! ### Recorded programs -/

/-- Everything the expression reads from memory is in `defs`, and there are no temporaries and no packed operations yet. -/
def Expr.Known (defs : List (ℕ × Ty)) (e : Expr) : Prop :=
  ∀ x ∈ e.leaves, (∀ o t, x = .memory o t → (o, t) ∈ defs) ∧ (∀ t, x ≠ .temp t) ∧ (∀ a b t, x ≠ .mulAddPM a b t) ∧ (∀ a b, x ≠ .mulAddMT a b)

/-- The locations written so far are `defs`, all below `next`. -/
def RecordedFrom (finals : List Expr) (size : ℕ) : List (ℕ × Ty) → ℕ → List Stmt → Prop
  | defs, next, [] => (∀ e ∈ finals, e.Known defs) ∧ next ≤ size
  | defs, next, .assign (.memory o t) r :: cs => (next ≤ o ∧ r.type = t) ∧ r.Known defs ∧ RecordedFrom finals size ((o, t) :: defs) (o + t.len) cs
  | defs, next, .updateHash e _ :: cs => e.Known defs ∧ RecordedFrom finals size defs next cs
  | _, _, _ => False

def Prog.Recorded (p : Prog) : Prop := RecordedFrom p.finals p.size [] 0 p.stmts

/-! ### Evaluation and renaming -/

theorem eval_map {E E' : Env} {s s' : St} {f : Expr → Expr} {e : Expr} (h : ∀ x ∈ e.leaves, eval E s x = eval E' s' (f x)) :
    eval E s e = eval E' s' (e.map f) := by
  induction e with
  | add l r t ihl ihr | sub l r t ihl ihr | mul l r t ihl ihr | div l r t ihl ihr =>
    simp only [Expr.leaves, List.mem_append] at h
    simp only [eval, Expr.map, ihl fun x hx => h x (.inl hx), ihr fun x hx => h x (.inr hx)]
  | mulAdd l r c t ihl ihr ihc =>
    simp only [Expr.leaves, List.mem_append] at h
    simp only [eval, Expr.map, ihl fun x hx => h x (.inl (.inl hx)), ihr fun x hx => h x (.inl (.inr hx)), ihc fun x hx => h x (.inr hx)]
  | pow b n t ih =>
    simp only [Expr.leaves] at h
    simp only [eval, Expr.map, ih h]
  | _ => exact h _ (by simp [Expr.leaves])

theorem eval_congr {E E' : Env} {s s' : St} {e : Expr} (h : ∀ x ∈ e.leaves, eval E s x = eval E' s' x) : eval E s e = eval E' s' e := by
  have : ∀ e : Expr, e.map id = e := by
    intro e
    induction e <;> simp_all [Expr.map]
  simpa [this] using eval_map (f := id) h

theorem type_map {f : Expr → Expr} {e : Expr} (h : ∀ x ∈ e.leaves, (f x).type = x.type) : (e.map f).type = e.type := by
  cases e <;> first | rfl | exact h _ (by simp [Expr.leaves])

theorem type_substLeaf (ρ : ℕ → Option ℕ) (x : Expr) : (Expr.substLeaf ρ x).type = x.type := by
  unfold Expr.substLeaf
  split
  · split
    · split <;> rfl
    · rfl
  · rfl

theorem type_substitute (ρ : ℕ → Option ℕ) (e : Expr) : (e.substitute ρ).type = e.type := type_map fun x _ => type_substLeaf ρ x

theorem map_substLeaf (ρ σ : ℕ → Option ℕ) (o : ℕ) (t : Ty) :
    (Expr.substLeaf ρ (.memory o t)).map (Expr.substLeaf σ) = Expr.substLeaf σ (Expr.substLeaf ρ (.memory o t)) := by
  simp only [Expr.substLeaf]
  rcases ρ o with _ | v
  · rfl
  · by_cases hv : v = Expr.deadbeaf
    · simp only [if_pos hv]; rfl
    · simp only [if_neg hv]; rfl

theorem substitute_substitute {ρ σ τ : ℕ → Option ℕ} {e : Expr}
    (h : ∀ x ∈ e.leaves, Expr.substLeaf σ (Expr.substLeaf ρ x) = Expr.substLeaf τ x) : (e.substitute ρ).substitute σ = e.substitute τ := by
  unfold Expr.substitute
  induction e with
  | add l r t ihl ihr | sub l r t ihl ihr | mul l r t ihl ihr | div l r t ihl ihr =>
    simp only [Expr.leaves, List.mem_append] at h
    simp only [Expr.map, ihl fun x hx => h x (.inl hx), ihr fun x hx => h x (.inr hx)]
  | mulAdd l r c t ihl ihr ihc =>
    simp only [Expr.leaves, List.mem_append] at h
    simp only [Expr.map, ihl fun x hx => h x (.inl (.inl hx)), ihr fun x hx => h x (.inl (.inr hx)), ihc fun x hx => h x (.inr hx)]
  | pow b n t ih =>
    simp only [Expr.leaves] at h
    simp only [Expr.map, ih h]
  | memory o t =>
    rw [show Expr.map (Expr.substLeaf ρ) (.memory o t) = Expr.substLeaf ρ (.memory o t) from rfl, map_substLeaf]
    exact h _ (by simp [Expr.leaves])
  | _ => rfl

theorem substitute_none {e : Expr} {ρ : ℕ → Option ℕ} (h : ∀ o t, .memory o t ∈ e.leaves → ρ o = none) : e.substitute ρ = e := by
  unfold Expr.substitute
  induction e with
  | add l r t ihl ihr | sub l r t ihl ihr | mul l r t ihl ihr | div l r t ihl ihr =>
    simp only [Expr.leaves, List.mem_append] at h
    simp only [Expr.map, ihl fun o t hx => h o t (.inl hx), ihr fun o t hx => h o t (.inr hx)]
  | mulAdd l r c t ihl ihr ihc =>
    simp only [Expr.leaves, List.mem_append] at h
    simp only [Expr.map, ihl fun o t hx => h o t (.inl (.inl hx)), ihr fun o t hx => h o t (.inl (.inr hx)), ihc fun o t hx => h o t (.inr hx)]
  | pow b n t ih =>
    simp only [Expr.leaves] at h
    simp only [Expr.map, ih h]
  | memory o t =>
    have := h o t (by simp [Expr.leaves])
    simp [Expr.map, Expr.substLeaf, this]
  | _ => rfl

/-! ### Live intervals -/

/-- Offset, kind and number of the statements that write. -/
def assigns : ℕ → List Stmt → List (ℕ × Ty × ℕ)
  | _, [] => []
  | k, .assign (.memory o t) _ :: cs => (o, t, k) :: assigns (k + 1) cs
  | k, _ :: cs => assigns (k + 1) cs

def Interval.key (i : Interval) : ℕ × Ty × ℕ := (i.expr, i.t, i.start)

/-- What a statement reads. -/
def Stmt.reads : Stmt → List Expr
  | .assign _ r => r.leaves
  | .updateHash e _ => e.leaves
  | _ => []

/-- The interval of the location reaches up to statement `k`. -/
def Live.Covers (v : Live) (k o : ℕ) (t : Ty) : Prop :=
  ∃ j iv, v.get (.memory o t) = some j ∧ v.intervals[j]? = some iv ∧ iv.expr = o ∧ iv.t = t ∧ iv.start < k ∧ k ≤ iv.finish

/-- The locations in `defs` have intervals. -/
structure Live.Ok (v : Live) (now : ℕ) (defs : List (ℕ × Ty)) (next : ℕ) : Prop where
  found : ∀ o t, (o, t) ∈ defs → ∃ j iv, v.get (.memory o t) = some j ∧ v.intervals[j]? = some iv ∧ iv.expr = o ∧ iv.t = t ∧ iv.start < now
  bound : ∀ j, ∀ e, v.get e = some j → ∃ o t, e = .memory o t ∧ o < next
  block : ∀ iv ∈ v.intervals, iv.block = none
  finish : ∀ iv ∈ v.intervals, iv.finish ≤ now

theorem Live.touch_get (v : Live) («at» : ℕ) (e x : Expr) : (v.touch «at» e).get x = v.get x := by
  unfold Live.touch
  split <;> rfl

theorem Live.touch_keys (v : Live) («at» : ℕ) (e : Expr) : (v.touch «at» e).intervals.map Interval.key = v.intervals.map Interval.key := by
  unfold Live.touch
  split
  · next k _ =>
    simp only [Live.setEnd]
    apply List.ext_getElem?
    intro n
    simp only [List.getElem?_map, List.getElem?_modify]
    split
    · rcases v.intervals[n]? with _ | iv <;> rfl
    · simp
  · rfl

theorem Live.touch_getElem (v : Live) («at» : ℕ) (e : Expr) {j : ℕ} {iv : Interval} (h : v.intervals[j]? = some iv) :
    ∃ iv', (v.touch «at» e).intervals[j]? = some iv' ∧ iv'.expr = iv.expr ∧ iv'.t = iv.t ∧ iv'.start = iv.start ∧ iv'.block = iv.block ∧
      (iv'.finish = iv.finish ∨ iv'.finish = «at») := by
  unfold Live.touch
  split
  · next k _ =>
    simp only [Live.setEnd, List.getElem?_modify, h]
    split
    · exact ⟨_, rfl, rfl, rfl, rfl, rfl, .inr rfl⟩
    · exact ⟨_, rfl, rfl, rfl, rfl, rfl, .inl rfl⟩
  · exact ⟨_, h, rfl, rfl, rfl, rfl, .inl rfl⟩

theorem Live.touch_mem (v : Live) («at» : ℕ) (e : Expr) {iv' : Interval} (h : iv' ∈ (v.touch «at» e).intervals) :
    ∃ iv ∈ v.intervals, iv'.block = iv.block ∧ (iv'.finish = iv.finish ∨ iv'.finish = «at») := by
  obtain ⟨j, hj⟩ := List.mem_iff_getElem?.1 h
  have hl : (v.touch «at» e).intervals.length = v.intervals.length := by
    have := congrArg List.length (v.touch_keys «at» e)
    simpa using this
  have hlt : j < v.intervals.length := by
    rw [← hl]
    exact (List.getElem?_eq_some_iff.1 hj).1
  obtain ⟨iv2, h2, _, _, _, h3, h4⟩ := v.touch_getElem «at» e (List.getElem?_eq_getElem hlt)
  rw [h2] at hj
  cases hj
  exact ⟨_, List.getElem_mem hlt, h3, h4⟩

theorem Live.Covers.touch {v : Live} {k o : ℕ} {t : Ty} (h : v.Covers k o t) {now : ℕ} (hk : k ≤ now) (e : Expr) : (v.touch now e).Covers k o t := by
  obtain ⟨j, iv, h1, h2, h3, h4, h5, h6⟩ := h
  obtain ⟨iv', h7, h8, h9, h10, _, h11⟩ := v.touch_getElem now e h2
  exact ⟨j, iv', (v.touch_get now e _).trans h1, h7, by rw [h8, h3], by rw [h9, h4], by rw [h10]; exact h5, by omega⟩

theorem Live.Ok.touch {v : Live} {now next : ℕ} {defs : List (ℕ × Ty)} (h : v.Ok now defs next) (e : Expr) : (v.touch now e).Ok now defs next := by
  refine ⟨?_, ?_, ?_, ?_⟩
  · intro o t ht
    obtain ⟨j, iv, h1, h2, h3, h4, h5⟩ := h.found o t ht
    obtain ⟨iv', h7, h8, h9, h10, _⟩ := v.touch_getElem now e h2
    exact ⟨j, iv', (v.touch_get now e _).trans h1, h7, by rw [h8, h3], by rw [h9, h4], by rw [h10]; exact h5⟩
  · intro j x hx
    rw [touch_get] at hx
    exact h.bound j x hx
  · intro iv' hiv
    obtain ⟨iv, h1, h2, _⟩ := v.touch_mem now e hiv
    rw [h2, h.block iv h1]
  · intro iv' hiv
    obtain ⟨iv, h1, _, h2⟩ := v.touch_mem now e hiv
    have := h.finish iv h1
    omega

theorem Live.Ok.covers {v : Live} {now next : ℕ} {defs : List (ℕ × Ty)} (h : v.Ok now defs next) {o : ℕ} {t : Ty} (ht : (o, t) ∈ defs) :
    (v.touch now (.memory o t)).Covers now o t := by
  obtain ⟨j, iv, h1, h2, h3, h4, h5⟩ := h.found o t ht
  refine ⟨j, { iv with finish := now }, (v.touch_get _ _ _).trans h1, ?_, h3, h4, h5, le_rfl⟩
  unfold Live.touch
  rw [h1]
  simp [Live.setEnd, List.getElem?_modify, h2]

theorem Live.touchAll_ok {now next : ℕ} {defs : List (ℕ × Ty)} (l : List Expr) : ∀ {v : Live}, v.Ok now defs next →
    (v.touchAll now l).Ok now defs next ∧ (v.touchAll now l).intervals.map Interval.key = v.intervals.map Interval.key ∧
    (∀ k o t, k ≤ now → v.Covers k o t → (v.touchAll now l).Covers k o t) ∧
    (∀ o t, .memory o t ∈ l → (o, t) ∈ defs → (v.touchAll now l).Covers now o t) := by
  induction l with
  | nil => exact fun h => ⟨h, rfl, fun _ _ _ _ hc => hc, fun o t hm => by cases hm⟩
  | cons e l ih =>
    intro v h
    obtain ⟨h1, h2, h3, h4⟩ := ih (h.touch e)
    refine ⟨h1, h2.trans (v.touch_keys now e), fun k o t hk hc => h3 k o t hk (hc.touch hk e), fun o t hm hd => ?_⟩
    rcases List.mem_cons.1 hm with rfl | hm
    · exact h3 now o t le_rfl (h.covers hd)
    · exact h4 o t hm hd

theorem Live.get_cons (v : Live) (iv : Interval) (x e : Expr) (j : ℕ) :
    (Live.mk (v.intervals ++ [iv]) ((x, j) :: v.lookup)).get e = if x = e then some j else v.get e := by
  simp only [Live.get, List.find?_cons]
  by_cases h : x = e <;> simp [h]

theorem Live.Ok.push {v : Live} {now next o : ℕ} {t : Ty} {defs : List (ℕ × Ty)} (h : v.Ok now defs next) (ho : next ≤ o)
    (hdefs : ∀ d ∈ defs, d.1 < next) :
    (Live.mk (v.intervals ++ [⟨o, t, none, now, now⟩]) ((.memory o t, v.intervals.length) :: v.lookup)).Ok now defs (o + t.len) := by
  have hlen : 0 < t.len := by cases t <;> simp [Ty.len]
  refine ⟨?_, ?_, ?_, ?_⟩
  · intro o' t' ht
    obtain ⟨j, iv, h1, h2, h3⟩ := h.found o' t' ht
    refine ⟨j, iv, ?_, ?_, h3⟩
    · rw [get_cons, if_neg]
      · exact h1
      · intro he
        injection he with he _
        have := hdefs _ ht
        simp only at this
        omega
    · rw [List.getElem?_append_left (List.getElem?_eq_some_iff.1 h2).1]
      exact h2
  · intro j e he
    rw [get_cons] at he
    split at he
    · next hx => exact ⟨o, t, hx.symm, by omega⟩
    · obtain ⟨o', t', h1, h2⟩ := h.bound j e he
      exact ⟨o', t', h1, by omega⟩
  · intro iv hiv
    rcases List.mem_append.1 hiv with hiv | hiv
    · exact h.block iv hiv
    · rw [List.mem_singleton.1 hiv]
  · intro iv hiv
    rcases List.mem_append.1 hiv with hiv | hiv
    · exact h.finish iv hiv
    · rw [List.mem_singleton.1 hiv]

theorem Live.Covers.push {v : Live} {k o : ℕ} {t : Ty} (h : v.Covers k o t) {iv : Interval} {x : Expr} {j : ℕ} (hx : x ≠ .memory o t) :
    (Live.mk (v.intervals ++ [iv]) ((x, j) :: v.lookup)).Covers k o t := by
  obtain ⟨j', iv', h1, h2, h3⟩ := h
  refine ⟨j', iv', ?_, ?_, h3⟩
  · rw [get_cons, if_neg hx]
    exact h1
  · rw [List.getElem?_append_left (List.getElem?_eq_some_iff.1 h2).1]
    exact h2

theorem Live.Ok.later {v : Live} {now now' next : ℕ} {defs : List (ℕ × Ty)} (h : v.Ok now defs next) (hn : now ≤ now') : v.Ok now' defs next := by
  refine ⟨fun o t ht => ?_, h.bound, h.block, fun iv hiv => (h.finish iv hiv).trans hn⟩
  obtain ⟨j, iv, h1, h2, h3, h4, h5⟩ := h.found o t ht
  exact ⟨j, iv, h1, h2, h3, h4, by omega⟩

/-- The result of `buildIntervals`, from statement `now` on. -/
theorem Live.steps_ok {finals : List Expr} {size : ℕ} : ∀ {stmts : List Stmt} {v : Live} {now next : ℕ} {defs : List (ℕ × Ty)},
    RecordedFrom finals size defs next stmts → v.Ok now defs next → (∀ d ∈ defs, d.1 < next) →
    ∃ v', v.steps now stmts = some v' ∧ v'.intervals.map Interval.key = v.intervals.map Interval.key ++ assigns now stmts ∧
      (∀ iv ∈ v'.intervals, iv.block = none) ∧
      (∀ k o t, k ≤ now → (o, t) ∈ defs → v.Covers k o t → v'.Covers k o t) ∧
      (∀ k s, stmts[k]? = some s → ∀ o t, .memory o t ∈ s.reads → v'.Covers (now + k) o t) ∧
      ∃ defs' next', v'.Ok (now + stmts.length) defs' next' ∧ (∀ e ∈ finals, e.Known defs') ∧ (∀ d ∈ defs, d ∈ defs') ∧
        ∀ a ∈ assigns now stmts, (a.1, a.2.1) ∈ defs'
  | [], v, now, next, defs, hr, hv, _ =>
    ⟨v, rfl, by simp [assigns], hv.block, fun _ _ _ _ _ h => h, fun k s h => by simp at h, defs, next, hv, hr.1, fun _ h => h, by simp [assigns]⟩
  | .assign (.memory o t) r :: cs, v, now, next, defs, hr, hv, hd => by
    obtain ⟨⟨ho, -⟩, hk, hr⟩ := hr
    have hlen : 0 < t.len := by cases t <;> simp [Ty.len]
    have hp := hv.push (t := t) ho hd
    obtain ⟨h1, h2, h3, h4⟩ := Live.touchAll_ok r.leaves hp
    set w := Live.touchAll ⟨v.intervals ++ [⟨o, t, none, now, now⟩], (.memory o t, v.intervals.length) :: v.lookup⟩ now r.leaves with hw
    have hw' : w.Ok (now + 1) ((o, t) :: defs) (o + t.len) := by
      have hl := h1.later (Nat.le_succ now)
      refine ⟨?_, hl.bound, hl.block, hl.finish⟩
      intro o' t' ht
      rcases List.mem_cons.1 ht with he | ht
      · cases he
        have hkey : w.intervals.map Interval.key = v.intervals.map Interval.key ++ [(o, t, now)] := by
          rw [h2]; simp [Interval.key]
        have hg : w.get (.memory o t) = some v.intervals.length := by
          have : ∀ (l : List Expr) (u : Live), (u.touchAll now l).get (.memory o t) = u.get (.memory o t) := by
            intro l
            induction l with
            | nil => intro u; rfl
            | cons e l ih => intro u; exact (ih _).trans (u.touch_get now e _)
          rw [hw, this, get_cons, if_pos rfl]
        have hn : (w.intervals.map Interval.key)[v.intervals.length]? = some (o, t, now) := by
          rw [hkey, List.getElem?_append_right (by simp)]
          simp
        rw [List.getElem?_map, Option.map_eq_some_iff] at hn
        obtain ⟨iv, h5, h6⟩ := hn
        simp only [Interval.key, Prod.mk.injEq] at h6
        exact ⟨_, iv, hg, h5, h6.1, h6.2.1, by omega⟩
      · exact hl.found o' t' ht
    obtain ⟨v', g1, g2, g3, g4, g5, g6⟩ := Live.steps_ok hr hw' (by
      intro d hdm
      rcases List.mem_cons.1 hdm with rfl | hdm
      · simp only; omega
      · have := hd d hdm
        omega)
    refine ⟨v', ?_, ?_, g3, ?_, ?_, ?_⟩
    · simp only [Live.steps, Live.step, Option.bind_eq_bind, Option.bind_some]
      exact g1
    · rw [g2, h2]
      simp [Interval.key, assigns]
    · intro k o' t' hk' hdm hc
      refine g4 k o' t' (by omega) (List.mem_cons_of_mem _ hdm) (h3 k o' t' hk' (hc.push ?_))
      intro he
      injection he with he _
      have := hd _ hdm
      simp only at this
      omega
    · intro k s hs o' t' hm
      rcases k with _ | k
      · simp only [List.getElem?_cons_zero, Option.some.injEq] at hs
        subst hs
        have hdm := (hk _ hm).1 o' t' rfl
        exact g4 now o' t' (by omega) (List.mem_cons_of_mem _ hdm) (h4 o' t' hm hdm)
      · have := g5 k s (by simpa using hs) o' t' hm
        rwa [show now + (k + 1) = now + 1 + k by omega]
    · obtain ⟨defs', next', k1, k2, k3, k4⟩ := g6
      refine ⟨defs', next', by rwa [List.length_cons, show now + (cs.length + 1) = now + 1 + cs.length by omega], k2,
        fun d hdm => k3 d (List.mem_cons_of_mem _ hdm), fun a ha => ?_⟩
      rcases List.mem_cons.1 ha with rfl | ha
      · exact k3 _ (List.mem_cons_self ..)
      · exact k4 a ha
  | .updateHash e off :: cs, v, now, next, defs, hr, hv, hd => by
    obtain ⟨hk, hr⟩ := hr
    obtain ⟨h1, h2, h3, h4⟩ := Live.touchAll_ok e.leaves hv
    obtain ⟨v', g1, g2, g3, g4, g5, g6⟩ := Live.steps_ok hr (h1.later (Nat.le_succ now)) hd
    refine ⟨v', ?_, ?_, g3, ?_, ?_, ?_⟩
    · simp only [Live.steps, Live.step, Option.bind_eq_bind, Option.bind_some]
      exact g1
    · rw [g2, h2]
      simp [assigns]
    · intro k o' t' hk' hdm hc
      exact g4 k o' t' (by omega) hdm (h3 k o' t' hk' hc)
    · intro k s hs o' t' hm
      rcases k with _ | k
      · simp only [List.getElem?_cons_zero, Option.some.injEq] at hs
        subst hs
        have hdm := (hk _ hm).1 o' t' rfl
        exact g4 now o' t' (by omega) hdm (h4 o' t' hm hdm)
      · have := g5 k s (by simpa using hs) o' t' hm
        rwa [show now + (k + 1) = now + 1 + k by omega]
    · obtain ⟨defs', next', k1, k2, k3, k4⟩ := g6
      exact ⟨defs', next', by rwa [List.length_cons, show now + (cs.length + 1) = now + 1 + cs.length by omega], k2, k3, k4⟩

/-- Intervals of a recorded program: one per written location, in order, covering all uses. -/
theorem buildIntervals_ok {p : Prog} (h : p.Recorded) :
    ∃ v, buildIntervals p.stmts p.finals = some v ∧ v.intervals.map Interval.key = assigns 0 p.stmts ∧
      (∀ iv ∈ v.intervals, iv.block = none) ∧
      (∀ k s, p.stmts[k]? = some s → ∀ o t, .memory o t ∈ s.reads → v.Covers k o t) ∧
      (∀ e ∈ p.finals, ∀ o t, .memory o t ∈ e.leaves → v.Covers (p.stmts.length + 1) o t) ∧
      ∀ a ∈ assigns 0 p.stmts, ∃ j iv, v.get (.memory a.1 a.2.1) = some j ∧ v.intervals[j]? = some iv ∧ iv.expr = a.1 ∧ iv.t = a.2.1 := by
  obtain ⟨v, h1, h2, h3, -, h5, defs, next, h6, h7, -, h8⟩ := Live.steps_ok (v := ⟨[], []⟩) (now := 0) h
    ⟨by simp, by simp [Live.get], by simp, by simp⟩ (by simp)
  rw [Nat.zero_add] at h6
  obtain ⟨g1, g2, g3, g4⟩ := Live.touchAll_ok (p.finals.flatMap Expr.leaves) (h6.later (Nat.le_succ _))
  refine ⟨v.touchAll (p.stmts.length + 1) (p.finals.flatMap Expr.leaves), ?_, ?_, g1.block, ?_, ?_, ?_⟩
  · unfold buildIntervals
    rw [h1]
    rfl
  · rw [g2, h2]
    rfl
  · intro k s hs o t hm
    have hk := (List.getElem?_eq_some_iff.1 hs).1
    have := h5 k s hs o t hm
    rw [Nat.zero_add] at this
    exact g3 k o t (by omega) this
  · intro e he o t hm
    exact g4 o t (List.mem_flatMap.2 ⟨e, he, hm⟩) ((h7 e he _ hm).1 o t rfl)
  · intro a ha
    obtain ⟨j, iv, k1, k2, k3, k4, -⟩ := g1.found _ _ (h8 a ha)
    exact ⟨j, iv, k1, k2, k3, k4⟩

end Verif.Sol
