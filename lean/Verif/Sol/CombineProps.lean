import Verif.Sol.LinearScanProps

/-!
# Fusing a product into the sum that follows (C43)
-/

namespace Verif.Sol

/-- No sum of the program adds the product computed just before to something that mentions that product again. -/
def NoDouble (stmts : List Stmt) : Prop :=
  ∀ k x l r t y a b t', stmts[k]? = some (.assign x (.mul l r t)) → stmts[k + 1]? = some (.assign y (.add a b t')) →
    (a = x → x ∉ b.leaves) ∧ (b = x → x ∉ a.leaves)

/-! ### The fused operation -/

theorem addmod_comm (a b : Word) : addmod a b = addmod b a := by rw [addmod, addmod, Nat.add_comm]

theorem mulmod_comm (a b : Word) : mulmod a b = mulmod b a := by rw [mulmod, mulmod, Nat.mul_comm]

theorem eccAdd_comm (ax ay bx by' : Word) : eccAdd ax ay bx by' = eccAdd bx by' ax ay := by
  simp only [eccAdd]
  rcases g1 ax ay with _ | a <;> rcases g1 bx by' with _ | b <;> simp [add_comm]

theorem opAdd_comm (t : Ty) (a b : Val) : opAdd t a b = opAdd t b a := by
  cases t <;> cases a <;> cases b <;> simp only [opAdd]
  · rw [addmod_comm]
  · rw [eccAdd_comm]

theorem opMul_opAdd (t : Ty) (a b c : Val) : ((opMul t a b).bind fun x => opAdd t x c) = opMulAdd t b a c := by
  cases t <;> cases a <;> cases b <;> cases c <;> simp only [opMul, opMulAdd, Option.bind_none, Option.bind_some, opAdd]
  · rw [frMulAdd, mulmod_comm]
  · rename_i s x y w
    rcases eccMul x y s with _ | u <;> rfl
  · rename_i s x y cx cy
    rw [eccMulAdd]
    rcases eccMul x y s with _ | u
    · rfl
    · rfl

theorem opMul_ty {t : Ty} {a b v : Val} (h : opMul t a b = some v) : v.ty = t := by
  cases t <;> cases a <;> cases b <;> simp only [opMul, Option.some.injEq, reduceCtorEq, Option.map_eq_some_iff] at h
  · subst h; rfl
  · obtain ⟨r, -, rfl⟩ := h; rfl

theorem read_put {E : Env} {s s1 : St} {o : ℕ} {t : Ty} {v : Val} (hb : o + t.len ≤ E.size) (h : put E s (.memory o t) v = some s1) :
    E.readMem s1 o t = some v := by
  have hty : v.ty = t := by
    by_contra hne
    have := put_memory (s := s) (v := v) hb
    rw [if_neg hne, h] at this
    cases this
  have := put_memory (s := s) (v := v) hb
  rw [if_pos hty] at this
  obtain ⟨s2, h2, -, -, -, h3, -⟩ := this
  rw [h] at h2
  cases h2
  cases t with
  | scalar =>
    simp only [Ty.len] at hb h3
    have := h3 0 (by omega)
    rw [Env.readMem, load_lt (show o < E.size by omega)]
    cases v with
    | s w => simpa [Val.word] using this
    | p x y => cases hty
  | point =>
    simp only [Ty.len] at hb h3
    have h4 := h3 0 (by omega)
    have h5 := h3 1 (by omega)
    rw [Env.readMem, load_lt (show o < E.size by omega), load_lt (show o + 1 < E.size by omega)]
    cases v with
    | s w => cases hty
    | p x y =>
      simp only [Val.word, Nat.add_zero] at h4 h5
      rw [h4, h5]
      rfl

/-! ### States that agree where it matters -/

/-- The states agree on the written locations, except for those that are never read again. -/
structure Agree (defs gone : List (ℕ × Ty)) (s s' : St) : Prop where
  abs : s'.abs = s.abs
  mem : ∀ d ∈ defs, d ∉ gone → ∀ i < d.2.len, s'.m (d.1 + i) = s.m (d.1 + i)

def Free (gone : List (ℕ × Ty)) (l : List Expr) : Prop := ∀ d ∈ gone, .memory d.1 d.2 ∉ l

theorem eval_agree {E : Env} {defs gone : List (ℕ × Ty)} {s s' : St} (h : Agree defs gone s s') {e : Expr} (hk : e.Known defs) (hf : Free gone e.leaves) :
    eval E s e = eval E s' e := by
  refine eval_congr fun x hx => ?_
  obtain ⟨h1, h2, h3, h4⟩ := hk x hx
  have hl := Expr.isLeaf_of_mem hx
  cases x with
  | memory o t =>
    have hm := h.mem (o, t) (h1 o t rfl) fun hg => hf _ hg hx
    simp only [eval]
    cases t with
    | scalar =>
      have := hm 0 (by simp [Ty.len])
      simp only [Nat.add_zero] at this
      simp only [Env.readMem, Env.load, this]
    | point =>
      have h5 := hm 0 (by simp [Ty.len])
      have h6 := hm 1 (by simp [Ty.len])
      simp only [Nat.add_zero] at h5 h6
      simp only [Env.readMem, Env.load, h5, h6]
  | temp t => exact absurd rfl (h2 t)
  | mulAddPM a b t => exact absurd rfl (h3 a b t)
  | mulAddMT a b => exact absurd rfl (h4 a b)
  | add | sub | mul | div | mulAdd | pow => exact hl.elim
  | _ => rfl

theorem evalRhs_agree {E : Env} {defs gone : List (ℕ × Ty)} {s s' : St} (h : Agree defs gone s s') {e : Expr} (hk : e.Known defs)
    (hf : Free gone e.leaves) : OptRel (fun a b => Agree defs gone a.1 b.1 ∧ a.2 = b.2) (evalRhs E s e) (evalRhs E s' e) := by
  by_cases ho : ∃ o, e = .hash o
  · obtain ⟨o, rfl⟩ := ho
    simp only [evalRhs, h.abs]
    show OptRel _ ((squeezeChallenge E.D s.abs o).bind _) ((squeezeChallenge E.D s.abs o).bind _)
    cases squeezeChallenge E.D s.abs o with
    | none => trivial
    | some r => exact ⟨⟨rfl, h.mem⟩, rfl⟩
  · push Not at ho
    rw [evalRhs_of_ne ho, evalRhs_of_ne ho, ← eval_agree h hk hf]
    cases eval E s e with
    | none => trivial
    | some v => exact ⟨h, rfl⟩

def Below (defs : List (ℕ × Ty)) (next : ℕ) : Prop := ∀ d ∈ defs, d.1 + d.2.len ≤ next

theorem put_agree {E : Env} {defs gone : List (ℕ × Ty)} {next o : ℕ} {t : Ty} {s s' : St} (h : Agree defs gone s s') (hd : Below defs next) (ho : next ≤ o)
    (hb : o + t.len ≤ E.size) (v : Val) :
    OptRel (Agree ((o, t) :: defs) gone) (put E s (.memory o t) v) (put E s' (.memory o t) v) := by
  have h1 := put_memory (s := s) (v := v) hb
  have h2 := put_memory (s := s') (v := v) hb
  by_cases hty : v.ty = t
  · rw [if_pos hty] at h1 h2
    obtain ⟨s1, h1, a1, -, -, n1, k1⟩ := h1
    obtain ⟨s2, h2, a2, -, -, n2, k2⟩ := h2
    rw [h1, h2]
    refine ⟨by rw [a1, a2, h.abs], fun d hdm hg i hi => ?_⟩
    rcases List.mem_cons.1 hdm with rfl | hdm
    · rw [n1 i hi, n2 i hi]
    · have := hd d hdm
      rw [k1 _ (.inl (by omega)), k2 _ (.inl (by omega)), h.mem d hdm hg i hi]
  · rw [if_neg hty] at h1 h2
    rw [h1, h2]
    trivial

theorem put_left {E : Env} {defs gone : List (ℕ × Ty)} {next o : ℕ} {t : Ty} {s s' s1 : St} (h : Agree defs gone s s') (hd : Below defs next) (ho : next ≤ o)
    (hb : o + t.len ≤ E.size) {v : Val} (hs : put E s (.memory o t) v = some s1) : Agree ((o, t) :: defs) ((o, t) :: gone) s1 s' := by
  have h1 := put_memory (s := s) (v := v) hb
  by_cases hty : v.ty = t
  · rw [if_pos hty] at h1
    obtain ⟨s2, h1, a1, -, -, n1, k1⟩ := h1
    rw [hs] at h1
    cases h1
    refine ⟨by rw [a1, h.abs], fun d hdm hg i hi => ?_⟩
    rcases List.mem_cons.1 hdm with rfl | hdm
    · exact absurd (List.mem_cons_self ..) hg
    · have := hd d hdm
      rw [k1 _ (.inl (by omega)), h.mem d hdm (fun hm => hg (List.mem_cons_of_mem _ hm)) i hi]
  · rw [if_neg hty, hs] at h1
    cases h1

/-! ### One pass -/

/-- `q` can stand for `cs`. -/
def Good (finals : List Expr) (size : ℕ) (defs gone : List (ℕ × Ty)) (next : ℕ) (cs q : List Stmt) : Prop :=
  RecordedFrom finals size (defs.filter (· ∉ gone)) next q ∧
  ∀ (E : Env) (s s' : St), E.size = size → Agree defs gone s s' →
    OptRel (fun a b => ∀ e ∈ finals, eval E a e = eval E b e) (execAll E s cs) (execAll E s' q)

theorem Known.filter {defs gone : List (ℕ × Ty)} {e : Expr} (hk : e.Known defs) (hf : Free gone e.leaves) : e.Known (defs.filter (· ∉ gone)) := by
  intro x hx
  obtain ⟨h1, h2⟩ := hk x hx
  refine ⟨fun o t he => List.mem_filter.2 ⟨h1 o t he, ?_⟩, h2⟩
  subst he
  simpa using fun hg => hf _ hg hx

section
variable {finals : List Expr} {size : ℕ}

theorem emit {defs gone : List (ℕ × Ty)} {next : ℕ} {c : Stmt} {cs : List Stmt} (hr : RecordedFrom finals size defs next (c :: cs)) (hd : Below defs next)
    (hg : ∀ d ∈ gone, d ∈ defs) (hf : Free gone c.reads) :
    ∃ defs' next', RecordedFrom finals size defs' next' cs ∧ Below defs' next' ∧ (∀ d ∈ gone, d ∈ defs') ∧
      ∀ q, Good finals size defs' gone next' cs q → Good finals size defs gone next (c :: cs) (c :: q) := by
  rcases RecordedFrom.shape hr c (List.mem_cons_self ..) with ⟨o, t, r, rfl⟩ | ⟨e, off, rfl⟩
  · have hs := RecordedFrom.next_le hr.2.2
    refine ⟨(o, t) :: defs, o + t.len, hr.2.2, ?_, fun d h => List.mem_cons_of_mem _ (hg d h), fun q hq => ⟨?_, ?_⟩⟩
    · intro d hdm
      rcases List.mem_cons.1 hdm with rfl | hdm
      · exact le_rfl
      · have := hd d hdm
        have := hr.1.1
        omega
    · have hnot : (o, t) ∉ gone := fun h => by
        have h1 := hd _ (hg _ h)
        have h2 := hr.1.1
        have h3 := t.len_pos
        simp only at h1
        omega
      refine ⟨hr.1, Known.filter hr.2.1 hf, ?_⟩
      have := hq.1
      rwa [List.filter_cons_of_pos (by simpa using hnot)] at this
    · intro E s s' hE ha
      refine OptRel.bind (R := Agree ((o, t) :: defs) gone) (OptRel.bind (evalRhs_agree ha hr.2.1 hf) fun a b hab => ?_) fun a b hab => hq.2 E a b hE hab
      obtain ⟨a1, a2⟩ := a
      obtain ⟨b1, b2⟩ := b
      obtain ⟨h1, h2⟩ := hab
      dsimp only at h1 h2
      subst h2
      exact put_agree h1 hd hr.1.1 (hE ▸ hs) a2
  · refine ⟨defs, next, hr.2, hd, hg, fun q hq => ⟨⟨Known.filter hr.1 hf, hq.1⟩, ?_⟩⟩
    intro E s s' hE ha
    refine OptRel.bind (R := Agree defs gone) ?_ fun a b hab => hq.2 E a b hE hab
    simp only [exec, ← eval_agree (E := E) ha hr.1 hf]
    show OptRel _ ((eval E s e).bind _) ((eval E s e).bind _)
    rcases eval E s e with _ | v
    · trivial
    · show OptRel _ (absorb s off e.type v) (absorb s' off e.type v)
      cases e.type <;> cases v
      · simp only [absorb, ha.abs]
        rename_i w
        cases updateHashScalar w s.abs off with
        | none => trivial
        | some a => exact ⟨rfl, ha.mem⟩
      · trivial
      · trivial
      · simp only [absorb, ha.abs]
        rename_i u v
        cases updateHashPoint u v s.abs off with
        | none => trivial
        | some a => exact ⟨rfl, ha.mem⟩

theorem combine_cases {c s s' : Stmt} (h : c.combineMulAdd s = some s') :
    ∃ x l r t y a b, c = .assign x (.mul l r t) ∧ s = .assign y (.add a b t) ∧ ((a = x ∧ s' = .assign y (.mulAdd r l b t)) ∨ (b = x ∧ s' = .assign y (.mulAdd r l a t))) := by
  unfold Stmt.combineMulAdd at h
  split at h
  · next x l r t y a b t' =>
    split at h
    · next h1 =>
      obtain ⟨h1, rfl⟩ := h1
      exact ⟨x, l, r, t, y, a, b, rfl, rfl, .inl ⟨h1, (Option.some.inj h).symm⟩⟩
    · split at h
      · next h1 =>
        obtain ⟨h1, rfl⟩ := h1
        exact ⟨x, l, r, t, y, a, b, rfl, rfl, .inr ⟨h1, (Option.some.inj h).symm⟩⟩
      · cases h
  · cases h

theorem fuse_eval {E : Env} {defs gone : List (ℕ × Ty)} {next o : ℕ} {t : Ty} {s s' : St} {l r b : Expr} (ha : Agree defs gone s s') (hd : Below defs next)
    (ho : next ≤ o) (hb : o + t.len ≤ E.size) (hl : l.Known defs) (hr : r.Known defs) (hbk : b.Known ((o, t) :: defs)) (hfl : Free gone l.leaves)
    (hfr : Free gone r.leaves) (hfb : Free ((o, t) :: gone) b.leaves) :
    OptRel (fun (x : St × Val) (y : Val) => Agree ((o, t) :: defs) ((o, t) :: gone) x.1 s' ∧ x.2 = y)
      ((eval E s (.mul l r t)).bind fun v => (put E s (.memory o t) v).bind fun s1 => (eval E s1 (.add (.memory o t) b t)).map fun w => (s1, w))
      (eval E s' (.mulAdd r l b t)) := by
  simp only [eval, eval_agree (E := E) ha hl hfl, eval_agree (E := E) ha hr hfr, Option.bind_eq_bind]
  rcases eval E s' l with _ | vl
  · rcases eval E s' r with _ | vr <;> trivial
  rcases eval E s' r with _ | vr
  · trivial
  simp only [Option.bind_some]
  rcases hm : opMul t vl vr with _ | x
  · rcases eval E s' b with _ | vb
    · trivial
    · rw [Option.bind_some, ← opMul_opAdd, hm]
      trivial
  · rw [Option.bind_some]
    have hput := put_memory (s := s) (v := x) hb
    rw [if_pos (opMul_ty hm)] at hput
    obtain ⟨s1, h1, -⟩ := hput
    have h2 := put_left ha hd ho hb h1
    rw [h1, Option.bind_some, read_put hb h1, Option.bind_some, eval_agree (E := E) h2 hbk hfb]
    rcases eval E s' b with _ | vb
    · trivial
    · rw [Option.bind_some, Option.bind_some, ← opMul_opAdd, hm, Option.bind_some]
      rcases opAdd t x vb with _ | w
      · trivial
      · exact ⟨h2, rfl⟩

theorem eval_add_comm (E : Env) (s : St) (a b : Expr) (t : Ty) : eval E s (.add a b t) = eval E s (.add b a t) := by
  simp only [eval]
  rcases eval E s a with _ | x <;> rcases eval E s b with _ | y <;> try rfl
  exact opAdd_comm t x y

theorem fuse {defs gone : List (ℕ × Ty)} {next : ℕ} {c s s' : Stmt} {cs : List Stmt} (hr : RecordedFrom finals size defs next (c :: s :: cs))
    (hd : Below defs next) (hg : ∀ d ∈ gone, d ∈ defs) (hf : Free gone c.reads) (hf2 : Free gone s.reads) (hc : c.combineMulAdd s = some s')
    (hno : NoDouble [c, s]) {o : ℕ} {t : Ty} {rhs : Expr} (hco : c = .assign (.memory o t) rhs) :
    ∃ defs' next', RecordedFrom finals size defs' next' cs ∧ Below defs' next' ∧ (∀ d ∈ (o, t) :: gone, d ∈ defs') ∧
      ∀ q, Good finals size defs' ((o, t) :: gone) next' cs q → Good finals size defs gone next (c :: s :: cs) (s' :: q) := by
  obtain ⟨x, l, r, tm, y, a, b, rfl, rfl, hs'⟩ := combine_cases hc
  injection hco with hx hrhs
  subst hx
  have hx2 := RecordedFrom.shape hr (.assign y (.add a b tm)) (by simp)
  rcases hx2 with ⟨o2, t2, r2, he⟩ | ⟨e, off, he⟩
  swap
  · cases he
  injection he with hy _
  subst hy
  obtain ⟨⟨h1, h2⟩, h3, ⟨h4, h5⟩, h6, h7⟩ := hr
  simp only [Expr.type] at h2 h5
  subst h2
  subst h5
  have hsz := RecordedFrom.next_le h7
  have hlen := tm.len_pos
  have hmulk : l.Known defs ∧ r.Known defs :=
    ⟨fun x hx => h3 x (List.mem_append_left _ hx), fun x hx => h3 x (List.mem_append_right _ hx)⟩
  have hmulf : Free gone l.leaves ∧ Free gone r.leaves :=
    ⟨fun d hd hm => hf d hd (List.mem_append_left _ hm), fun d hd hm => hf d hd (List.mem_append_right _ hm)⟩
  have haddk : a.Known ((o, tm) :: defs) ∧ b.Known ((o, tm) :: defs) :=
    ⟨fun x hx => h6 x (List.mem_append_left _ hx), fun x hx => h6 x (List.mem_append_right _ hx)⟩
  have haddf : Free gone a.leaves ∧ Free gone b.leaves :=
    ⟨fun d hd hm => hf2 d hd (List.mem_append_left _ hm), fun d hd hm => hf2 d hd (List.mem_append_right _ hm)⟩
  have hnd := hno 0 _ _ _ _ _ _ _ _ rfl rfl
  -- the operand that stays
  obtain ⟨z, hz1, hz2, hz3, hz4⟩ : ∃ z : Expr, s' = .assign (.memory o2 tm) (.mulAdd r l z tm) ∧ z.Known ((o, tm) :: defs) ∧ Free ((o, tm) :: gone) z.leaves ∧
      ∀ E s, eval E s (.add a b tm) = eval E s (.add (.memory o tm) z tm) := by
    rcases hs' with ⟨ha, hs'⟩ | ⟨hb, hs'⟩
    · refine ⟨b, hs', haddk.2, fun d hdm hm => ?_, fun E s => by rw [ha]⟩
      rcases List.mem_cons.1 hdm with rfl | hdm
      · exact hnd.1 ha hm
      · exact haddf.2 d hdm hm
    · refine ⟨a, hs', haddk.1, fun d hdm hm => ?_, fun E s => by rw [hb, eval_add_comm]⟩
      rcases List.mem_cons.1 hdm with rfl | hdm
      · exact hnd.2 hb hm
      · exact haddf.1 d hdm hm
  have hznot : ∀ x ∈ z.leaves, ∀ o' t', x = .memory o' t' → (o', t') ∈ defs := by
    intro x hx o' t' he
    rcases List.mem_cons.1 ((hz2 x hx).1 o' t' he) with h | h
    · injection h with h1 h2
      subst h1 h2
      exact absurd (he ▸ hx) (hz3 (o', t') (List.mem_cons_self ..))
    · exact h
  have hzk : z.Known defs := fun x hx => ⟨hznot x hx, (hz2 x hx).2⟩
  have hgone : (o2, tm) ∉ (o, tm) :: gone := by
    intro hm
    rcases List.mem_cons.1 hm with h | h
    · injection h with h _
      omega
    · have := hd _ (hg _ h)
      simp only at this
      omega
  have hgone1 : ∀ d ∈ defs, d ∈ (o, tm) :: gone ↔ d ∈ gone := by
    intro d hdm
    refine ⟨fun hm => ?_, List.mem_cons_of_mem _⟩
    rcases List.mem_cons.1 hm with rfl | h
    · have := hd _ hdm
      simp only at this
      omega
    · exact h
  refine ⟨(o2, tm) :: (o, tm) :: defs, o2 + tm.len, h7, ?_, ?_, fun q hq => ⟨?_, ?_⟩⟩
  · intro d hdm
    rcases List.mem_cons.1 hdm with rfl | hdm
    · exact le_rfl
    · rcases List.mem_cons.1 hdm with rfl | hdm
      · simp only; omega
      · have := hd d hdm
        omega
  · intro d hdm
    rcases List.mem_cons.1 hdm with rfl | hdm
    · simp
    · exact List.mem_cons_of_mem _ (List.mem_cons_of_mem _ (hg d hdm))
  · subst hz1
    refine ⟨⟨by omega, rfl⟩, ?_, ?_⟩
    · intro x hx
      simp only [Expr.leaves, List.mem_append] at hx
      rcases hx with (hx | hx) | hx
      · exact Known.filter hmulk.2 hmulf.2 x hx
      · exact Known.filter hmulk.1 hmulf.1 x hx
      · exact Known.filter hzk (fun d hdm => hz3 d (List.mem_cons_of_mem _ hdm)) x hx
    · have := hq.1
      rw [List.filter_cons_of_pos (by simpa using hgone), List.filter_cons_of_neg (by simp)] at this
      rwa [List.filter_congr (q := fun d => decide (d ∉ gone)) (fun d hdm => by simp only [hgone1 d hdm])] at this
  · intro E s0 s1 hE ha
    have hkey := fuse_eval (E := E) (b := z) ha hd h1 (by omega) hmulk.1 hmulk.2 hz2 hmulf.1 hmulf.2 hz3
    subst hz1
    have hleft : execAll E s0 (.assign (.memory o tm) (.mul l r tm) :: .assign (.memory o2 tm) (.add a b tm) :: cs) =
        ((eval E s0 (.mul l r tm)).bind fun v => (put E s0 (.memory o tm) v).bind fun s1 => (eval E s1 (.add (.memory o tm) z tm)).map fun w => (s1, w)).bind
          fun x => (put E x.1 (.memory o2 tm) x.2).bind fun s => execAll E s cs := by
      simp only [execAll, exec, evalRhs_of_ne (e := .mul l r tm) (by simp), evalRhs_of_ne (e := .add a b tm) (by simp), hz4, Option.bind_eq_bind,
        Option.bind_assoc, Option.map_eq_bind, Option.bind_some, Function.comp_def]
    have hright : execAll E s1 (.assign (.memory o2 tm) (.mulAdd r l z tm) :: q) =
        (eval E s1 (.mulAdd r l z tm)).bind fun v => (put E s1 (.memory o2 tm) v).bind fun s => execAll E s q := by
      simp only [execAll, exec, evalRhs_of_ne (e := .mulAdd r l z tm) (by simp), Option.bind_eq_bind, Option.bind_assoc, Option.map_eq_bind,
        Option.bind_some, Function.comp_def]
    rw [hleft, hright]
    refine OptRel.bind hkey fun x w hxw => ?_
    obtain ⟨hag, rfl⟩ := hxw
    refine OptRel.bind (put_agree (next := o + tm.len) hag ?_ h4 (by omega) x.2) fun u v huv => hq.2 E u v hE huv
    intro d hdm
    rcases List.mem_cons.1 hdm with rfl | hdm
    · exact le_rfl
    · have := hd d hdm
      omega

/-- What `able` says about a candidate. -/
def Last (stmts : List Stmt) (finals : List Expr) (k o : ℕ) (t : Ty) : Prop :=
  (∀ k' > k + 1, ∀ s, stmts[k']? = some s → .memory o t ∉ s.reads) ∧ ∀ e ∈ finals, .memory o t ∉ e.leaves

def GoneOk (gone : List (ℕ × Ty)) (cs : List Stmt) (finals : List Expr) : Prop := (∀ s ∈ cs, Free gone s.reads) ∧ ∀ e ∈ finals, Free gone e.leaves

theorem combineGo_ok {v : Live} {stmts : List Stmt}
    (hable : ∀ k s, stmts[k]? = some s → ∃ b, s.able v k = some b ∧ (b = true → ∃ o t r, s = .assign (.memory o t) r ∧ Last stmts finals k o t))
    (hno : NoDouble stmts) : ∀ (cs : List Stmt),
    (∀ pre defs gone next, stmts = pre ++ cs → RecordedFrom finals size defs next cs → Below defs next → (∀ d ∈ gone, d ∈ defs) → GoneOk gone cs finals →
      ∃ q, combineGo v pre.length none cs = some q ∧ Good finals size defs gone next cs q) ∧
    (∀ pre defs gone next c o t r, stmts = pre ++ c :: cs → c = .assign (.memory o t) r → Last stmts finals pre.length o t →
      RecordedFrom finals size defs next (c :: cs) → Below defs next → (∀ d ∈ gone, d ∈ defs) → GoneOk gone (c :: cs) finals →
      ∃ q, combineGo v (pre.length + 1) (some c) cs = some q ∧ Good finals size defs gone next (c :: cs) q) := by
  have hnil : ∀ defs gone next, RecordedFrom finals size defs next [] → GoneOk gone [] finals → Good finals size defs gone next [] [] := by
    intro defs gone next hr hg
    refine ⟨⟨fun e he => Known.filter (hr.1 e he) (hg.2 e he), hr.2⟩, fun E s s' _ ha => ?_⟩
    exact fun e he => eval_agree ha (hr.1 e he) (hg.2 e he)
  intro cs
  induction cs with
  | nil =>
    refine ⟨fun pre defs gone next _ hr _ _ hg => ⟨[], rfl, hnil _ _ _ hr hg⟩, ?_⟩
    intro pre defs gone next c o t r _ _ _ hr hd hgd hg
    obtain ⟨defs', next', h1, h2, h3, h4⟩ := emit hr hd hgd (hg.1 c (by simp))
    exact ⟨[c], rfl, h4 _ (hnil _ _ _ h1 ⟨by simp, hg.2⟩)⟩
  | cons s ss ih =>
    obtain ⟨ihA, ihB⟩ := ih
    have htail : ∀ {gone c cs}, GoneOk gone (c :: cs) finals → GoneOk gone cs finals := fun h => ⟨fun s hs => h.1 s (List.mem_cons_of_mem _ hs), h.2⟩
    refine ⟨?_, ?_⟩
    · intro pre defs gone next he hr hd hgd hg
      obtain ⟨b, hb1, hb2⟩ := hable pre.length s (by simp [he])
      by_cases hb : b = true
      · subst hb
        obtain ⟨o, t, r, hs, hl⟩ := hb2 rfl
        obtain ⟨q, h1, h2⟩ := ihB pre defs gone next s o t r he hs hl hr hd hgd hg
        refine ⟨q, ?_, h2⟩
        simpa [combineGo, hb1] using h1
      · obtain ⟨defs', next', h1, h2, h3, h4⟩ := emit hr hd hgd (hg.1 s (by simp))
        obtain ⟨q, g1, g2⟩ := ihA (pre ++ [s]) defs' gone next' (by simp [he]) h1 h2 h3 (htail hg)
        refine ⟨s :: q, ?_, h4 q g2⟩
        simp only [List.length_append, List.length_singleton] at g1
        simp only [combineGo, hb1, Option.bind_eq_bind, Option.bind_some, hb, g1]
        rfl
    · intro pre defs gone next c o t r he hc hl hr hd hgd hg
      have hs : stmts[pre.length + 1]? = some s := by simp [he]
      have hcs : stmts[pre.length]? = some c := by simp [he]
      obtain ⟨b, hb1, hb2⟩ := hable (pre.length + 1) s hs
      rcases hcomb : c.combineMulAdd s with _ | s'
      · obtain ⟨defs', next', h1, h2, h3, h4⟩ := emit hr hd hgd (hg.1 c (by simp))
        by_cases hb : b = true
        · subst hb
          obtain ⟨o', t', r', hs', hl'⟩ := hb2 rfl
          obtain ⟨q, g1, g2⟩ := ihB (pre ++ [c]) defs' gone next' s o' t' r' (by simp [he]) hs' (by simpa using hl') h1 h2 h3 (htail hg)
          refine ⟨c :: q, ?_, h4 q g2⟩
          simp only [List.length_append, List.length_singleton] at g1
          simp only [combineGo, hb1, hcomb, Option.bind_eq_bind, Option.bind_some, g1]
          rfl
        · obtain ⟨defs2, next2, k1, k2, k3, k4⟩ := emit h1 h2 h3 (hg.1 s (by simp))
          obtain ⟨q, g1, g2⟩ := ihA (pre ++ [c, s]) defs2 gone next2 (by simp [he]) k1 k2 k3 (htail (htail hg))
          refine ⟨c :: s :: q, ?_, h4 _ (k4 q g2)⟩
          simp only [List.length_append, List.length_cons, List.length_nil] at g1
          simp only [combineGo, hb1, hcomb, Option.bind_eq_bind, Option.bind_some, hb, show pre.length + 1 + 1 = pre.length + (0 + 1 + 1) by omega, g1]
          rfl
      · have hno2 : NoDouble [c, s] := by
          intro k x l r t y a b t' hk hk1
          rcases k with _ | k
          · simp only [List.getElem?_cons_zero, Option.some.injEq, zero_add, List.getElem?_cons_succ] at hk hk1
            exact hno pre.length x l r t y a b t' (by rw [hcs, hk]) (by rw [hs, hk1])
          · simp at hk1
        obtain ⟨defs', next', h1, h2, h3, h4⟩ := fuse hr hd hgd (hg.1 c (by simp)) (hg.1 s (by simp)) hcomb hno2 hc
        have hg2 : GoneOk ((o, t) :: gone) ss finals := by
          refine ⟨fun u hu d hdm => ?_, fun e hem d hdm => ?_⟩
          · rcases List.mem_cons.1 hdm with rfl | hdm
            · obtain ⟨k, hk⟩ := List.mem_iff_getElem?.1 hu
              refine hl.1 (pre.length + 2 + k) (by omega) u ?_
              rw [he, List.getElem?_append_right (by omega), show pre.length + 2 + k - pre.length = k + 2 by omega]
              simpa using hk
            · exact (htail (htail hg)).1 u hu d hdm
          · rcases List.mem_cons.1 hdm with rfl | hdm
            · exact hl.2 e hem
            · exact hg.2 e hem d hdm
        obtain ⟨q, g1, g2⟩ := ihA (pre ++ [c, s]) defs' ((o, t) :: gone) next' (by simp [he]) h1 h2 h3 hg2
        refine ⟨s' :: q, ?_, h4 q g2⟩
        simp only [List.length_append, List.length_cons, List.length_nil] at g1
        simp only [combineGo, hb1, hcomb, Option.bind_eq_bind, Option.bind_some, show pre.length + 1 + 1 = pre.length + (0 + 1 + 1) by omega, g1]
        rfl

end

theorem able_ok {p : Prog} (h : p.Recorded) {v : Live} (hv : buildIntervals p.stmts p.finals = some v) (k : ℕ) (s : Stmt) (hs : p.stmts[k]? = some s) :
    ∃ b, s.able v k = some b ∧ (b = true → ∃ o t r, s = .assign (.memory o t) r ∧ Last p.stmts p.finals k o t) := by
  obtain ⟨v', h1, h2, -, h4, h5, h6⟩ := buildIntervals_ok h
  rw [hv] at h1
  obtain rfl := Option.some.inj h1
  obtain ⟨v', h1, hp⟩ := plan_of_recorded h
  rw [hv] at h1
  obtain rfl := Option.some.inj h1
  rcases RecordedFrom.shape h s (List.mem_of_getElem? hs) with ⟨o, t, r, rfl⟩ | ⟨e, off, rfl⟩
  · have ha := (RecordedFrom.assigns 0 h).2.2 k o t r hs
    obtain ⟨j, iv, g1, g2, g3, g4⟩ := h6 _ ha
    simp only at g1 g3 g4
    refine ⟨decide (iv.finish = k + 1), by simp [Stmt.able, g1, g2], fun hb => ⟨o, t, r, rfl, ?_, ?_⟩⟩
    · intro k' hk' s' hs' hm
      obtain ⟨i, hi, e1, e2, e3, e4⟩ := hp.reads k' s' hs' o t hm
      have := hp.unique hi (List.mem_of_getElem? g2) (e1.trans g3.symm)
      have := of_decide_eq_true hb
      subst i
      omega
    · intro e he hm
      obtain ⟨i, hi, e1, e2, e3, e4⟩ := hp.readsFinals e he o t hm
      have := hp.unique hi (List.mem_of_getElem? g2) (e1.trans g3.symm)
      have := of_decide_eq_true hb
      have := (List.getElem?_eq_some_iff.1 hs).1
      subst i
      omega
  · exact ⟨false, rfl, by simp⟩

/-- The first half of `memory_optimize`: mod.rs:77-79. -/
def combine (p : Prog) : Option Prog := do
  let v ← buildIntervals p.stmts p.finals
  return { p with stmts := ← combineMulAdd v p.stmts }

/-- Missing for the full claim: `NoDouble` (see `C43_false`). -/
theorem C43_combine_partial {p : Prog} (h : p.Recorded) (hno : NoDouble p.stmts) :
    ∃ q, combine p = some q ∧ q.Recorded ∧ ∀ c : Call, q.run c = p.run c := by
  obtain ⟨v, hv, -⟩ := buildIntervals_ok h
  obtain ⟨q, h1, h2⟩ := (combineGo_ok (able_ok h hv) hno p.stmts).1 [] [] [] 0 rfl h (by simp [Below]) (by simp) ⟨by simp [Free], by simp [Free]⟩
  refine ⟨{ p with stmts := q }, ?_, h2.1, fun c => ?_⟩
  · simp only [combine, hv, combineMulAdd, Option.bind_eq_bind, Option.bind_some]
    rw [show combineGo v 0 none p.stmts = some q from h1]
    rfl
  · have := h2.2 (c.env p.size) (St.init p.absorbingLength) (St.init p.absorbingLength) rfl ⟨rfl, by simp⟩
    simp only [Prog.run, Prog.runFrom]
    show (execAll (c.env p.size) (St.init p.absorbingLength) q).bind _ = (execAll (c.env p.size) (St.init p.absorbingLength) p.stmts).bind _
    revert this
    rcases execAll (c.env p.size) (St.init p.absorbingLength) p.stmts with _ | a <;>
      rcases execAll (c.env p.size) (St.init p.absorbingLength) q with _ | b
    · intro _; rfl
    · intro h; exact h.elim
    · intro h; exact h.elim
    · intro hab
      simp only [Option.bind_some]
      have := mapM_congr_opt (h := id) hab
      rw [List.map_id] at this
      exact this.symm

/-- Missing for the full claim: `NoDouble` (see `C43_false`). -/
theorem C43_memoryOptimize_partial {ord : List Interval → List Interval} (hord : ∀ l, (ord l).Perm l) {p : Prog} (h : p.Recorded)
    (hs : p.size ≤ Expr.deadbeaf) (hno : NoDouble p.stmts) : ∃ q, memoryOptimize ord p = some q ∧ ∀ c : Call, q.run c = p.run c := by
  obtain ⟨q, h1, h2, h3⟩ := C43_combine_partial h hno
  have hq : q.finals = p.finals ∧ q.size = p.size ∧ q.absorbingLength = p.absorbingLength := by
    simp only [combine, Option.bind_eq_bind, Option.bind_eq_some_iff, Option.pure_def, Option.some.injEq] at h1
    obtain ⟨v, -, st, -, rfl⟩ := h1
    exact ⟨rfl, rfl, rfl⟩
  obtain ⟨r, h4, h5⟩ := C42_run hord h2 (hq.2.1 ▸ hs)
  refine ⟨r, ?_, fun c => (h5 c).trans (h3 c)⟩
  simp only [combine, allocate, Option.bind_eq_bind, Option.bind_eq_some_iff, Option.pure_def, Option.some.injEq] at h1 h4
  obtain ⟨v, hv, st, hst, rfl⟩ := h1
  obtain ⟨w, hw, sc, hsc, rfl⟩ := h4
  dsimp only at hw hsc
  simp only [memoryOptimize, hv, hst, hw, hsc, Option.bind_eq_bind, Option.bind_some, Option.pure_def]

/-! ### A product that is doubled -/

/-- `x = a * b; y = x + x`. -/
def doubled : Prog :=
  ⟨[.assign (.memory 0 .scalar) (.mul (.transcript 0 .scalar) (.transcript 1 .scalar) .scalar),
    .assign (.memory 1 .scalar) (.add (.memory 0 .scalar) (.memory 0 .scalar) .scalar)], [.memory 1 .scalar], 2, 0⟩

/-- The sum becomes `b * a + x`, where `x` is never computed. -/
theorem doubled_optimized : memoryOptimize id doubled = some
    ⟨[.assign (.memory 0 .scalar) (.mulAdd (.transcript 1 .scalar) (.transcript 0 .scalar) (.memory 0 .scalar) .scalar)], [.memory 0 .scalar], 2, 0⟩ := by
  decide +kernel

theorem doubled_recorded : doubled.Recorded := by
  simp [doubled, Prog.Recorded, RecordedFrom, Expr.Known, Expr.leaves, Expr.type, Ty.len]

/-- Without `NoDouble` the generated contract computes something else. -/
theorem C43_false : ∃ p q : Prog, p.Recorded ∧ memoryOptimize id p = some q ∧ ∃ c, p.run c = some [.s 12] ∧ q.run c = some [.s 6] :=
  ⟨doubled, _, doubled_recorded, doubled_optimized, ⟨⟨fun _ => List.replicate 32 0, fun _ => rfl⟩, [2, 3], []⟩, rfl, rfl⟩

/-! Example: both products of the sample are fused. -/

example : NoDouble sample.stmts := by
  intro k x l r t y a b t' h1 h2
  rcases k with _ | _ | _ | _ | _ | _ | k
  all_goals simp only [sample, List.getElem?_cons_zero, List.getElem?_cons_succ, Option.some.injEq, Stmt.assign.injEq, reduceCtorEq, and_false,
    List.getElem?_nil, Nat.zero_add] at h1 h2
  · obtain ⟨rfl, -⟩ := h1
    obtain ⟨-, h2⟩ := h2
    injection h2 with h3 h4
    subst h3 h4
    simp [Expr.leaves]
  · obtain ⟨rfl, -⟩ := h1
    obtain ⟨-, h2⟩ := h2
    injection h2 with h3 h4
    subst h3 h4
    simp [Expr.leaves]

example : memoryOptimize id sample = some
    ⟨[.assign (.temp .scalar) (.mulAdd (.transcript 1 .scalar) (.transcript 0 .scalar) (.inst 0 .scalar) .scalar),
      .updateHash (.temp .scalar) 0,
      .assign (.temp .scalar) (.hash 3),
      .assign (.memory 0 .point) (.mulAdd (.transcript 2 .point) (.temp .scalar) (.transcript 2 .point) .point)],
     [.memory 0 .point, .memory 0 .point], 2, 10⟩ := by decide +kernel

end Verif.Sol
