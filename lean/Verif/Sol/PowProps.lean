import Verif.Sol.MergeProps

/-!
# Powers (C46)
-/

namespace Verif.Sol

/-! ### Power runs -/

/-- `t = a * a`. -/
def sqStmt (a : Expr) : Stmt := .assign (.temp .scalar) (.mul a a .scalar)

/-- A product that continues a power of `a`: the temporary times itself or times `a`. -/
def ContMul (a x y : Expr) : Prop :=
  (x = .temp .scalar ∧ y = .temp .scalar) ∨ (a ≠ .temp .scalar ∧ ((x = .temp .scalar ∧ y = a) ∨ (x = a ∧ y = .temp .scalar)))

/-- The statement `t = x * y` with such a product. -/
def Cont (a : Expr) (c : Stmt) : Prop := ∃ x y, ContMul a x y ∧ c = .assign (.temp .scalar) (.mul x y .scalar)

/-- `t = a * a`, followed by statements that continue the power. -/
def PowerRun (run : List Stmt) (a : Expr) : Prop := ∃ tail, run = sqStmt a :: tail ∧ ∀ c ∈ tail, Cont a c

/-- The exponent after a product. -/
def mulExp (e : ℕ) (x y : Expr) : ℕ := if x = .temp .scalar ∧ y = .temp .scalar then e * 2 else e + 1

def contExp (e : ℕ) : Stmt → ℕ
  | .assign _ (.mul x y _) => mulExp e x y
  | _ => e

/-- The power is of a temporary, or of an expression without any. -/
def PlainBase (a : Expr) : Prop := a = .temp .scalar ∨ ∀ cur, a.Temps cur

theorem mulmod_pow {w : Word} (i j : ℕ) : mulmod (wordOf (frOf w ^ i)) (wordOf (frOf w ^ j)) = wordOf (frOf w ^ (i + j)) := by
  rw [C50_mul, frOf_wordOf, frOf_wordOf, pow_add]

theorem mulmod_pow_right {w : Word} (i : ℕ) : mulmod (wordOf (frOf w ^ i)) w = wordOf (frOf w ^ (i + 1)) := by
  rw [C50_mul, frOf_wordOf, pow_succ]

theorem mulmod_pow_left {w : Word} (i : ℕ) : mulmod w (wordOf (frOf w ^ i)) = wordOf (frOf w ^ (i + 1)) := by
  rw [mulmod_comm, mulmod_pow_right]

/-- A product that continues the power, where `t0` holds a power. -/
theorem eval_cont {E : Env} {s : St} {a x y : Expr} {w : Word} {e : ℕ} (ha : a ≠ .temp .scalar → eval E s a = some (.s w)) (h : ContMul a x y)
    (ht : s.t0 = wordOf (frOf w ^ e)) : eval E s (.mul x y .scalar) = some (.s (wordOf (frOf w ^ mulExp e x y))) := by
  rcases h with ⟨rfl, rfl⟩ | ⟨hne, ⟨rfl, rfl⟩ | ⟨rfl, rfl⟩⟩
  · simp only [eval, readTemp, ht, Option.bind_eq_bind, Option.bind_some, opMul, mulmod_pow, mulExp, and_self, if_true, Nat.mul_two]
  · have := ha hne
    simp only [eval, readTemp, ht, this, Option.bind_eq_bind, Option.bind_some, opMul, mulmod_pow_right, mulExp, hne, and_false, if_false]
  · have := ha hne
    simp only [eval, readTemp, ht, this, Option.bind_eq_bind, Option.bind_some, opMul, mulmod_pow_left, mulExp, hne, false_and, if_false]

theorem eval_plain {E : Env} {s : St} {a : Expr} (h : ∀ cur, a.Temps cur) (t : Word) : eval E { s with t0 := t } a = eval E s a :=
  eval_teq (cur := none) (s := s) (s' := { s with t0 := t }) ⟨rfl, rfl, fun h => absurd rfl h, fun h => by cases h⟩ (h none)

theorem execAll_tail {E : Env} {s : St} {a : Expr} {w : Word} (ha : a ≠ .temp .scalar → (∀ cur, a.Temps cur) ∧ eval E s a = some (.s w)) :
    ∀ (tail : List Stmt) (e : ℕ), (∀ c ∈ tail, Cont a c) →
      execAll E { s with t0 := wordOf (frOf w ^ e) } tail = some { s with t0 := wordOf (frOf w ^ tail.foldl contExp e) }
  | [], _, _ => rfl
  | c :: cs, e, h => by
    obtain ⟨x, y, hxy, rfl⟩ := h c (List.mem_cons_self ..)
    have hev := eval_cont (E := E) (s := { s with t0 := wordOf (frOf w ^ e) }) (w := w) (e := e)
      (fun hne => (eval_plain (ha hne).1 _).trans (ha hne).2) hxy rfl
    have hrhs : evalRhs E { s with t0 := wordOf (frOf w ^ e) } (.mul x y .scalar) = some ({ s with t0 := wordOf (frOf w ^ e) }, .s (wordOf (frOf w ^ mulExp e x y))) := by
      rw [evalRhs_of_ne (by intro o ho; cases ho), hev]
      rfl
    simp only [execAll, exec, hrhs, Option.bind_eq_bind, Option.bind_some, put, List.foldl_cons, contExp]
    exact execAll_tail ha cs _ fun c hc => h c (List.mem_cons_of_mem _ hc)

/-- A power run computes the power. -/
theorem execAll_power {E : Env} {s : St} {a : Expr} (ha : PlainBase a) {tail : List Stmt} (h : ∀ c ∈ tail, Cont a c) :
    execAll E s (sqStmt a :: tail) = (eval E s a).bind fun v =>
      match v with
      | .s w => some { s with t0 := wordOf (frOf w ^ tail.foldl contExp 2) }
      | .p _ _ => none := by
  have hrhs : evalRhs E s (.mul a a .scalar) = (eval E s (.mul a a .scalar)).map fun v => (s, v) := evalRhs_of_ne (by intro o ho; cases ho)
  cases hv : eval E s a with
  | none => simp only [sqStmt, execAll, exec, hrhs, eval, hv]; rfl
  | some v =>
    cases v with
    | p x y => simp only [sqStmt, execAll, exec, hrhs, eval, hv]; rfl
    | s w =>
      have h2 : mulmod w w = wordOf (frOf w ^ 2) := by rw [C50_mul, pow_two]
      simp only [sqStmt, execAll, exec, hrhs, eval, hv, Option.bind_eq_bind, Option.bind_some, opMul, Option.map_some, put, h2]
      exact execAll_tail (fun hne => ⟨ha.resolve_left hne, hv⟩) tail 2 h

theorem two_le_foldl : ∀ (tail : List Stmt) (e : ℕ), 2 ≤ e → 2 ≤ tail.foldl contExp e
  | [], _, h => h
  | c :: cs, e, h => by
    refine two_le_foldl cs _ ?_
    unfold contExp mulExp
    split
    · split <;> omega
    · exact h

theorem foldl_le : ∀ (tail : List Stmt) (e : ℕ), 1 ≤ e → tail.foldl contExp e ≤ e * 2 ^ tail.length
  | [], e, _ => by simp
  | c :: cs, e, h => by
    have h1 : contExp e c ≤ e * 2 ∧ 1 ≤ contExp e c := by
      unfold contExp mulExp
      split
      · split <;> omega
      · omega
    calc List.foldl contExp e (c :: cs) = cs.foldl contExp (contExp e c) := rfl
      _ ≤ contExp e c * 2 ^ cs.length := foldl_le cs _ h1.2
      _ ≤ (e * 2) * 2 ^ cs.length := Nat.mul_le_mul_right _ h1.1
      _ = e * 2 ^ (c :: cs).length := by rw [List.length_cons, pow_succ]; ring

theorem lt_foldl {a : Expr} : ∀ (tail : List Stmt) (e : ℕ), tail ≠ [] → (∀ c ∈ tail, Cont a c) → 2 ≤ e → e < tail.foldl contExp e
  | [c], e, _, h, he => by
    obtain ⟨x, y, -, rfl⟩ := h c (List.mem_singleton.2 rfl)
    show e < mulExp e x y
    unfold mulExp
    split <;> omega
  | c :: d :: cs, e, _, h, he => by
    have h1 : e < contExp e c := by
      obtain ⟨x, y, -, rfl⟩ := h c (List.mem_cons_self ..)
      show e < mulExp e x y
      unfold mulExp
      split <;> omega
    exact h1.trans (lt_foldl (d :: cs) _ (by simp) (fun x hx => h x (List.mem_cons_of_mem _ hx)) (by omega))

theorem after_power {a : Expr} {tail : List Stmt} (h : ∀ c ∈ tail, Cont a c) (cur : Option Ty) : after cur (sqStmt a :: tail) = some .scalar := by
  rcases List.eq_nil_or_concat tail with rfl | ⟨init, l, rfl⟩
  · rfl
  · obtain ⟨x, y, -, rfl⟩ := h l (by simp)
    rw [List.concat_eq_append, ← List.cons_append, after_append]
    rfl

theorem after_of_not_temp {l r : Expr} (h : l.isTemp = false) : (Stmt.assign l r).after = none := by
  cases l <;> first | rfl | cases h

/-! ### The replacement -/

theorem lit_pow {e : ℕ} (he : e < 2 ^ 64) : ∃ x : Word, lit e = some x ∧ x.toNat = e := by
  have : e < 2 ^ 256 := he.trans (by norm_num)
  exact ⟨BitVec.ofNat 256 e, by rw [lit, if_pos this], by rw [BitVec.toNat_ofNat, Nat.mod_eq_of_lt this]⟩

theorem exec_pow {E : Env} {s : St} {a l : Expr} {e : ℕ} (he : e < 2 ^ 64) :
    exec E s (.assign l (.pow a e .scalar)) = (eval E s a).bind fun v =>
      match v with
      | .s w => put E s l (.s (wordOf (frOf w ^ e)))
      | .p _ _ => none := by
  obtain ⟨x, hx, hx'⟩ := lit_pow he
  have hrhs : evalRhs E s (.pow a e .scalar) = (eval E s (.pow a e .scalar)).map fun v => (s, v) := evalRhs_of_ne (by intro o ho; cases ho)
  simp only [exec, hrhs, eval]
  cases eval E s a with
  | none => rfl
  | some v =>
    cases v with
    | p x y => rfl
    | s w => simp only [Option.bind_eq_bind, Option.bind_some, opPow, hx, Option.map_some, C50_pow, hx']

theorem power_repl {a : Expr} (ha : PlainBase a) {tail : List Stmt} (h : ∀ c ∈ tail, Cont a c) (he : tail.foldl contExp 2 < 2 ^ 64) :
    Repl (sqStmt a :: tail) [.assign (.temp .scalar) (.pow a (tail.foldl contExp 2) .scalar)] := by
  intro cur hc
  have hcur : a.Temps cur := hc.1.1
  rw [after_power h]
  refine ⟨⟨hcur, trivial⟩, rfl, fun E s s' hs => ?_⟩
  rw [execAll_power ha h]
  simp only [execAll, exec_pow he, eval_teq hs hcur]
  cases eval E s a with
  | none => trivial
  | some v =>
    cases v with
    | p x y => trivial
    | s w => exact ⟨hs.m, hs.abs, fun _ => rfl, fun hc => by cases hc⟩

theorem power_repl_assign {a l x y : Expr} (ha : PlainBase a) {tail : List Stmt} (h : ∀ c ∈ tail, Cont a c) (hl : l.isTemp = false) (hxy : ContMul a x y)
    (he : mulExp (tail.foldl contExp 2) x y < 2 ^ 64) :
    Repl (sqStmt a :: tail ++ [.assign l (.mul x y .scalar)]) [.assign l (.pow a (mulExp (tail.foldl contExp 2) x y) .scalar)] := by
  intro cur hc
  have hcur : a.Temps cur := hc.1.1
  have haft : after cur (sqStmt a :: tail ++ [.assign l (.mul x y .scalar)]) = none := by
    rw [after_append]
    exact after_of_not_temp hl
  rw [haft]
  refine ⟨⟨hcur, trivial⟩, after_of_not_temp hl, fun E s s' hs => ?_⟩
  rw [execAll_append, execAll_power ha h]
  simp only [execAll, exec_pow he, eval_teq hs hcur]
  cases hv : eval E s a with
  | none => trivial
  | some v =>
    cases v with
    | p x y => trivial
    | s w =>
      have hev := eval_cont (E := E) (s := { s with t0 := wordOf (frOf w ^ tail.foldl contExp 2) }) (w := w) (e := tail.foldl contExp 2)
        (fun hne => (eval_plain (ha.resolve_left hne) _).trans hv) hxy rfl
      have hrhs : evalRhs E { s with t0 := wordOf (frOf w ^ tail.foldl contExp 2) } (.mul x y .scalar) =
          some ({ s with t0 := wordOf (frOf w ^ tail.foldl contExp 2) }, .s (wordOf (frOf w ^ mulExp (tail.foldl contExp 2) x y))) := by
        rw [evalRhs_of_ne (by intro o ho; cases ho), hev]
        rfl
      simp only [Option.bind_some, exec, hrhs, Option.bind_eq_bind]
      have := put_teq (E := E) (cur := none) (s := { s with t0 := wordOf (frOf w ^ tail.foldl contExp 2) }) (s' := s')
        ⟨hs.m, hs.abs, fun h => absurd rfl h, fun h => by cases h⟩ l (.s (wordOf (frOf w ^ mulExp (tail.foldl contExp 2) x y))) (.hash 0)
      rw [after_of_not_temp hl] at this
      revert this
      rcases put E { s with t0 := wordOf (frOf w ^ tail.foldl contExp 2) } l (.s (wordOf (frOf w ^ mulExp (tail.foldl contExp 2) x y))) with _ | b <;>
        rcases put E s' l (.s (wordOf (frOf w ^ mulExp (tail.foldl contExp 2) x y))) with _ | b'
      all_goals exact id

/-! ### The pass -/

/-- No power of two or more products that is left in the temporary is followed by a scalar product that does not continue it. The
condition on `pre` says that the power does not begin earlier. -/
def NoInterruptedPower (stmts : List Stmt) : Prop :=
  ∀ pre run a l x y rest, stmts = pre ++ run ++ .assign l (.mul x y .scalar) :: rest → PowerRun run a → 2 ≤ run.length →
    (∀ pre' run' a', pre = pre' ++ run' → PowerRun run' a' → ¬ Cont a' (sqStmt a)) → ContMul a x y

/-- Powers are of temporaries or of expressions without temporaries. -/
def PlainBases (stmts : List Stmt) : Prop := ∀ a, sqStmt a ∈ stmts → PlainBase a

/-- Powers are made by fewer than 63 products. -/
def ShortPowers (stmts : List Stmt) : Prop := ∀ pre run a rest, stmts = pre ++ run ++ rest → PowerRun run a → run.length < 63

/-- Products of the temporary or into the temporary. -/
def Stmt.IsTempMul (c : Stmt) : Prop := ∃ l x y, c = .assign l (.mul x y .scalar) ∧ (l = .temp .scalar ∨ x = .temp .scalar ∨ y = .temp .scalar)

/-- Powers. -/
def Stmt.IsPow (d : Stmt) : Prop := (∃ l a e, d = .assign l (.pow a e .scalar)) ∧ d.Typed

theorem Cont.isTempMul {a : Expr} {c : Stmt} (h : Cont a c) : c.IsTempMul := by
  obtain ⟨x, y, -, rfl⟩ := h
  exact ⟨_, x, y, rfl, .inl rfl⟩

theorem ContMul.isTemp {a x y : Expr} (h : ContMul a x y) : x = .temp .scalar ∨ y = .temp .scalar := by
  rcases h with ⟨h, -⟩ | ⟨-, ⟨h, -⟩ | ⟨-, h⟩⟩
  · exact .inl h
  · exact .inl h
  · exact .inr h

structure PowInv (prog pre : List Stmt) (r : PowRun) (run : List Stmt) : Prop where
  stmts : r.stmts = [sqStmt r.target]
  isRun : ∃ tail, (∀ c ∈ tail, Cont r.target c) ∧
    match r.assignee with
    | none => run = sqStmt r.target :: tail ∧ r.exp = tail.foldl contExp 2
    | some l => ∃ x y, l.isTemp = false ∧ ContMul r.target x y ∧ run = sqStmt r.target :: tail ++ [.assign l (.mul x y .scalar)] ∧
        r.exp = mulExp (tail.foldl contExp 2) x y
  small : r.exp < 2 ^ 64
  fresh : ∀ pre' run' a', pre = pre' ++ run' → PowerRun run' a' → ¬ Cont a' (sqStmt r.target)
  mem : sqStmt r.target ∈ prog

theorem PowInv.repl {checks : Bool} {prog pre : List Stmt} {r : PowRun} {run : List Stmt} (h : PowInv prog pre r run) (hb : PlainBases prog)
    (hty : ∀ c ∈ prog, c.Typed) (hrun : ∀ c ∈ run, c ∈ prog) : Rep Stmt.IsTempMul Stmt.IsPow run [(powMerger checks).toStatement r] := by
  have hmem := hty _ h.mem
  have htail : ∀ tail : List Stmt, (∀ c ∈ tail, Cont r.target c) → ∀ c ∈ sqStmt r.target :: tail, c.IsTempMul := by
    intro tail ht c hc
    rcases List.mem_cons.1 hc with rfl | hc
    · exact ⟨_, _, _, rfl, .inl rfl⟩
    · exact (ht c hc).isTempMul
  obtain ⟨tail, h1, h2⟩ := h.isRun
  have hs := h.small
  simp only [powMerger]
  split at h2
  · next he =>
    obtain ⟨rfl, h3⟩ := h2
    rw [he, h3, Option.getD_none]
    exact ⟨power_repl (hb _ h.mem) h1 (h3 ▸ hs), .single (by simp) (htail tail h1) ⟨⟨_, _, _, rfl⟩, rfl, ⟨rfl, hmem.2.1.1⟩, hmem.2.2.1⟩⟩
  · next l he =>
    obtain ⟨x, y, hl, hxy, rfl, h3⟩ := h2
    rw [he, h3, Option.getD_some]
    have hlast := hty _ (hrun (.assign l (.mul x y .scalar)) (by simp))
    refine ⟨power_repl_assign (hb _ h.mem) h1 hl hxy (h3 ▸ hs), .single (by simp) ?_ ⟨⟨_, _, _, rfl⟩, hlast.1, ⟨rfl, hmem.2.1.1⟩, hmem.2.2.1⟩⟩
    intro c hc
    rcases List.mem_append.1 hc with hc | hc
    · exact htail tail h1 c hc
    · rw [List.mem_singleton.1 hc]
      exact ⟨l, x, y, rfl, .inr hxy.isTemp⟩

theorem isTemp_eq {e : Expr} (h : e.isTemp = true) : e = .temp e.type := by
  cases e <;> first | rfl | cases h

theorem usize_eq {checks : Bool} {n : ℕ} {d : ℕ} (h : usize checks n = some d) (hs : checks = true ∨ n < 2 ^ 64) : d = n ∧ n < 2 ^ 64 := by
  by_cases hn : n < 2 ^ 64
  · rw [usize_of_nonneg hn] at h
    exact ⟨(Option.some.inj h).symm, hn⟩
  · rcases hs with rfl | hs
    · unfold usize at h
      rw [if_neg (by omega)] at h
      cases h
    · exact absurd hs hn

theorem typed_mul {l x y : Expr} (h : (Stmt.assign l (.mul x y .scalar)).Typed) : l.type = .scalar ∧ x.type = .scalar ∧ y.type = .scalar :=
  ⟨h.1, h.2.1.1, h.2.1.2⟩

/-- What the optimizer does with a product that continues the power. -/
theorem merge_cont {checks : Bool} {r : PowRun} (hn : r.assignee = none) (hty : r.target.type = .scalar) {l x y : Expr} (h : ContMul r.target x y) :
    (powMerger checks).merge r (.assign l (.mul x y .scalar)) =
      (usize checks (mulExp r.exp x y : ℕ)).bind fun e => some (.proceed { r with exp := e, assignee := if l.isTemp then none else some l }) := by
  have ht : r.target ≠ .temp .scalar → r.target.isTemp = false := by
    intro hne
    cases hr : r.target.isTemp with
    | false => rfl
    | true => exact absurd ((isTemp_eq hr).trans (by rw [hty])) hne
  have htt : (Expr.temp .scalar).isTemp = true := rfl
  simp only [powMerger, hn, Option.isSome_none, Bool.false_eq_true, if_false, extractMul]
  rcases h with ⟨rfl, rfl⟩ | ⟨hne, ⟨rfl, rfl⟩ | ⟨rfl, rfl⟩⟩
  · simp only [htt, and_self, if_true, mulExp]
    push_cast
    rfl
  · simp only [htt, ht hne, mulExp, hne, and_false, if_false, Bool.false_eq_true, and_self, true_or, if_true]
    push_cast
    rfl
  · simp only [htt, ht hne, mulExp, hne, false_and, if_false, Bool.false_eq_true, and_self, or_true, if_true]
    push_cast
    rfl

/-- What the optimizer does with any other statement. -/
theorem merge_other {checks : Bool} {r : PowRun} (hn : r.assignee = none) (hty : r.target.type = .scalar) {c : Stmt} (hc : c.Typed) :
    (∃ l x y, c = .assign l (.mul x y .scalar) ∧ ContMul r.target x y) ∨
    (∃ l x y, c = .assign l (.mul x y .scalar) ∧ ¬ ContMul r.target x y ∧ (powMerger checks).merge r c = some .abort) ∨
    ((∀ l x y, c ≠ .assign l (.mul x y .scalar)) ∧ (powMerger checks).merge r c = some (if 2 < r.exp then .complete else .abort)) := by
  cases hx : extractMul c with
  | none =>
    refine .inr (.inr ⟨?_, ?_⟩)
    · rintro l x y rfl
      cases hx
    · simp only [powMerger, hn, Option.isSome_none, Bool.false_eq_true, if_false, hx]
      split <;> rfl
  | some z =>
    obtain ⟨l, x, y⟩ := z
    have he : c = .assign l (.mul x y .scalar) := by
      unfold extractMul at hx
      split at hx
      · simp only [Option.some.injEq, Prod.mk.injEq] at hx
        obtain ⟨rfl, rfl, rfl⟩ := hx
        rfl
      · cases hx
    subst he
    by_cases hcm : ContMul r.target x y
    · exact .inl ⟨l, x, y, rfl, hcm⟩
    · refine .inr (.inl ⟨l, x, y, rfl, hcm, ?_⟩)
      obtain ⟨-, h2, h3⟩ := typed_mul hc
      simp only [powMerger, hn, Option.isSome_none, Bool.false_eq_true, if_false, hx]
      rw [if_neg, if_neg]
      · rintro (⟨g1, g2⟩ | ⟨g1, g2⟩)
        · have g3 : x = .temp .scalar := (isTemp_eq g1).trans (by rw [h2])
          by_cases hte : r.target = .temp .scalar
          · exact hcm (.inl ⟨g3, g2.trans hte⟩)
          · exact hcm (.inr ⟨hte, .inl ⟨g3, g2⟩⟩)
        · have g3 : y = .temp .scalar := (isTemp_eq g1).trans (by rw [h3])
          by_cases hte : r.target = .temp .scalar
          · exact hcm (.inl ⟨g2.trans hte, g3⟩)
          · exact hcm (.inr ⟨hte, .inr ⟨g2, g3⟩⟩)
      · rintro ⟨g1, g2⟩
        exact hcm (.inl ⟨(isTemp_eq g1).trans (by rw [h2]), (isTemp_eq g2).trans (by rw [h3])⟩)

theorem cont_sq {a b : Expr} (h : Cont a (sqStmt b)) : b = .temp .scalar := by
  obtain ⟨x, y, h1, h2⟩ := h
  simp only [sqStmt, Stmt.assign.injEq, Expr.mul.injEq, true_and, and_true] at h2
  obtain ⟨rfl, rfl⟩ := h2
  rcases h1 with ⟨h, -⟩ | ⟨-, ⟨h, -⟩ | ⟨-, h⟩⟩
  · exact h
  · exact h
  · exact h

theorem cont_temp {a : Expr} {c : Stmt} (h : Cont (.temp .scalar) c) : Cont a c := by
  obtain ⟨x, y, h1, h2⟩ := h
  rcases h1 with h1 | ⟨hne, -⟩
  · exact ⟨x, y, .inl h1, h2⟩
  · exact absurd rfl hne

theorem PowerRun.last {run : List Stmt} {a : Expr} (h : PowerRun run a) : ∃ init r, run = init ++ [.assign (.temp .scalar) r] := by
  obtain ⟨tail, rfl, h⟩ := h
  rcases List.eq_nil_or_concat tail with rfl | ⟨init, l, rfl⟩
  · exact ⟨[], _, rfl⟩
  · obtain ⟨x, y, -, rfl⟩ := h l (by simp)
    exact ⟨sqStmt a :: init, .mul x y .scalar, by simp⟩

theorem start_sq {checks : Bool} {c : Stmt} {r : PowRun} (h : (powMerger checks).start c = some r) (hty : c.Typed) :
    c = sqStmt r.target ∧ r = ⟨[c], r.target, none, 2⟩ := by
  simp only [powMerger] at h
  split at h
  · next l a b hx =>
    split at h
    · next hc =>
      obtain ⟨h1, rfl⟩ := hc
      unfold extractMul at hx
      split at hx
      · simp only [Option.some.injEq, Prod.mk.injEq] at hx
        obtain ⟨rfl, rfl, rfl⟩ := hx
        have := (isTemp_eq h1).trans (by rw [(typed_mul hty).1])
        subst this
        cases h
        exact ⟨rfl, rfl⟩
      · cases hx
    · cases h
  · cases h

/-- The optimizer is never idle in the middle of a power. -/
theorem idle_fresh {checks : Bool} {prog : List Stmt} (hty : ∀ c ∈ prog, c.Typed) {pre : List Stmt} {c : Stmt}
    (h : Idle (powMerger checks) (PowInv prog) pre c) : ∀ pre' run' a', pre = pre' ++ run' → PowerRun run' a' → ¬ Cont a' c := by
  induction h with
  | nil c =>
    rintro pre' run' a' he ⟨tail, rfl, -⟩
    simp at he
  | @skip pre x c hi hs ih =>
    rintro pre' run' a' he ⟨tail, rfl, ht⟩ -
    rcases List.eq_nil_or_concat tail with rfl | ⟨init, l, rfl⟩
    · have := List.append_inj_right' he rfl
      simp only [List.cons.injEq, and_true] at this
      subst this
      simp [powMerger, sqStmt, extractMul, Expr.isTemp] at hs
    · rw [List.concat_eq_append, ← List.cons_append, ← List.append_assoc] at he
      have h1 := List.append_inj_left' he rfl
      have h2 := List.append_inj_right' he rfl
      simp only [List.cons.injEq, and_true] at h2
      subst h2
      exact ih pre' _ a' h1 ⟨init, rfl, fun c hc => ht c (by simp [hc])⟩ (ht x (by simp))
  | @run pre r run c hi hm =>
    rintro pre' run' a' he hp hc
    have hmem := hi.mem
    have htt : r.target.type = .scalar := (typed_mul (hty _ hmem)).2.1
    obtain ⟨tail, h1, h2⟩ := hi.isRun
    -- a run that ends in a memory location is no power
    cases hass : r.assignee with
    | some l =>
      rw [hass] at h2
      obtain ⟨x, y, hl, -, rfl, -⟩ := h2
      obtain ⟨init, z, hz⟩ := hp.last
      rw [hz, ← List.append_assoc, ← List.append_assoc] at he
      have := List.append_inj_right' he rfl
      simp only [List.cons.injEq, Stmt.assign.injEq, and_true] at this
      rw [this.1] at hl
      cases hl
    | none =>
      rw [hass] at h2
      obtain ⟨rfl, -⟩ := h2
      -- a statement that continues the target is taken
      have hno : ¬ Cont r.target c := by
        rintro ⟨x, y, hxy, rfl⟩
        rw [merge_cont hass htt hxy] at hm
        rcases hm with hm | hm <;>
        · simp only [Option.bind_eq_some_iff] at hm
          obtain ⟨e, -, he⟩ := hm
          cases he
      obtain ⟨tail', rfl, ht'⟩ := hp
      rcases List.append_eq_append_iff.1 he with ⟨z, hz1, hz2⟩ | ⟨z, hz1, hz2⟩
      · -- the power begins later
        cases z with
        | nil =>
          simp only [List.nil_append, List.cons.injEq] at hz2
          obtain ⟨g1, -⟩ := hz2
          simp only [sqStmt, Stmt.assign.injEq, Expr.mul.injEq, true_and, and_true] at g1
          rw [← g1.1] at hc
          exact hno hc
        | cons w ws =>
          simp only [List.cons_append, List.cons.injEq] at hz2
          have hs : sqStmt a' ∈ tail := by rw [hz2.2]; simp
          rw [cont_sq (h1 _ hs)] at hc
          exact hno (cont_temp hc)
      · -- the power begins earlier
        cases z with
        | nil =>
          simp only [List.nil_append, List.cons.injEq] at hz2
          obtain ⟨g1, -⟩ := hz2
          simp only [sqStmt, Stmt.assign.injEq, Expr.mul.injEq, true_and, and_true] at g1
          rw [g1.1] at hc
          exact hno hc
        | cons w ws =>
          simp only [List.cons_append, List.cons.injEq] at hz2
          obtain ⟨g1, g2⟩ := hz2
          refine hi.fresh pre' (w :: ws) a' hz1 ⟨ws, by rw [← g1], fun c hc => ht' c (by rw [g2]; simp [hc])⟩ (ht' _ (by rw [g2]; simp))

theorem powMerger_sound {checks : Bool} {prog : List Stmt} (hty : ∀ c ∈ prog, c.Typed) (hb : PlainBases prog) (hno : NoInterruptedPower prog)
    (hshort : checks = true ∨ ShortPowers prog) : Sound (powMerger checks) prog (PowInv prog) Stmt.IsTempMul Stmt.IsPow := by
  refine ⟨?_, ?_, ?_, ?_, ?_, ?_⟩
  · intro pre c rest r hp hidle hs
    have hc : c ∈ prog := by rw [hp]; simp
    obtain ⟨h1, h2⟩ := start_sq hs (hty c hc)
    have hass : r.assignee = none := by rw [h2]
    have hexp : r.exp = 2 := by rw [h2]
    have hst : r.stmts = [c] := by rw [h2]
    refine ⟨by rw [hst, ← h1], ⟨[], by simp, ?_⟩, by rw [hexp]; norm_num, ?_, h1 ▸ hc⟩
    · rw [hass]
      exact ⟨by rw [← h1], hexp⟩
    · intro pre' run' a' he hp'
      rw [← h1]
      exact idle_fresh hty hidle pre' run' a' he hp'
  · intro pre r run c rest s' hp hi hm
    have hc : c ∈ prog := by rw [hp]; simp
    have htt : r.target.type = .scalar := (typed_mul (hty _ hi.mem)).2.1
    obtain ⟨tail, h1, h2⟩ := hi.isRun
    cases hass : r.assignee with
    | some l => simp [powMerger, hass] at hm
    | none =>
      rw [hass] at h2
      obtain ⟨rfl, h3⟩ := h2
      rcases merge_other (checks := checks) hass htt (hty c hc) with ⟨l, x, y, rfl, hxy⟩ | ⟨l, x, y, -, -, hm'⟩ | ⟨-, hm'⟩
      · rw [merge_cont hass htt hxy] at hm
        simp only [Option.bind_eq_some_iff] at hm
        obtain ⟨e, he, hm⟩ := hm
        injection hm with hm
        injection hm with hm
        have hle : checks = true ∨ mulExp r.exp x y < 2 ^ 64 := by
          rcases hshort with hshort | hshort
          · exact .inl hshort
          · right
            have hlen : tail.length + 1 < 63 := hshort pre (sqStmt r.target :: tail) r.target _ hp ⟨tail, rfl, h1⟩
            have hb1 := foldl_le tail 2 (by norm_num)
            have hb2 : 2 ^ tail.length ≤ 2 ^ 61 := Nat.pow_le_pow_right (by norm_num) (by omega)
            have hb3 : mulExp r.exp x y ≤ r.exp * 2 ∨ mulExp r.exp x y ≤ r.exp + 1 := by
              unfold mulExp
              split
              · exact .inl le_rfl
              · exact .inr le_rfl
            rw [h3] at hb3 ⊢
            omega
        obtain ⟨rfl, hlt⟩ := usize_eq he hle
        subst hm
        refine ⟨hi.stmts, ?_, hlt, hi.fresh, hi.mem⟩
        dsimp only
        cases hl : l.isTemp with
        | true =>
          have hl' := (isTemp_eq hl).trans (by rw [(typed_mul (hty _ hc)).1])
          subst hl'
          refine ⟨tail ++ [.assign (.temp .scalar) (.mul x y .scalar)], ?_, ?_⟩
          · intro d hd
            rcases List.mem_append.1 hd with hd | hd
            · exact h1 d hd
            · rw [List.mem_singleton.1 hd]
              exact ⟨x, y, hxy, rfl⟩
          · simp only [if_true]
            refine ⟨by simp, ?_⟩
            rw [List.foldl_append, ← h3]
            rfl
        | false =>
          refine ⟨tail, h1, ?_⟩
          simp only [Bool.false_eq_true, if_false]
          exact ⟨x, y, hl, hxy, rfl, by rw [h3]⟩
      · rw [hm'] at hm
        cases hm
      · rw [hm'] at hm
        split at hm <;> cases hm
  · intro pre r run c rest u hp hi hm hu
    have hc : c ∈ prog := by rw [hp]; simp
    have htt : r.target.type = .scalar := (typed_mul (hty _ hi.mem)).2.1
    obtain ⟨tail, h1, h2⟩ := hi.isRun
    have hu' : u = [sqStmt r.target] := by
      have : some r.stmts = some u := hu
      rw [← Option.some.inj this, hi.stmts]
    cases hass : r.assignee with
    | some l => simp [powMerger, hass] at hm
    | none =>
      rw [hass] at h2
      obtain ⟨rfl, h3⟩ := h2
      have htail : tail = [] := by
        by_contra hne
        rcases merge_other (checks := checks) hass htt (hty c hc) with ⟨l, x, y, rfl, hxy⟩ | ⟨l, x, y, rfl, hxy, -⟩ | ⟨-, hm'⟩
        · rw [merge_cont hass htt hxy] at hm
          simp only [Option.bind_eq_some_iff] at hm
          obtain ⟨e, -, hm⟩ := hm
          cases hm
        · refine hxy (hno pre _ r.target l x y rest hp ⟨tail, rfl, h1⟩ ?_ hi.fresh)
          cases tail with
          | nil => exact absurd rfl hne
          | cons _ _ => simp
        · have := lt_foldl tail 2 hne h1 le_rfl
          rw [← h3] at this
          rw [hm', if_pos this] at hm
          cases hm
      rw [htail, hu']
      exact Rep.refl _
  · intro pre r run c rest hp hi _
    exact hi.repl hb hty fun c hc => by rw [hp]; simp [hc]
  · intro pre r run hp hi _
    exact hi.repl hb hty fun c hc => by rw [hp]; simp [hc]
  · intro pre r run u hp hi hcc hu
    obtain ⟨tail, h1, h2⟩ := hi.isRun
    have hu' : u = [sqStmt r.target] := by
      have : some r.stmts = some u := hu
      rw [← Option.some.inj this, hi.stmts]
    have hle : ¬ 2 < r.exp := by simpa [powMerger] using hcc
    cases hass : r.assignee with
    | some l =>
      rw [hass] at h2
      obtain ⟨x, y, -, -, -, h3⟩ := h2
      have := two_le_foldl tail 2 le_rfl
      have : 2 < mulExp (tail.foldl contExp 2) x y := by
        unfold mulExp
        split <;> omega
      omega
    | none =>
      rw [hass] at h2
      obtain ⟨rfl, h3⟩ := h2
      have htail : tail = [] := by
        by_contra hne
        have := lt_foldl tail 2 hne h1 le_rfl
        omega
      rw [htail, hu']
      exact Rep.refl _

/-- Missing for the full claim: `NoInterruptedPower` (see `C46_false`). -/
theorem C46_pow_partial {checks : Bool} {p : Prog} {q : List Stmt} (ht : Temps none p.stmts) (hf : ∀ e ∈ p.finals, e.Temps none)
    (hty : ∀ c ∈ p.stmts, c.Typed) (hb : PlainBases p.stmts) (hno : NoInterruptedPower p.stmts) (hshort : checks = true ∨ ShortPowers p.stmts)
    (h : drive (powMerger checks) none p.stmts = some q) (c : Call) : { p with stmts := q }.run c = p.run c :=
  ((powMerger_sound hty hb hno hshort).rep h).repl.run ht hf c

/-- Without overflow checks the pass returns. -/
theorem C46_total (stmts : List Stmt) : (drive (powMerger false) none stmts).isSome := by
  refine drive_total (fun r c => ?_) (fun _ _ _ => rfl) (fun _ _ => rfl) _ _
  obtain ⟨d, hd⟩ := Option.isSome_iff_exists.1 (usize_release (r.exp * 2))
  obtain ⟨e, he⟩ := Option.isSome_iff_exists.1 (usize_release (r.exp + 1))
  simp only [powMerger, hd, he, Option.bind_eq_bind, Option.bind_some]
  split
  · rfl
  · split
    · split
      · rfl
      · split <;> rfl
    · split <;> rfl

/-! ### A power that is interrupted -/

/-- `t = a * a; t = t * t; m[0] = t * c`. -/
def interrupted : Prog :=
  ⟨[sqStmt (.transcript 0 .scalar), sqStmt (.temp .scalar),
    .assign (.memory 0 .scalar) (.mul (.temp .scalar) (.transcript 1 .scalar) .scalar)], [.memory 0 .scalar], 1, 0⟩

/-- The second square is lost: only the first statement of the run is kept when it is given up. -/
theorem C46_false : ∃ p : Prog, ∃ q, Temps none p.stmts ∧ (∀ e ∈ p.finals, e.Temps none) ∧ (∀ c ∈ p.stmts, c.Typed) ∧ PlainBases p.stmts ∧
    drive (powMerger true) none p.stmts = some q ∧ ∃ c, p.run c = some [.s 48] ∧ { p with stmts := q }.run c = some [.s 12] := by
  refine ⟨interrupted, [sqStmt (.transcript 0 .scalar), .assign (.memory 0 .scalar) (.mul (.temp .scalar) (.transcript 1 .scalar) .scalar)],
    ?_, ?_, ?_, ?_, by decide +kernel, ⟨thirdWord, [2, 3], []⟩, rfl, rfl⟩
  · simp [interrupted, sqStmt, Temps, Stmt.Temps, Expr.Temps, Stmt.after]
  · simp [interrupted, Expr.Temps]
  · simp [interrupted, sqStmt, Stmt.Typed, Expr.Typed, Expr.type]
  · intro a ha
    simp only [interrupted, sqStmt, List.mem_cons, Stmt.assign.injEq, Expr.mul.injEq, true_and, and_true, List.not_mem_nil, or_false, reduceCtorEq, false_and] at ha
    rcases ha with ⟨rfl, -⟩ | ⟨rfl, -⟩
    · exact .inr fun _ => trivial
    · exact .inl rfl

/-! Example: a fifth power. -/

def fifth : List Stmt :=
  [sqStmt (.transcript 0 .scalar), sqStmt (.temp .scalar), .assign (.memory 0 .scalar) (.mul (.temp .scalar) (.transcript 0 .scalar) .scalar),
   .updateHash (.transcript 2 .scalar) 0]

example : drive (powMerger true) none fifth = some
    [.assign (.memory 0 .scalar) (.pow (.transcript 0 .scalar) 5 .scalar), .updateHash (.transcript 2 .scalar) 0] := by
  decide +kernel

example : Temps none fifth ∧ (∀ c ∈ fifth, c.Typed) ∧ PlainBases fifth ∧ NoInterruptedPower fifth := by
  refine ⟨?_, ?_, ?_, ?_⟩
  · simp [fifth, sqStmt, Temps, Stmt.Temps, Expr.Temps, Stmt.after]
  · simp [fifth, sqStmt, Stmt.Typed, Expr.Typed, Expr.type]
  · intro a ha
    simp only [fifth, sqStmt, List.mem_cons, Stmt.assign.injEq, Expr.mul.injEq, true_and, and_true, List.not_mem_nil, or_false, reduceCtorEq, false_and] at ha
    rcases ha with ⟨rfl, -⟩ | ⟨rfl, -⟩
    · exact .inr fun _ => trivial
    · exact .inl rfl
  · rintro pre run a l x y rest h ⟨tail, rfl, ht⟩ h2 hf
    rcases pre with _ | ⟨p, _ | ⟨p', pre⟩⟩
    · rcases tail with _ | ⟨b, _ | ⟨b', tail⟩⟩
      · simp at h2
      · simp [fifth, sqStmt] at h
        obtain ⟨⟨rfl, -⟩, rfl, ⟨rfl, rfl, rfl⟩, -⟩ := h
        exact .inr ⟨by simp, .inl ⟨rfl, rfl⟩⟩
      · simp [fifth, sqStmt] at h
        have := congrArg List.length h.2.2.2
        rcases tail with _ | ⟨d, tail⟩ <;> simp at h
    · rcases tail with _ | ⟨b, tail⟩
      · simp at h2
      · simp [fifth, sqStmt] at h
        obtain ⟨rfl, ⟨rfl, -⟩, rfl, h⟩ := h
        rcases tail with _ | ⟨d, tail⟩ <;> simp at h
    · simp [fifth, sqStmt] at h
      rcases pre with _ | ⟨d, pre⟩ <;> simp at h
      rcases pre with _ | ⟨d, pre⟩ <;> simp at h

end Verif.Sol
