import Verif.Sol.RenderProps
import Verif.Sol.AggregateProps

/-!
# What the rendered text does
-/

namespace Verif.Sol
open Verif.Circuit Verif.Ecc

/-! ### Values -/

def Val.args : Val → List Arg
  | .s w => [.w w]
  | .p x y => [.w x, .w y]

/-- The arrays have no more elements than there are indices. -/
structure Env.Roomy (E : Env) : Prop where
  size : E.size ≤ 2 ^ 256
  proof : E.proof.length ≤ 2 ^ 256
  inst : E.inst.length ≤ 2 ^ 256

theorem readArr_ty {a : List Word} {o : ℕ} {t : Ty} {v : Val} (h : readArr a o t = some v) : v.ty = t := by
  cases t
  · simp only [readArr, Option.map_eq_some_iff] at h
    obtain ⟨x, -, rfl⟩ := h
    rfl
  · simp only [readArr, Option.bind_eq_bind, Option.bind_eq_some_iff] at h
    obtain ⟨x, -, y, -, h⟩ := h
    cases h
    rfl

theorem readMem_ty {E : Env} {s : St} {o : ℕ} {t : Ty} {v : Val} (h : E.readMem s o t = some v) : v.ty = t := by
  cases t
  · simp only [Env.readMem, Option.map_eq_some_iff] at h
    obtain ⟨x, -, rfl⟩ := h
    rfl
  · simp only [Env.readMem, Option.bind_eq_bind, Option.bind_eq_some_iff] at h
    obtain ⟨x, -, y, -, h⟩ := h
    cases h
    rfl

/-- An expression gives a value of its type. -/
theorem eval_ty {E : Env} {s : St} : ∀ {e : Expr} {v : Val}, eval E s e = some v → v.ty = e.type := by
  intro e v h
  cases e with
  | memory o t => exact readMem_ty h
  | transcript o t => exact readArr_ty h
  | inst o t => exact readArr_ty h
  | tmpBuf o t => cases h
  | point x y =>
    simp only [eval, Option.bind_eq_bind, Option.bind_eq_some_iff] at h
    obtain ⟨x, -, y, -, h⟩ := h
    cases h
    rfl
  | scalar n =>
    simp only [eval, Option.map_eq_some_iff] at h
    obtain ⟨x, -, rfl⟩ := h
    rfl
  | add l r t =>
    simp only [eval, Option.bind_eq_bind, Option.bind_eq_some_iff] at h
    obtain ⟨x, -, y, -, h⟩ := h
    cases t <;> cases x <;> cases y <;> simp only [opAdd, Option.map_eq_some_iff, Option.some.injEq, reduceCtorEq] at h
    · subst h; rfl
    · obtain ⟨r, -, rfl⟩ := h; rfl
  | sub l r t =>
    simp only [eval, Option.bind_eq_bind, Option.bind_eq_some_iff] at h
    obtain ⟨x, -, y, -, h⟩ := h
    cases t <;> cases x <;> cases y <;> simp only [opSub, Option.map_eq_some_iff, Option.some.injEq, reduceCtorEq] at h
    all_goals obtain ⟨r, -, rfl⟩ := h; rfl
  | mul l r t =>
    simp only [eval, Option.bind_eq_bind, Option.bind_eq_some_iff] at h
    obtain ⟨x, -, y, -, h⟩ := h
    cases t <;> cases x <;> cases y <;> simp only [opMul, Option.map_eq_some_iff, Option.some.injEq, reduceCtorEq] at h
    · subst h; rfl
    · obtain ⟨r, -, rfl⟩ := h; rfl
  | div l r t =>
    simp only [eval, Option.bind_eq_bind, Option.bind_eq_some_iff] at h
    obtain ⟨x, -, y, -, h⟩ := h
    cases t <;> cases x <;> cases y <;> simp only [opDiv, Option.map_eq_some_iff, Option.some.injEq, reduceCtorEq] at h
    all_goals obtain ⟨r, -, rfl⟩ := h; rfl
  | mulAdd l r c t =>
    simp only [eval, Option.bind_eq_bind, Option.bind_eq_some_iff] at h
    obtain ⟨x, -, y, -, z, -, h⟩ := h
    cases t <;> cases x <;> cases y <;> cases z <;> simp only [opMulAdd, Option.map_eq_some_iff, Option.some.injEq, reduceCtorEq] at h
    · subst h; rfl
    · obtain ⟨r, -, rfl⟩ := h; rfl
  | mulAddPM target opcode t =>
    simp only [eval, Option.bind_eq_bind, Option.bind_eq_some_iff] at h
    obtain ⟨x, -, h⟩ := h
    cases t <;> cases x <;> simp only [opPM, Option.bind_eq_bind, Option.bind_eq_some_iff, reduceCtorEq] at h
    all_goals
      obtain ⟨_, -, _, -, h⟩ := h
      cases h
      rfl
  | mulAddMT m opcode =>
    simp only [eval, Option.bind_eq_bind, Option.bind_eq_some_iff] at h
    obtain ⟨_, -, _, -, _, -, h⟩ := h
    cases h
    rfl
  | pow b e t =>
    simp only [eval, Option.bind_eq_bind, Option.bind_eq_some_iff] at h
    obtain ⟨x, -, h⟩ := h
    cases t <;> cases x <;> simp only [opPow, Option.map_eq_some_iff, reduceCtorEq] at h
    obtain ⟨r, -, rfl⟩ := h; rfl
  | hash o => cases h
  | temp t =>
    cases h
    cases t <;> rfl

/-! ### Arguments -/

theorem runArgs_append (E : Env) : ∀ (as bs : List SExp) (s : St),
    runArgs E s (as ++ bs) = (runArgs E s as).bind fun r => (runArgs E r.1 bs).map fun q => (q.1, r.2 ++ q.2)
  | [], bs, s => by
    rw [List.nil_append, runArgs, Option.bind_some]
    cases runArgs E s bs <;> rfl
  | e :: as, bs, s => by
    rw [List.cons_append, runArgs, runArgs]
    cases e.run E s with
    | none => rfl
    | some r =>
      show (oneArg r.2 >>= _) = Option.bind (oneArg r.2 >>= _) _
      cases oneArg r.2 with
      | none => rfl
      | some a =>
        show (runArgs E r.1 (as ++ bs) >>= _) = Option.bind (runArgs E r.1 as >>= _) _
        rw [runArgs_append E as bs]
        cases runArgs E r.1 as with
        | none => rfl
        | some q =>
          show Option.bind (Option.map _ (runArgs E q.1 bs)) _ = Option.map _ (runArgs E q.1 bs)
          cases runArgs E q.1 bs <;> rfl

theorem runArgs_one {E : Env} {s : St} {e : SExp} {o : Option Arg} (h : e.run E s = o.map fun a => (s, [a])) :
    runArgs E s [e] = o.map fun a => (s, [a]) := by
  rw [runArgs, h]
  cases o <;> rfl

theorem lit_none {n : ℕ} (h : 2 ^ 256 ≤ n) : lit n = none := by
  rw [lit, if_neg (by omega)]

theorem lit_some {n : ℕ} (h : n < 2 ^ 256) : lit n = some (BitVec.ofNat 256 n) := by rw [lit, if_pos h]

theorem ofNat_toNat {n : ℕ} (h : n < 2 ^ 256) : (BitVec.ofNat 256 n).toNat = n := by
  rw [BitVec.toNat_ofNat]
  exact Nat.mod_eq_of_lt h

/-- Indexing with a number. -/
theorem run_index {E : Env} (s : St) {a : String} {n : ℕ} (h : 2 ^ 256 ≤ n → element E s a n = none) :
    (SExp.index a (.num n)).run E s = ((element E s a n).map .w).map fun v => (s, [v]) := by
  rw [SExp.run, SExp.run]
  by_cases hn : n < 2 ^ 256
  · rw [lit_some hn]
    show (element E s a (BitVec.ofNat 256 n).toNat >>= _) = _
    rw [ofNat_toNat hn]
    cases element E s a n <;> rfl
  · rw [lit_none (by omega), h (by omega)]
    rfl

theorem element_m {E : Env} (hE : E.Roomy) (s : St) {n : ℕ} (h : 2 ^ 256 ≤ n) : element E s "m" n = none := by
  have := hE.size
  simp [element, Env.load]
  omega

theorem element_proof {E : Env} (hE : E.Roomy) (s : St) {n : ℕ} (h : 2 ^ 256 ≤ n) : element E s "proof" n = none := by
  have := hE.proof
  simp [element]
  omega

theorem element_inst {E : Env} (hE : E.Roomy) (s : St) {n : ℕ} (h : 2 ^ 256 ≤ n) : element E s "instances" n = none := by
  have := hE.inst
  simp [element]
  omega

/-! ### Operands -/

/-- The text `t` is read as the expressions `as`; if it is one, nothing weaker than a call. -/
def Reads (t : String) (as : List SExp) : Prop := Says t as ∧ ∀ x, as = [x] → ∃ ts, Lexes t ts ∧ IsAtom ts x

theorem reads_atom {t : String} {ts : List Tok} {a : SExp} (h : Lexes t ts) (h' : IsAtom ts a) : Reads t [a] :=
  ⟨says_expr h h'.term.expr, fun x hx => ⟨ts, h, by cases hx; exact h'⟩⟩

theorem reads_pair {t t' : String} {a b : SExp} (h : Says t [a]) (h' : Says t' [b]) : Reads (t ++ ", " ++ t') [a, b] :=
  ⟨h.append h', by simp⟩

theorem reads_num (n : ℕ) : Reads (toString n) [.num n] := reads_atom (lexes_num n) (atom_num n)

theorem reads_var {x : String} (h : Name x) : Reads x [.var x] := reads_atom (lexes_name h) (atom_var x)

theorem reads_index {f : String} (hf : Name f) (n : ℕ) : Reads (f ++ "[" ++ toString n ++ "]") [.index f (.num n)] :=
  reads_atom (index_lexes hf (lexes_num n)) (atom_index f (atom_num n).term.expr)

theorem reads_call {t f : String} (hf : Name f) {as : List SExp} (h : Says t as) : Reads (f ++ "(" ++ t ++ ")") [.call f as] := by
  obtain ⟨ts, h1, h2⟩ := h.args
  exact reads_atom (call_lexes hf h1) (atom_call f h2)

/-- The text of the operand gives its value. -/
def Expr.Renders (e : Expr) : Prop :=
  ∃ t as, e.typed = some t ∧ (Reads t as ∧ (e.type = .scalar → ∃ x, as = [x])) ∧ ∀ E s, Env.Roomy E →
    runArgs E s as = (eval E s e).map (fun v => (s, v.args)) ∧ runTuple E s as = runArgs E s as

/-- An array with one index or two. -/
theorem renders_array {e : Expr} {f : String} (hf : Name f) {o : ℕ} {t : Ty} (hty : e.type = t)
    (ht : e.typed = some (match t with
      | .scalar => f ++ "[" ++ toString o ++ "]"
      | .point => f ++ "[" ++ toString o ++ "], " ++ f ++ "[" ++ toString (o + 1) ++ "]"))
    (he : ∀ E s, Env.Roomy E → (∀ n, 2 ^ 256 ≤ n → element E s f n = none) ∧ eval E s e = match t with
      | .scalar => (element E s f o).map .s
      | .point => (element E s f o).bind fun x => (element E s f (o + 1)).map fun y => .p x y) : e.Renders := by
  cases t with
  | scalar =>
    refine ⟨_, _, ht, ⟨reads_index hf o, fun _ => ⟨_, rfl⟩⟩, fun E s hE => ?_⟩
    obtain ⟨h1, h2⟩ := he E s hE
    have hr := run_index s (h1 o)
    rw [runArgs_one hr, runTuple, hr, h2]
    cases element E s f o <;> exact ⟨rfl, rfl⟩
  | point =>
    have e' : f ++ "[" ++ toString o ++ "], " ++ f ++ "[" ++ toString (o + 1) ++ "]" = (f ++ "[" ++ toString o ++ "]") ++ ", " ++ (f ++ "[" ++ toString (o + 1) ++ "]") :=
      String.toList_inj.1 (by simp)
    refine ⟨_, _, ht, ⟨by simpa only [e'] using reads_pair (reads_index hf o).1 (reads_index hf (o + 1)).1, fun h => by rw [hty] at h; cases h⟩, fun E s hE => ⟨?_, rfl⟩⟩
    obtain ⟨h1, h2⟩ := he E s hE
    have := runArgs_append E [.index f (.num o)] [.index f (.num (o + 1))] s
    rw [List.cons_append, List.nil_append] at this
    rw [this, runArgs_one (run_index s (h1 o)), h2]
    cases element E s f o with
    | none => rfl
    | some x =>
      show (runArgs E s _).map _ = _
      rw [runArgs_one (run_index s (h1 (o + 1)))]
      cases element E s f (o + 1) <;> rfl

theorem bind_pair {a b : Option Word} : (a >>= fun x => b >>= fun y => pure (Val.p x y)) = a.bind fun x => b.map fun y => Val.p x y := by
  cases a <;> cases b <;> rfl

theorem renders_memory (o : ℕ) (t : Ty) : (Expr.memory o t).Renders :=
  renders_array (f := "m") (by decide) (o := o) (t := t) rfl (by cases t <;> exact congrArg some (String.toList_inj.1 (by simp)))
    fun E s hE => ⟨fun n => element_m hE s, by
      cases t with
      | scalar => rfl
      | point => exact bind_pair⟩

theorem renders_transcript (o : ℕ) (t : Ty) : (Expr.transcript o t).Renders :=
  renders_array (f := "proof") (by decide) (o := o) (t := t) rfl (by cases t <;> exact congrArg some (String.toList_inj.1 (by simp)))
    fun E s hE => ⟨fun n => element_proof hE s, by
      cases t with
      | scalar => rfl
      | point => exact bind_pair⟩

theorem renders_inst (o : ℕ) (t : Ty) : (Expr.inst o t).Renders :=
  renders_array (f := "instances") (by decide) (o := o) (t := t) rfl (by cases t <;> exact congrArg some (String.toList_inj.1 (by simp)))
    fun E s hE => ⟨fun n => element_inst hE s, by
      cases t with
      | scalar => rfl
      | point => exact bind_pair⟩

theorem run_num (E : Env) (s : St) (n : ℕ) : (SExp.num n).run E s = ((lit n).map .w).map fun a => (s, [a]) := by
  rw [SExp.run]
  cases lit n <;> rfl

theorem renders_scalar (n : ℕ) : (Expr.scalar n).Renders := by
  refine ⟨_, _, rfl, ⟨reads_num n, fun _ => ⟨_, rfl⟩⟩, fun E s _ => ?_⟩
  rw [runArgs_one (run_num E s n), runTuple, run_num, eval]
  cases lit n <;> exact ⟨rfl, rfl⟩

theorem renders_point (x y : ℕ) : (Expr.point x y).Renders := by
  refine ⟨_, _, rfl, ⟨reads_pair (reads_num x).1 (reads_num y).1, fun h => by cases h⟩, fun E s _ => ⟨?_, rfl⟩⟩
  have := runArgs_append E [.num x] [.num y] s
  rw [List.cons_append, List.nil_append] at this
  rw [this, runArgs_one (run_num E s x), eval]
  cases lit x with
  | none => rfl
  | some a =>
    show (runArgs E s _).map _ = _
    rw [runArgs_one (run_num E s y)]
    cases lit y <;> rfl

theorem renders_temp (t : Ty) : (Expr.temp t).Renders := by
  cases t with
  | scalar => exact ⟨_, _, rfl, ⟨reads_var (x := "t0") (by decide), fun _ => ⟨_, rfl⟩⟩, fun E s _ => ⟨rfl, rfl⟩⟩
  | point => exact ⟨_, _, rfl, ⟨reads_pair (t := "t0") (t' := "t1") (says_var (by decide)) (says_var (by decide)), fun h => by cases h⟩, fun E s _ => ⟨rfl, rfl⟩⟩

theorem renders_tmpBuf (o : ℕ) (t : Ty) : (Expr.tmpBuf o t).Renders := by
  have h : ∀ f, Name f → (Expr.tmpBuf o t).typed = some (f ++ "(" ++ ("vars" ++ ", " ++ toString o) ++ ")") → (Expr.tmpBuf o t).Renders := by
    intro f hf h
    exact ⟨_, _, h, ⟨reads_call hf ((says_var (x := "vars") (by decide)).append (says_num o)), fun _ => ⟨_, rfl⟩⟩, fun E s _ => ⟨rfl, rfl⟩⟩
  cases t with
  | scalar => exact h "fr_from_bytes" (by decide) (congrArg some (String.toList_inj.1 (by simp [Ty.libString])))
  | point => exact h "ecc_from_bytes" (by decide) (congrArg some (String.toList_inj.1 (by simp [Ty.libString])))

/-! ### Calls -/

theorem run_call {E : Env} {s : St} (f : String) {as : List SExp} {o : Option (List Arg)} (h : runArgs E s as = o.map fun v => (s, v)) :
    (SExp.call f as).run E s = o.bind (builtin E s f) := by
  rw [SExp.run, h]
  cases o <;> rfl

theorem run_two {E : Env} {s : St} {as bs : List SExp} {a b : Option (List Arg)} (ha : runArgs E s as = a.map fun v => (s, v))
    (hb : runArgs E s bs = b.map fun v => (s, v)) :
    runArgs E s (as ++ bs) = (a.bind fun x => b.map fun y => x ++ y).map fun v => (s, v) := by
  rw [runArgs_append, ha]
  cases a with
  | none => rfl
  | some x =>
    show (runArgs E s bs).map _ = _
    rw [hb]
    cases b <;> rfl

theorem map_args {E : Env} {s : St} {as : List SExp} {o : Option Val} (h : runArgs E s as = o.map fun v => (s, v.args)) :
    runArgs E s as = (o.map Val.args).map fun v => (s, v) := by
  rw [h]
  cases o <;> rfl

theorem run_three {E : Env} {s : St} {as bs cs : List SExp} {a b c : Option (List Arg)} (ha : runArgs E s as = a.map fun v => (s, v))
    (hb : runArgs E s bs = b.map fun v => (s, v)) (hc : runArgs E s cs = c.map fun v => (s, v)) :
    runArgs E s (as ++ bs ++ cs) = (a.bind fun x => b.bind fun y => c.map fun z => x ++ y ++ z).map fun v => (s, v) := by
  rw [run_two (run_two ha hb) hc]
  cases a <;> cases b <;> rfl

theorem renders_mulAdd {l r c : Expr} (hl : l.Renders) (hr : r.Renders) (hc : c.Renders) : (Expr.mulAdd l r c .scalar).Renders := by
  obtain ⟨tl, al, el, ⟨sl, -⟩, pl⟩ := hl
  obtain ⟨tr, ar, er, ⟨sr, -⟩, pr⟩ := hr
  obtain ⟨tc, ac, ec, ⟨sc, -⟩, pc⟩ := hc
  have ht : (Expr.mulAdd l r c .scalar).typed = some ("fr_mul_add" ++ "(" ++ (tl ++ ", " ++ tr ++ ", " ++ tc) ++ ")") := by
    rw [Expr.typed, el, er, ec]
    exact congrArg some (String.toList_inj.1 (by simp [Ty.libString]))
  refine ⟨_, _, ht, ⟨reads_call (by decide) ((sl.1.append sr.1).append sc.1), fun _ => ⟨_, rfl⟩⟩, fun E s hE => ?_⟩
  have h := run_call "fr_mul_add" (run_three (map_args (pl E s hE).1) (map_args (pr E s hE).1) (map_args (pc E s hE).1))
  have h' : (SExp.call "fr_mul_add" (al ++ ar ++ ac)).run E s = ((eval E s (.mulAdd l r c .scalar)).bind fun v => match v with
      | .s w => some (Arg.w w)
      | _ => none).map fun a => (s, [a]) := by
    rw [h, eval]
    cases eval E s l with
    | none => rfl
    | some x =>
      cases eval E s r with
      | none => rfl
      | some y =>
        cases eval E s c with
        | none => rfl
        | some z => cases x <;> cases y <;> cases z <;> rfl
  rw [runArgs_one h', runTuple, h']
  refine ⟨?_, rfl⟩
  cases hv : eval E s (.mulAdd l r c .scalar) with
  | none => rfl
  | some v =>
    have := eval_ty hv
    cases v with
    | s w => rfl
    | p x y => cases this

theorem Expr.Operand.renders : ∀ {e : Expr}, e.Operand → e.Renders
  | .memory o t, _ => renders_memory o t
  | .transcript o t, _ => renders_transcript o t
  | .inst o t, _ => renders_inst o t
  | .tmpBuf o t, _ => renders_tmpBuf o t
  | .point x y, _ => renders_point x y
  | .scalar n, _ => renders_scalar n
  | .temp t, _ => renders_temp t
  | .mulAdd _ _ _ _, h => by
    obtain ⟨rfl, h1, h2, h3⟩ := h
    exact renders_mulAdd h1.renders h2.renders h3.renders

/-! ### Right sides -/

/-- The text of the right side gives its value and leaves the variables as the challenge leaves them. -/
def Expr.RendersRhs (e : Expr) : Prop :=
  ∃ t as, e.typed = some t ∧ Says t as ∧ ∀ E s, Env.Roomy E → runTuple E s as = (evalRhs E s e).map fun r => (r.1, r.2.args)

theorem evalRhs_pure {E : Env} {s : St} {e : Expr} (h : ∀ o, e ≠ .hash o) : evalRhs E s e = (eval E s e).map fun v => (s, v) := by
  cases e with
  | hash o => exact absurd rfl (h o)
  | _ => rfl

theorem Expr.Renders.rhs {e : Expr} (h : e.Renders) (hh : ∀ o, e ≠ .hash o) : e.RendersRhs := by
  obtain ⟨t, as, h1, h2, h3⟩ := h
  refine ⟨t, as, h1, h2.1.1, fun E s hE => ?_⟩
  rw [(h3 E s hE).2, (h3 E s hE).1, evalRhs_pure hh]
  cases eval E s e <;> rfl

/-- A call whose function gives the value. -/
theorem rhs_call {e : Expr} (hh : ∀ o, e ≠ .hash o) {f t : String} (hf : Name f) {as : List SExp} (ht : e.typed = some (f ++ "(" ++ t ++ ")"))
    (h : Says t as) (hv : ∀ E s, Env.Roomy E → ∃ o : Option (List Arg), (runArgs E s as = o.map fun v => (s, v)) ∧
      o.bind (builtin E s f) = (eval E s e).map fun v => (s, v.args)) : e.RendersRhs := by
  refine ⟨_, _, ht, (reads_call hf h).1, fun E s hE => ?_⟩
  obtain ⟨o, h1, h2⟩ := hv E s hE
  rw [runTuple, run_call f h1, h2, evalRhs_pure hh]
  cases eval E s e <;> rfl

theorem qMod_ne : qMod ≠ 0 := by
  intro h
  have := qMod_toNat
  rw [h] at this
  exact absurd this (by decide)

theorem builtin_addmod (E : Env) (s : St) (a b : Word) : builtin E s "addmod" [.w a, .w b, .w qMod] = some (s, [.w (addmod a b)]) := by
  show (if qMod = 0 then none else some (s, [Arg.w (BitVec.ofNat 256 ((a.toNat + b.toNat) % qMod.toNat))])) = _
  rw [if_neg qMod_ne, qMod_toNat]
  rfl

theorem builtin_mulmod (E : Env) (s : St) (a b : Word) : builtin E s "mulmod" [.w a, .w b, .w qMod] = some (s, [.w (mulmod a b)]) := by
  show (if qMod = 0 then none else some (s, [Arg.w (BitVec.ofNat 256 (a.toNat * b.toNat % qMod.toNat))])) = _
  rw [if_neg qMod_ne, qMod_toNat]
  rfl

theorem run_var {E : Env} {s : St} {x : String} {a : Arg} (h : varOf s x = some a) : runArgs E s [.var x] = (some [a]).map fun v => (s, v) := by
  rw [runArgs, SExp.run, h]
  rfl

theorem run_lit (E : Env) (s : St) (n : ℕ) : runArgs E s [.num n] = ((lit n).map fun v => [Arg.w v]).map fun v => (s, v) := by
  rw [runArgs_one (run_num E s n)]
  cases lit n <;> rfl

theorem rhs_two {e l r : Expr} (hh : ∀ o, e ≠ .hash o) (hl : l.Renders) (hr : r.Renders) {f : String} (hf : Name f)
    (ht : ∀ tl tr, l.typed = some tl → r.typed = some tr → e.typed = some (f ++ "(" ++ (tl ++ ", " ++ tr) ++ ")"))
    (hv : ∀ E s, ((eval E s l).bind fun x => (eval E s r).bind fun y => builtin E s f (x.args ++ y.args)) = (eval E s e).map fun v => (s, v.args)) :
    e.RendersRhs := by
  obtain ⟨tl, al, el, ⟨sl, -⟩, pl⟩ := hl
  obtain ⟨tr, ar, er, ⟨sr, -⟩, pr⟩ := hr
  refine rhs_call hh hf (ht tl tr el er) (sl.1.append sr.1) fun E s hE => ⟨_, run_two (map_args (pl E s hE).1) (map_args (pr E s hE).1), ?_⟩
  rw [← hv E s]
  cases eval E s l with
  | none => rfl
  | some x => cases eval E s r <;> rfl

theorem rhs_mod {e l r : Expr} (hh : ∀ o, e ≠ .hash o) (hl : l.Renders) (hr : r.Renders) {f : String} (hf : Name f)
    (ht : ∀ tl tr, l.typed = some tl → r.typed = some tr → e.typed = some (f ++ "(" ++ (tl ++ ", " ++ tr ++ ", " ++ "q_mod") ++ ")"))
    (hv : ∀ E s, ((eval E s l).bind fun x => (eval E s r).bind fun y => builtin E s f (x.args ++ y.args ++ [.w qMod])) = (eval E s e).map fun v => (s, v.args)) :
    e.RendersRhs := by
  obtain ⟨tl, al, el, ⟨sl, -⟩, pl⟩ := hl
  obtain ⟨tr, ar, er, ⟨sr, -⟩, pr⟩ := hr
  refine rhs_call hh hf (ht tl tr el er) ((sl.1.append sr.1).append (says_var (x := "q_mod") (by decide))) fun E s hE =>
    ⟨_, run_three (map_args (pl E s hE).1) (map_args (pr E s hE).1) (run_var (a := .w qMod) rfl), ?_⟩
  rw [← hv E s]
  cases eval E s l with
  | none => rfl
  | some x => cases eval E s r <;> rfl

theorem rhs_add {l r : Expr} {t : Ty} (hl : l.Renders) (hr : r.Renders) (h : (Expr.add l r t).Typed) : (Expr.add l r t).RendersRhs := by
  cases t with
  | point =>
    refine rhs_two (by simp) hl hr (f := "ecc_add") (by decide) (fun tl tr el er => ?_) fun E s => ?_
    · rw [Expr.typed, el, er]
      exact congrArg some (String.toList_inj.1 (by simp))
    · rw [eval]
      cases eval E s l with
      | none => rfl
      | some x =>
        cases eval E s r with
        | none => rfl
        | some y =>
          cases x <;> cases y <;> try rfl
          show Option.map _ _ = Option.map _ (Option.map _ _)
          rw [Option.map_map]
          rfl
  | scalar =>
    refine rhs_mod (by simp) hl hr (f := "addmod") (by decide) (fun tl tr el er => ?_) fun E s => ?_
    · rw [Expr.typed, el, er]
      exact congrArg some (String.toList_inj.1 (by simp))
    · rw [eval]
      cases hx : eval E s l with
      | none => rfl
      | some x =>
        cases hy : eval E s r with
        | none => rfl
        | some y =>
          have h1 := (eval_ty hx).trans h.1.1
          have h2 := (eval_ty hy).trans h.1.2
          cases x <;> cases h1
          cases y <;> cases h2
          exact builtin_addmod E s _ _

theorem rhs_mul {l r : Expr} {t : Ty} (hl : l.Renders) (hr : r.Renders) (h : (Expr.mul l r t).Typed) : (Expr.mul l r t).RendersRhs := by
  cases t with
  | point =>
    obtain ⟨tl, al, el, ⟨sl, -⟩, pl⟩ := hl
    obtain ⟨tr, ar, er, ⟨sr, -⟩, pr⟩ := hr
    refine rhs_call (by simp) (f := "ecc_mul") (t := tr ++ ", " ++ tl) (by decide) ?_ (sr.1.append sl.1) fun E s hE =>
      ⟨_, run_two (map_args (pr E s hE).1) (map_args (pl E s hE).1), ?_⟩
    · rw [Expr.typed, el, er]
      exact congrArg some (String.toList_inj.1 (by simp))
    · rw [eval]
      cases hx : eval E s l with
      | none => cases eval E s r <;> rfl
      | some x =>
        cases hy : eval E s r with
        | none => rfl
        | some y =>
          have h1 := (eval_ty hx).trans h.1.1
          have h2 := (eval_ty hy).trans h.1.2
          cases x <;> cases h1
          cases y <;> cases h2
          show Option.map _ _ = Option.map _ (Option.map _ _)
          rw [Option.map_map]
          rfl
  | scalar =>
    refine rhs_mod (by simp) hl hr (f := "mulmod") (by decide) (fun tl tr el er => ?_) fun E s => ?_
    · rw [Expr.typed, el, er]
      exact congrArg some (String.toList_inj.1 (by simp))
    · rw [eval]
      cases hx : eval E s l with
      | none => rfl
      | some x =>
        cases hy : eval E s r with
        | none => rfl
        | some y =>
          have h1 := (eval_ty hx).trans h.1.1
          have h2 := (eval_ty hy).trans h.1.2
          cases x <;> cases h1
          cases y <;> cases h2
          exact builtin_mulmod E s _ _

theorem rhs_div {l r : Expr} {t : Ty} (hl : l.Renders) (hr : r.Renders) (h : (Expr.div l r t).Typed) : (Expr.div l r t).RendersRhs := by
  obtain ⟨⟨rfl, h1, h2⟩, -⟩ := h
  refine rhs_two (by simp) hl hr (f := "fr_div") (by decide) (fun tl tr el er => ?_) fun E s => ?_
  · rw [Expr.typed, el, er]
    exact congrArg some (String.toList_inj.1 (by simp [Ty.libString]))
  · rw [eval]
    cases hx : eval E s l with
    | none => rfl
    | some x =>
      cases hy : eval E s r with
      | none => rfl
      | some y =>
        replace h1 := (eval_ty hx).trans h1
        replace h2 := (eval_ty hy).trans h2
        cases x <;> cases h1
        cases y <;> cases h2
        show Option.map _ _ = Option.map _ (Option.map _ _)
        rw [Option.map_map]
        rfl

theorem rhs_mulAdd {l r c : Expr} {t : Ty} (hl : l.Renders) (hr : r.Renders) (hc : c.Renders) (h : (Expr.mulAdd l r c t).Typed) :
    (Expr.mulAdd l r c t).RendersRhs := by
  cases t with
  | scalar => exact (renders_mulAdd hl hr hc).rhs (by simp)
  | point =>
    obtain ⟨tl, al, el, ⟨sl, -⟩, pl⟩ := hl
    obtain ⟨tr, ar, er, ⟨sr, -⟩, pr⟩ := hr
    obtain ⟨tc, ac, ec, ⟨sc, -⟩, pc⟩ := hc
    refine rhs_call (by simp) (f := "ecc_mul_add") (t := tl ++ ", " ++ tr ++ ", " ++ tc) (by decide) ?_ ((sl.1.append sr.1).append sc.1) fun E s hE =>
      ⟨_, run_three (map_args (pl E s hE).1) (map_args (pr E s hE).1) (map_args (pc E s hE).1), ?_⟩
    · rw [Expr.typed, el, er, ec]
      exact congrArg some (String.toList_inj.1 (by simp [Ty.libString]))
    · rw [eval]
      cases hx : eval E s l with
      | none => rfl
      | some x =>
        cases hy : eval E s r with
        | none => rfl
        | some y =>
          cases hz : eval E s c with
          | none => rfl
          | some z =>
            have h1 := (eval_ty hx).trans h.1.1
            have h2 := (eval_ty hy).trans h.1.2.1
            have h3 := (eval_ty hz).trans h.1.2.2
            cases x <;> cases h1
            cases y <;> cases h2
            cases z <;> cases h3
            show Option.map _ _ = Option.map _ (Option.map _ _)
            rw [Option.map_map]
            rfl

theorem rhs_pow {b : Expr} {k : ℕ} {t : Ty} (hb : b.Renders) (h : (Expr.pow b k t).Typed) : (Expr.pow b k t).RendersRhs := by
  obtain ⟨⟨rfl, h1⟩, -⟩ := h
  obtain ⟨tb, ab, eb, ⟨sb, -⟩, pb⟩ := hb
  refine rhs_call (by simp) (f := "fr_pow") (t := tb ++ ", " ++ toString k) (by decide) ?_ (sb.1.append (says_num k)) fun E s hE =>
    ⟨_, run_two (map_args (pb E s hE).1) (run_lit E s k), ?_⟩
  · rw [Expr.typed, eb]
    exact congrArg some (String.toList_inj.1 (by simp))
  · rw [eval]
    cases hx : eval E s b with
    | none => rfl
    | some x =>
      replace h1 := (eval_ty hx).trans h1
      cases x <;> cases h1
      show Option.bind (Option.map _ (Option.map _ (lit k))) _ = Option.map _ (Option.map _ (lit k))
      cases lit k <;> rfl

theorem rhs_hash (k : ℕ) : (Expr.hash k).RendersRhs := by
  have ht : (Expr.hash k).typed = some ("squeeze_challenge" ++ "(" ++ ("absorbing" ++ ", " ++ toString k) ++ ")") :=
    congrArg some (String.toList_inj.1 (by simp))
  refine ⟨_, _, ht, (reads_call (by decide) ((says_var (x := "absorbing") (by decide)).append (says_num k))).1, fun E s _ => ?_⟩
  rw [runTuple, run_call "squeeze_challenge" (run_two (run_var (s := s) (x := "absorbing") (a := .absorbing) rfl) (run_lit E s k)), evalRhs]
  have hs : ∀ r, squeezeChallenge E.D s.abs k = some r → k < 2 ^ 32 := by
    intro r hr
    unfold squeezeChallenge at hr
    simp only [Option.bind_eq_bind, Option.bind_eq_some_iff] at hr
    obtain ⟨a, -, hr⟩ := hr
    split at hr
    · omega
    · cases hr
  cases hr : squeezeChallenge E.D s.abs k with
  | none =>
    cases hk : lit k with
    | none => rfl
    | some w =>
      obtain ⟨hlt, rfl⟩ : k < 2 ^ 256 ∧ BitVec.ofNat 256 k = w := by
        unfold lit at hk
        split at hk
        · exact ⟨by assumption, Option.some.inj hk⟩
        · cases hk
      show (if (BitVec.ofNat 256 k).toNat < 2 ^ 32 then (squeezeChallenge E.D s.abs (BitVec.ofNat 256 k).toNat).map _ else none) = _
      rw [ofNat_toNat hlt, hr]
      split <;> rfl
  | some r =>
    have hk := hs r hr
    have hlt : k < 2 ^ 256 := by omega
    rw [lit_some hlt]
    show (if (BitVec.ofNat 256 k).toNat < 2 ^ 32 then (squeezeChallenge E.D s.abs (BitVec.ofNat 256 k).toNat).map _ else none) = _
    rw [ofNat_toNat hlt, hr, if_pos hk]
    rfl

theorem rhs_pm {g : Expr} {k : ℕ} {t : Ty} (hg : g.Renders) (h : (Expr.mulAddPM g k t).Typed) : (Expr.mulAddPM g k t).RendersRhs := by
  obtain ⟨h1, -⟩ := h
  obtain ⟨tg, ag, eg, ⟨sg, -⟩, pg⟩ := hg
  have key : ∀ f, Name f → (Expr.mulAddPM g k t).typed = some (f ++ "(" ++ ("m" ++ ", " ++ "proof" ++ ", " ++ toString k ++ ", " ++ tg) ++ ")") →
      (∀ (E : Env) (s : St) (v : Val) (w : Word), v.ty = t → builtin E s f ([.m] ++ [.proof] ++ [.w w] ++ v.args) =
        (match t, v with
          | .scalar, .s t => (frMulAddPM E s 16 w t).map Val.s
          | .point, .p x y => (eccMulAddPM E s 16 w x y).map fun r : Word × Word => Val.p r.1 r.2
          | _, _ => none).map fun v : Val => (s, v.args)) → (Expr.mulAddPM g k t).RendersRhs := by
    intro f hf ht hv
    refine rhs_call (by simp) hf ht ((((says_var (x := "m") (by decide)).append (says_var (x := "proof") (by decide))).append (says_num k)).append sg.1)
      fun E s hE => ⟨_, run_two (run_three (run_var (a := .m) rfl) (run_var (a := .proof) rfl) (run_lit E s k)) (map_args (pg E s hE).1), ?_⟩
    rw [eval]
    cases hx : eval E s g with
    | none => cases lit k <;> rfl
    | some x =>
      have h2 := (eval_ty hx).trans h1
      cases hk : lit k with
      | none => cases t <;> cases x <;> simp [opPM, hk]
      | some w =>
        show builtin E s f ([.m] ++ [.proof] ++ [.w w] ++ x.args) = Option.map _ (opPM E s k t x)
        rw [hv E s x w h2]
        cases t <;> cases x <;> cases h2
        · show _ = Option.map _ ((lit k) >>= fun a => (frMulAddPM E s 16 a _) >>= fun r => pure (Val.s r))
          rw [hk]
          show _ = Option.map _ ((frMulAddPM E s 16 w _) >>= fun r => pure (Val.s r))
          dsimp only
          cases frMulAddPM E s 16 w _ <;> rfl
        · show _ = Option.map _ ((lit k) >>= fun a => (eccMulAddPM E s 16 a _ _) >>= fun r => pure (Val.p r.1 r.2))
          rw [hk]
          show _ = Option.map _ ((eccMulAddPM E s 16 w _ _) >>= fun r => pure (Val.p r.1 r.2))
          dsimp only
          cases eccMulAddPM E s 16 w _ _ <;> rfl
  cases t with
  | scalar =>
    refine key "fr_mul_add_pm" (by decide) ?_ fun E s v w hv => ?_
    · rw [Expr.typed, eg]
      exact congrArg some (String.toList_inj.1 (by simp [Ty.libString]))
    · cases v <;> cases hv
      show Option.map _ _ = Option.map _ (Option.map _ _)
      rw [Option.map_map]
      rfl
  | point =>
    refine key "ecc_mul_add_pm" (by decide) ?_ fun E s v w hv => ?_
    · rw [Expr.typed, eg]
      exact congrArg some (String.toList_inj.1 (by simp [Ty.libString]))
    · cases v <;> cases hv
      show Option.map _ _ = Option.map _ (Option.map _ _)
      rw [Option.map_map]
      rfl

theorem rhs_mt (m k : ℕ) : (Expr.mulAddMT m k).RendersRhs := by
  have ht : (Expr.mulAddMT m k).typed = some ("fr_mul_add_mt" ++ "(" ++ ("m" ++ ", " ++ ("m" ++ "[" ++ toString m ++ "]") ++ ", " ++ toString k ++ ", " ++ "t0") ++ ")") :=
    congrArg some (String.toList_inj.1 (by simp))
  refine rhs_call (by simp) (by decide) ht ((((says_var (x := "m") (by decide)).append (reads_index (by decide) m).1).append (says_num k)).append
    (says_var (x := "t0") (by decide))) fun E s hE => ⟨_, run_two (run_three (run_var (a := .m) rfl)
      (a := some [.m]) (b := (E.load s m).map fun v => [.w v]) ?_ (run_lit E s k)) (run_var (a := .w s.t0) rfl), ?_⟩
  · rw [runArgs_one (run_index s fun h => element_m hE s h), element]
    cases E.load s m <;> rfl
  · rw [eval]
    cases E.load s m with
    | none => rfl
    | some v =>
      cases lit k with
      | none => rfl
      | some w =>
        show Option.map _ (frMulAddMT E s v 32 w s.t0) = Option.map _ ((frMulAddMT E s v 32 w s.t0) >>= fun r => pure (Val.s r))
        cases frMulAddMT E s v 32 w s.t0 <;> rfl

theorem run_minus (E : Env) (s : St) (x : SExp) : (SExp.bin '-' (.var "q_mod") x).run E s =
    (x.run E s).bind fun r => (oneWord r.2).bind fun b => (subChecked qMod b).map fun v => (r.1, [.w v]) := by
  rw [SExp.run, SExp.run]
  show (x.run E s >>= _) = _
  cases x.run E s with
  | none => rfl
  | some r =>
    show (oneWord r.2 >>= _) = Option.bind (oneWord r.2) _
    cases oneWord r.2 with
    | none => rfl
    | some b =>
      show (subChecked qMod b >>= _) = Option.map _ (subChecked qMod b)
      cases subChecked qMod b <;> rfl

/-- `addmod(a, q_mod - b, q_mod)`. -/
theorem rhs_sub {l r : Expr} {t : Ty} (hl : l.Renders) (hr : r.Renders) (h : (Expr.sub l r t).Typed) : (Expr.sub l r t).RendersRhs := by
  cases t with
  | point =>
    refine rhs_two (by simp) hl hr (f := "ecc_sub") (by decide) (fun tl tr el er => ?_) fun E s => ?_
    · rw [Expr.typed, el, er]
      exact congrArg some (String.toList_inj.1 (by simp))
    · rw [eval]
      cases eval E s l with
      | none => rfl
      | some x =>
        cases eval E s r with
        | none => rfl
        | some y =>
          cases x <;> cases y <;> try rfl
          show Option.map _ _ = Option.map _ (Option.map _ _)
          rw [Option.map_map]
          rfl
  | scalar =>
    obtain ⟨tl, al, el, ⟨sl, -⟩, pl⟩ := hl
    obtain ⟨tr, ar, er, ⟨sr, hx⟩, pr⟩ := hr
    obtain ⟨x, rfl⟩ := hx h.1.2
    obtain ⟨ts, k1, k2⟩ := sr.2 x rfl
    have sd : Says ("q_mod" ++ " - " ++ tr) [.bin '-' (.var "q_mod") x] :=
      says_expr ((lexes_name (by decide)).append k1 (ks := [.sym '-']) rfl (by decide) fun _ => rfl) ((atom_var "q_mod").term.sub k2.term)
    refine rhs_call (by simp) (f := "addmod") (t := tl ++ ", " ++ ("q_mod" ++ " - " ++ tr) ++ ", " ++ "q_mod") (by decide) ?_
      ((sl.1.append sd).append (says_var (x := "q_mod") (by decide))) fun E s hE => ⟨_, run_three (map_args (pl E s hE).1)
        (b := (eval E s r).bind fun v => match v with
          | .s w => (subChecked qMod w).map fun d => [.w d]
          | _ => none) ?_ (run_var (a := .w qMod) rfl), ?_⟩
    · rw [Expr.typed, el, er]
      exact congrArg some (String.toList_inj.1 (by simp))
    · have hx : x.run E s = (eval E s r).map fun v => (s, v.args) := (pr E s hE).2.trans (pr E s hE).1
      rw [runArgs, run_minus, hx]
      cases hy : eval E s r with
      | none => rfl
      | some y =>
        have h2 := (eval_ty hy).trans h.1.2
        cases y <;> cases h2
        rename_i w
        show (Option.map _ (subChecked qMod w) >>= fun _ => _) = Option.map _ (Option.map _ (subChecked qMod w))
        cases subChecked qMod w <;> rfl
    · rw [eval]
      cases hx : eval E s l with
      | none => rfl
      | some x =>
        cases hy : eval E s r with
        | none => rfl
        | some y =>
          have h1 := (eval_ty hx).trans h.1.1
          have h2 := (eval_ty hy).trans h.1.2
          cases x <;> cases h1
          cases y <;> cases h2
          rename_i a w
          show Option.bind (Option.bind (Option.map _ (subChecked qMod w)) _) _ = Option.map _ (Option.map _ (Option.map _ (subChecked qMod w)))
          cases subChecked qMod w with
          | none => rfl
          | some d => exact builtin_addmod E s a d

theorem Expr.Flat.renders : ∀ {e : Expr}, e.Flat → e.Typed → e.RendersRhs
  | .memory o t, _, _ => (renders_memory o t).rhs (by simp)
  | .transcript o t, _, _ => (renders_transcript o t).rhs (by simp)
  | .inst o t, _, _ => (renders_inst o t).rhs (by simp)
  | .tmpBuf o t, _, _ => (renders_tmpBuf o t).rhs (by simp)
  | .point x y, _, _ => (renders_point x y).rhs (by simp)
  | .scalar n, _, _ => (renders_scalar n).rhs (by simp)
  | .temp t, _, _ => (renders_temp t).rhs (by simp)
  | .add _ _ _, h, ht => rhs_add h.1.renders h.2.renders ht
  | .sub _ _ _, h, ht => rhs_sub h.1.renders h.2.renders ht
  | .mul _ _ _, h, ht => rhs_mul h.1.renders h.2.renders ht
  | .div _ _ _, h, ht => rhs_div h.1.renders h.2.renders ht
  | .mulAdd _ _ _ _, h, ht => rhs_mulAdd h.1.renders h.2.1.renders h.2.2.renders ht
  | .mulAddPM _ _ _, h, ht => rhs_pm (Operand.renders h) ht
  | .mulAddMT m k, _, _ => rhs_mt m k
  | .pow _ _ _, h, ht => rhs_pow (Operand.renders h) ht
  | .hash k, _, _ => rhs_hash k

end Verif.Sol
