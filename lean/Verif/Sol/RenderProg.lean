import Verif.Sol.RenderStmt

/-!
# The text of a program means the program (C93)
-/

namespace Verif.Sol
open Verif.Circuit Verif.Ecc

/-! ### Lines -/

theorem line_one {lt t x : String} {k : List Tok} {e : SExp} {as : List SExp} (hl : Lexes lt (.id x :: k)) (he : IsExpr (.id x :: k) e) (hx : x ≠ "for")
    (hr : x ≠ "return") (h : Says t as) : ∃ K, LexAny (lt ++ " = (" ++ t ++ ");") K ∧ IsStmt K (.assign [e] as) := by
  obtain ⟨ts, h1, h2⟩ := h.args
  exact ⟨_, (((hl.then (t' := " = (") (k' := [.sym '=', .sym '(']) (fun _ => rfl) ⟨rfl, by decide⟩).then h1).then (t' := ");") (k' := [.sym ')', .sym ';'])
    (fun _ => rfl) ⟨rfl, by decide⟩), stmt_one hx hr he h2⟩

theorem line_many {lt t : String} {es as : List SExp} (hl : Says lt es) (h : Says t as) :
    ∃ K, LexAny ("(" ++ lt ++ ") = (" ++ t ++ ");") K ∧ IsStmt K (.assign es as) := by
  obtain ⟨k, l1, l2⟩ := hl.args
  obtain ⟨ts, h1, h2⟩ := h.args
  have l0 : LexAny "(" [.sym '('] := fun _ => rfl
  exact ⟨_, ((((l0.then l1).then (t' := ") = (") (k' := [.sym ')', .sym '=', .sym '(']) (fun _ => rfl) ⟨rfl, by decide⟩).then h1).then (t' := ");")
    (k' := [.sym ')', .sym ';']) (fun _ => rfl) ⟨rfl, by decide⟩), stmt_many l2 h2⟩

theorem line_call {f t : String} {as : List SExp} (hf : Name f) (hx : f ≠ "for") (hr : f ≠ "return") (h : Says t as) :
    ∃ K, LexAny (f ++ "(" ++ t ++ ")" ++ ";") K ∧ IsStmt K (.eval (.call f as)) := by
  obtain ⟨ts, h1, h2⟩ := h.args
  have he : IsExpr (.id f :: (.sym '(' :: ts ++ [.sym ')'])) (.call f as) := (atom_call f h2).term.expr
  exact ⟨_, ((call_lexes hf h1).then (t' := ";") (k' := [.sym ';']) (fun _ => rfl) ⟨rfl, by decide⟩), stmt_call hx hr he⟩

theorem line_loop {b : String} {k : List Tok} {cs : List SStmt} (le : Bool) (n : ℕ) (hb : LexAny b k) (h : IsBody k cs) :
    ∃ K, LexAny ((if le then "for (t0 = 0; t0 <= " else "for (t0 = 0; t0 < ") ++ toString n ++ "; t0++) {" ++ b ++ "\n        }") K ∧
      IsStmt K (.loop "t0" (.num 0) le (.num n) cs) := by
  have l0 : LexAny (if le then "for (t0 = 0; t0 <= " else "for (t0 = 0; t0 < ")
      ([.id "for", .sym '(', .id "t0", .sym '=', .num 0, .sym ';', .id "t0"] ++ boundToks le) := by
    cases le <;> exact fun _ => rfl
  have l1 : LexAny "; t0++) {" [.sym ';', .id "t0", .sym '+', .sym '+', .sym ')', .sym '{'] := fun _ => rfl
  have l2 : LexAny "\n        }" [.sym '}'] := fun _ => rfl
  refine ⟨_, (((l0.then (lexes_num n)).then l1 ⟨rfl, by decide⟩).append hb).append l2, ?_⟩
  have := stmt_loop le n h
  simpa using this

/-! ### Statements -/

/-- The constants of a loop fit in a word. -/
def Stmt.Fits : Stmt → Prop
  | .loop memStart memEnd memStep _ absStep _ => (memStart ≤ memEnd ∧ memStep ≠ 0) ∧ memEnd + 1 < 2 ^ 256 ∧ memStep < 2 ^ 256 ∧ absStep < 2 ^ 256
  | .mulLoop _ step n t => t = .scalar ∧ n < 2 ^ 256 ∧ step.1 < 2 ^ 256 ∧ step.2.1 < 2 ^ 256 ∧ step.2.2 < 2 ^ 256
  | _ => True

/-- The lines of the statement are one statement of the text, which does the same. -/
def Stmt.Renders (c : Stmt) : Prop :=
  ∃ ls k sc, c.lines = some ls ∧ LexAny (String.join (ls.map fun l => "\n        " ++ l)) k ∧ IsStmt k sc ∧
    ∀ E, Env.Roomy E → StmtRuns sc E fun s => exec E s c

theorem lexAny_line {t : String} {k : List Tok} (h : LexAny t k) : LexAny (String.join ([t].map fun l => "\n        " ++ l)) k := by
  intro rest
  have : String.join ([t].map fun l => "\n        " ++ l) = "\n        " ++ t := String.toList_inj.1 (by simp [String.join])
  rw [this, String.toList_append, List.append_assoc]
  exact h rest

theorem renders_one {c : Stmt} {t : String} {sc : SStmt} (hl : c.lines = some [t]) (h : ∃ K, LexAny t K ∧ IsStmt K sc)
    (hr : ∀ E, Env.Roomy E → StmtRuns sc E fun s => exec E s c) : c.Renders := by
  obtain ⟨K, h1, h2⟩ := h
  exact ⟨_, K, sc, hl, lexAny_line h1, h2, hr⟩

theorem renders_assign {l r : Expr} (ht : (Stmt.assign l r).Typed) (h : (Stmt.assign l r).Flat) : (Stmt.assign l r).Renders := by
  obtain ⟨hl, hf⟩ := h
  obtain ⟨t, as, e1, e2, e3⟩ := hf.renders ht.2
  have hr : ∀ E, Env.Roomy E → StmtRuns (.assign (places l) as) E fun s => exec E s (.assign l r) := fun E hE => runs_assign hE hl ht.1 fun s => e3 E s hE
  cases l with
  | memory o ty =>
    cases ty with
    | scalar =>
      refine renders_one (t := "m" ++ "[" ++ toString o ++ "]" ++ " = (" ++ t ++ ");") ?_
        (line_one (index_lexes (f := "m") (by decide) (lexes_num o)) (atom_index "m" (atom_num o).term.expr).term.expr (by decide) (by decide) e2) hr
      rw [Stmt.lines, e1]
      exact congrArg some (congrArg (fun x => [x]) (String.toList_inj.1 (by simp)))
    | point =>
      refine renders_one (t := "(" ++ ("m" ++ "[" ++ toString o ++ "]" ++ ", " ++ ("m" ++ "[" ++ toString (o + 1) ++ "]")) ++ ") = (" ++ t ++ ");") ?_
        (line_many ((reads_index (by decide) o).1.append (reads_index (by decide) (o + 1)).1) e2) hr
      rw [Stmt.lines, e1]
      exact congrArg some (congrArg (fun x => [x]) (String.toList_inj.1 (by simp)))
  | temp ty =>
    cases ty with
    | scalar =>
      refine renders_one (t := "t0" ++ " = (" ++ t ++ ");") ?_ (line_one (lexes_name (by decide)) (atom_var "t0").term.expr (by decide) (by decide) e2) hr
      rw [Stmt.lines, e1]
      rfl
    | point =>
      refine renders_one (t := "(" ++ ("t0" ++ ", " ++ "t1") ++ ") = (" ++ t ++ ");") ?_
        (line_many ((says_var (x := "t0") (by decide)).append (says_var (x := "t1") (by decide))) e2) hr
      rw [Stmt.lines, e1]
      exact congrArg some (congrArg (fun x => [x]) (String.toList_inj.1 (by simp)))
  | _ => simp [Expr.isMemory, Expr.isTemp] at hl

theorem absorbName_ok (t : Ty) : Name (absorbName t) ∧ absorbName t ≠ "for" ∧ absorbName t ≠ "return" := by cases t <;> decide

theorem renders_update {e : Expr} {off : ℕ} (h : (Stmt.updateHash e off).Flat) : (Stmt.updateHash e off).Renders := by
  obtain ⟨t, as, e1, ⟨e2, -⟩, e3⟩ := Expr.Operand.renders h
  obtain ⟨n1, n2, n3⟩ := absorbName_ok e.type
  refine renders_one (t := absorbName e.type ++ "(" ++ (t ++ ", " ++ "absorbing" ++ ", " ++ toString off) ++ ")" ++ ";") ?_
    (line_call n1 n2 n3 ((e2.1.append (says_var (x := "absorbing") (by decide))).append (says_num off)))
    fun E hE => runs_update hE off fun s => (e3 E s hE).1
  cases ht : e.type <;>
  · simp only [Stmt.lines, ht, e1]
    exact congrArg some (congrArg (fun x => [x]) (String.toList_inj.1 (by simp [absorbName])))

/-- Three lines of a loop. -/
theorem renders_loop {c : Stmt} {b : String} {le : Bool} {n : ℕ} {sc : SStmt}
    (hl : c.lines = some [(if le then "for (t0 = 0; t0 <= " else "for (t0 = 0; t0 < ") ++ toString n ++ "; t0++) {", "    " ++ b, "}"])
    (h : ∃ K, LexAny b K ∧ IsStmt K sc)
    (hr : ∀ E, Env.Roomy E → StmtRuns (.loop "t0" (.num 0) le (.num n) [sc]) E fun s => exec E s c) : c.Renders := by
  obtain ⟨K, h1, h2⟩ := h
  have hb : LexAny ("\n            " ++ b) K := by
    intro rest
    rw [String.toList_append, List.append_assoc]
    exact h1 rest
  have hbody : IsBody K [sc] := by simpa using h2.body isBody_nil
  obtain ⟨K', k1, k2⟩ := line_loop le n hb hbody
  refine ⟨_, K', _, hl, ?_, k2, hr⟩
  intro rest
  rw [← k1 rest]
  have : String.join ([(if le then "for (t0 = 0; t0 <= " else "for (t0 = 0; t0 < ") ++ toString n ++ "; t0++) {", "    " ++ b, "}"].map fun l => "\n        " ++ l) =
      "\n        " ++ ((if le then "for (t0 = 0; t0 <= " else "for (t0 = 0; t0 < ") ++ toString n ++ "; t0++) {" ++ ("\n            " ++ b) ++ "\n        }") :=
    String.toList_inj.1 (by simp [String.join])
  rw [this, String.toList_append, List.append_assoc]
  rfl

theorem says_at (f : String) (hf : Name f) (a b : ℕ) : Says (f ++ "[" ++ (toString a ++ " + t0 * " ++ toString b) ++ "]") [.index f (linear a b)] :=
  (says_linear a b).index hf

theorem renders_hash {a b c d e : ℕ} {t : Ty} (h : (Stmt.loop a b c d e t).Fits) : (Stmt.loop a b c d e t).Renders := by
  obtain ⟨⟨h1, h2⟩, h3, h4, h5⟩ := h
  have hp : (if (true : Bool) = true then "for (t0 = 0; t0 <= " else "for (t0 = 0; t0 < ") = "for (t0 = 0; t0 <= " := rfl
  obtain ⟨n1, n2, n3⟩ := absorbName_ok t
  cases t with
  | scalar =>
    refine renders_loop (le := true) (n := (b - a) / c)
      (b := "update_hash_scalar" ++ "(" ++ ("proof" ++ "[" ++ (toString a ++ " + t0 * " ++ toString c) ++ "]" ++ ", " ++ "absorbing" ++ ", " ++
        (toString d ++ " + t0 * " ++ toString e)) ++ ")" ++ ";") ?_
      (line_call n1 n2 n3 (((says_at "proof" (by decide) a c).append (says_var (x := "absorbing") (by decide))).append (says_linear d e)))
      fun E hE => runs_hash (t := .scalar) (absStart := d) hE h1 h2 h3 h4 h5
    rw [Stmt.lines, if_pos ⟨h1, h2⟩, hp]
    refine congrArg some (congrArg₂ _ rfl (congrArg₂ _ (String.toList_inj.1 ?_) rfl))
    simp
  | point =>
    refine renders_loop (le := true) (n := (b - a) / c)
      (b := "update_hash_point" ++ "(" ++ ("proof" ++ "[" ++ (toString a ++ " + t0 * " ++ toString c) ++ "]" ++ ", " ++
        ("proof" ++ "[" ++ (toString (a + 1) ++ " + t0 * " ++ toString c) ++ "]") ++ ", " ++ "absorbing" ++ ", " ++
        (toString d ++ " + t0 * " ++ toString e)) ++ ")" ++ ";") ?_
      (line_call n1 n2 n3 ((((says_at "proof" (by decide) a c).append (says_at "proof" (by decide) (a + 1) c)).append
        (says_var (x := "absorbing") (by decide))).append (says_linear d e)))
      fun E hE => runs_hash (t := .point) (absStart := d) hE h1 h2 h3 h4 h5
    rw [Stmt.lines, if_pos ⟨h1, h2⟩, hp]
    refine congrArg some (congrArg₂ _ rfl (congrArg₂ _ (String.toList_inj.1 ?_) rfl))
    simp

theorem renders_mul {start step : ℕ × ℕ × ℕ} {n : ℕ} {t : Ty} (h : (Stmt.mulLoop start step n t).Fits) : (Stmt.mulLoop start step n t).Renders := by
  obtain ⟨rfl, h1, h2, h3, h4⟩ := h
  have hp : (if (false : Bool) = true then "for (t0 = 0; t0 <= " else "for (t0 = 0; t0 < ") = "for (t0 = 0; t0 < " := rfl
  obtain ⟨ts, k1, k2⟩ := (says_linear start.1 step.1).expr
  refine renders_loop (le := false) (n := n)
    (b := "m" ++ "[" ++ (toString start.1 ++ " + t0 * " ++ toString step.1) ++ "]" ++ " = (" ++ ("mulmod" ++ "(" ++
      ("m" ++ "[" ++ (toString start.2.1 ++ " + t0 * " ++ toString step.2.1) ++ "]" ++ ", " ++
      ("m" ++ "[" ++ (toString start.2.2 ++ " + t0 * " ++ toString step.2.2) ++ "]") ++ ", " ++ "q_mod") ++ ")") ++ ");") ?_
    (line_one (index_lexes (f := "m") (by decide) k1) (atom_index "m" k2).term.expr (by decide) (by decide)
      ((((says_at "m" (by decide) start.2.1 step.2.1).append (says_at "m" (by decide) start.2.2 step.2.2)).append
        (says_var (x := "q_mod") (by decide))).call (f := "mulmod") (by decide)))
    fun E hE => runs_mul hE h1 h2 h3 h4
  rw [Stmt.lines, hp]
  refine congrArg some (congrArg₂ _ rfl (congrArg₂ _ (String.toList_inj.1 ?_) rfl))
  simp

theorem Stmt.renders {c : Stmt} (h1 : c.Typed) (h2 : c.Flat) (h3 : c.Fits) : c.Renders := by
  cases c with
  | assign l r => exact renders_assign h1 h2
  | updateHash e off => exact renders_update h2
  | loop a b c d e t => exact renders_hash h3
  | mulLoop start step n t => exact renders_mul h3

/-! ### Bodies -/

theorem squeeze_length {D : Digest} {a : List Word} {k : ℕ} {r : List Word × Word} (h : squeezeChallenge D a k = some r) : r.1.length = a.length := by
  unfold squeezeChallenge at h
  simp only [Option.bind_eq_bind, Option.bind_eq_some_iff] at h
  obtain ⟨b, h1, h⟩ := h
  split at h
  · simp only [Option.bind_eq_some_iff] at h
    obtain ⟨c, h2, h⟩ := h
    cases h
    exact (store_length h2).trans (store_length h1)
  · cases h

theorem save_abs {E : Env} {s s' : St} {i : ℕ} {v : Word} (h : E.save s i v = some s') : s'.abs = s.abs := by
  unfold Env.save at h
  split at h
  · cases h
    rfl
  · cases h

theorem put_abs {E : Env} {s s' : St} {l : Expr} {v : Val} (h : put E s l v = some s') : s'.abs = s.abs := by
  unfold put at h
  split at h
  · exact save_abs h
  · simp only [Option.bind_eq_bind, Option.bind_eq_some_iff] at h
    obtain ⟨a, h1, h2⟩ := h
    exact (save_abs h2).trans (save_abs h1)
  · cases h
    rfl
  · cases h
    rfl
  · cases h

theorem hashRounds_abs {E : Env} {a b c d : ℕ} {t : Ty} : ∀ {is : List ℕ} {s s' : St}, hashRounds E a b c d t is s = some s' → s'.abs.length = s.abs.length
  | [], s, s', h => by
    cases h
    rfl
  | i :: is, s, s', h => by
    rw [hashRounds] at h
    simp only [Option.bind_eq_bind, Option.bind_eq_some_iff] at h
    obtain ⟨v, -, q, h1, h2⟩ := h
    exact (hashRounds_abs h2).trans (absorb_some h1).2

theorem mulRounds_abs {E : Env} {a b : ℕ × ℕ × ℕ} : ∀ {is : List ℕ} {s s' : St}, mulRounds E a b is s = some s' → s'.abs = s.abs
  | [], s, s', h => by
    cases h
    rfl
  | i :: is, s, s', h => by
    rw [mulRounds] at h
    simp only [Option.bind_eq_bind, Option.bind_eq_some_iff] at h
    obtain ⟨v, -, w, -, q, h1, h2⟩ := h
    exact (mulRounds_abs h2).trans (save_abs h1)

theorem exec_abs {E : Env} {s s' : St} {c : Stmt} (h : exec E s c = some s') : s'.abs.length = s.abs.length := by
  cases c with
  | assign l r =>
    rw [exec] at h
    simp only [Option.bind_eq_bind, Option.bind_eq_some_iff] at h
    obtain ⟨q, h1, h2⟩ := h
    rw [put_abs h2]
    by_cases he : ∃ o, r = .hash o
    · obtain ⟨o, rfl⟩ := he
      rw [evalRhs] at h1
      simp only [Option.bind_eq_bind, Option.bind_eq_some_iff] at h1
      obtain ⟨w, h3, h1⟩ := h1
      cases h1
      exact squeeze_length h3
    · rw [evalRhs_pure fun o ho => he ⟨o, ho⟩, Option.map_eq_some_iff] at h1
      obtain ⟨v, -, rfl⟩ := h1
      rfl
  | updateHash e off =>
    rw [exec] at h
    simp only [Option.bind_eq_bind, Option.bind_eq_some_iff] at h
    obtain ⟨v, -, h⟩ := h
    exact (absorb_some h).2
  | loop a b c d e t =>
    rw [exec] at h
    split at h
    · simp only [Option.bind_eq_bind, Option.bind_eq_some_iff] at h
      obtain ⟨q, h1, h⟩ := h
      cases h
      show q.abs.length = _
      exact hashRounds_abs h1
    · cases h
  | mulLoop start step n t =>
    cases t with
    | scalar =>
      simp only [exec, Option.bind_eq_bind, Option.bind_eq_some_iff] at h
      obtain ⟨q, h1, h⟩ := h
      cases h
      show q.abs.length = _
      rw [mulRounds_abs h1]
    | point => cases h

theorem renderStmts_renders : ∀ {cs : List Stmt}, (∀ c ∈ cs, c.Renders) → ∃ t k scs, renderStmts cs = some t ∧ LexAny t k ∧ IsBody k scs ∧
    ∀ E, Env.Roomy E → ∃ n₀, ∀ n ≥ n₀, ∀ s : St, s.abs.length ≤ 2 ^ 256 → runBody n E s scs = execAll E s cs
  | [], _ => ⟨"", [], [], rfl, fun _ => rfl, isBody_nil, fun E _ => ⟨1, fun n hn s _ => by
      obtain ⟨n, rfl, -⟩ := ge_add (m := 0) (j := 1) hn
      rfl⟩⟩
  | c :: cs, h => by
    obtain ⟨ls, k, sc, h1, h2, h3, h4⟩ := h c (List.mem_cons_self ..)
    obtain ⟨t, k', scs, i1, i2, i3, i4⟩ := renderStmts_renders fun d hd => h d (List.mem_cons_of_mem _ hd)
    refine ⟨_, _, sc :: scs, ?_, h2.append i2, h3.body i3, fun E hE => ?_⟩
    · rw [renderStmts, h1, i1]
      rfl
    · obtain ⟨n₁, h4⟩ := h4 E hE
      obtain ⟨n₂, i4⟩ := i4 E hE
      refine ⟨max n₁ n₂ + 1, fun n hn s hs => ?_⟩
      obtain ⟨n, rfl, hn'⟩ := ge_add hn
      have h5 : SStmt.run n E s sc = exec E s c := h4 n (by omega) s hs
      rw [runBody, h5, execAll]
      cases he : exec E s c with
      | none => rfl
      | some s' => exact i4 n (by omega) s' (by rw [exec_abs he]; exact hs)

/-! ### The function -/

/-- Two points as four words. -/
def fourWords : List Val → Option (Word × Word × Word × Word)
  | [.p a b, .p c d] => some (a, b, c, d)
  | _ => none

/-- A program that can be written down: every statement is well typed, flat and fits, and two points are returned. -/
structure Prog.Writable (p : Prog) : Prop where
  stmts : ∀ c ∈ p.stmts, c.Typed ∧ c.Flat ∧ c.Fits
  finals : ∃ wx wg, p.finals = [wx, wg] ∧ (wx.Operand ∧ wx.type = .point) ∧ wg.Operand ∧ wg.type = .point
  size : p.size ≤ 2 ^ 256
  absorbing : p.absorbingLength + 1 ≤ 2 ^ 256

theorem pFun_toks {n a b : ℕ} {k ts : List Tok} {cs : List SStmt} {as : List SExp}
    (h1 : ∀ rest, Closes rest → pBody n (k ++ rest) = some (cs, rest)) (h2 : ∀ rest, pArgs n (ts ++ .sym ')' :: rest) = some (as, rest)) :
    pFun n ([.id "uint256", .sym '['] ++ [.num a] ++ [.sym ']', .id "memory", .id "m", .sym ';', .id "uint256", .sym '['] ++ [.num b] ++
      [.sym ']', .id "memory", .id "absorbing", .sym ';', .id "uint256", .id "t0", .sym '=', .num 0, .sym ';', .id "uint256", .id "t1", .sym '=', .num 0, .sym ';'] ++
      k ++ [.id "return", .sym '('] ++ ts ++ [.sym ')', .sym ';']) = some ⟨a, b, cs, as⟩ := by
  have e : k ++ [.id "return", .sym '('] ++ ts ++ [.sym ')', .sym ';'] = k ++ .id "return" :: .sym '(' :: (ts ++ .sym ')' :: [.sym ';']) := by simp
  have e1 : pFun n ([.id "uint256", .sym '['] ++ [.num a] ++ [.sym ']', .id "memory", .id "m", .sym ';', .id "uint256", .sym '['] ++ [.num b] ++
      [.sym ']', .id "memory", .id "absorbing", .sym ';', .id "uint256", .id "t0", .sym '=', .num 0, .sym ';', .id "uint256", .id "t1", .sym '=', .num 0, .sym ';'] ++
      k ++ [.id "return", .sym '('] ++ ts ++ [.sym ')', .sym ';']) = (pBody n (k ++ [.id "return", .sym '('] ++ ts ++ [.sym ')', .sym ';'])).bind fun r =>
        match r with
        | (body, .id "return" :: .sym '(' :: ts) => (pArgs n ts).bind fun r => match r with
          | (ret, [.sym ';']) => some ⟨a, b, body, ret⟩
          | _ => none
        | _ => none := by
    simp only [pFun, pArray, pVar, List.cons_append, List.nil_append, List.append_assoc, if_true, Option.bind_eq_bind, Option.bind_some]
    rfl
  rw [e1, e, h1 _ (by simp [Closes])]
  show Option.bind (pArgs n (ts ++ .sym ')' :: [.sym ';'])) _ = _
  rw [h2]
  rfl

/-- The declarations of `absorbing`, `t0` and `t1`. -/
def declText : String := "]" ++ " memory absorbing;\n        uint256 t0 = 0;\n        uint256 t1 = 0;\n\n        "

theorem lex_bracket : LexAny "]" [.sym ']'] := fun _ => rfl

set_option maxRecDepth 4000 in
theorem lex_decl : LexAny declText [.sym ']', .id "memory", .id "absorbing", .sym ';', .id "uint256", .id "t0", .sym '=', .num 0, .sym ';',
    .id "uint256", .id "t1", .sym '=', .num 0, .sym ';'] :=
  lex_bracket.append (t' := " memory absorbing;\n        uint256 t0 = 0;\n        uint256 t1 = 0;\n\n        ") (k' := [.id "memory", .id "absorbing", .sym ';',
    .id "uint256", .id "t0", .sym '=', .num 0, .sym ';', .id "uint256", .id "t1", .sym '=', .num 0, .sym ';']) fun _ => rfl

theorem sep_bracket : Sep "]" := ⟨rfl, by decide⟩

/-- Between the sizes of the two arrays. -/
def arrayText : String := "]" ++ " memory m;\n        uint256["

theorem lex_array : LexAny arrayText [.sym ']', .id "memory", .id "m", .sym ';', .id "uint256", .sym '['] :=
  lex_bracket.append (t' := " memory m;\n        uint256[") (k' := [.id "memory", .id "m", .sym ';', .id "uint256", .sym '[']) fun _ => rfl

theorem lex_return : LexAny "\n        return (" [.id "return", .sym '('] := fun _ => rfl

/-- The first declarations. -/
theorem lex_head (a b : ℕ) : LexAny ("uint256[" ++ toString a ++ arrayText ++ toString b ++ declText)
    ([.id "uint256", .sym '['] ++ [.num a] ++ [.sym ']', .id "memory", .id "m", .sym ';', .id "uint256", .sym '['] ++ [.num b] ++
      [.sym ']', .id "memory", .id "absorbing", .sym ';', .id "uint256", .id "t0", .sym '=', .num 0, .sym ';', .id "uint256", .id "t1", .sym '=', .num 0, .sym ';']) := by
  have l0 : LexAny "uint256[" [.id "uint256", .sym '['] := fun _ => rfl
  have l1 := LexAny.then l0 (lexes_num a)
  have l2 := Lexes.then l1 lex_array (sep_bracket.append _)
  have l3 := LexAny.then l2 (lexes_num b)
  exact Lexes.then l3 lex_decl (sep_bracket.append _)

/-- The whole text. -/
theorem lex_text {d t r : String} {kd k ts : List Tok} (hd : LexAny d kd) (h : LexAny t k) (hr : Lexes r ts) :
    lex (d ++ t ++ "\n        return (" ++ r ++ ");") = kd ++ k ++ [.id "return", .sym '('] ++ ts ++ [.sym ')', .sym ';'] := by
  have l4 : LexAny ");" [.sym ')', .sym ';'] := fun _ => rfl
  have l8 := (((hd.append h).append lex_return).then hr).then l4 ⟨rfl, by decide⟩ []
  have e : lexFrom [] [] = [] := rfl
  rw [List.append_nil, e, List.append_nil] at l8
  exact l8

/-- The call of the text. -/
theorem run_text {p : Prog} {c : Call} {scs : List SStmt} {ax ag : List SExp} {wx wg : Expr} {n : ℕ} (hE : (c.env p.size).Roomy) (hf : p.finals = [wx, wg])
    (tx : wx.type = .point) (tg : wg.type = .point)
    (h : runBody n (c.env p.size) (St.init p.absorbingLength) scs = execAll (c.env p.size) (St.init p.absorbingLength) p.stmts)
    (px : ∀ s, runArgs (c.env p.size) s ax = (eval (c.env p.size) s wx).map fun v => (s, v.args))
    (pg : ∀ s, runArgs (c.env p.size) s ag = (eval (c.env p.size) s wg).map fun v => (s, v.args)) :
    SFun.run n ⟨p.size, p.absorbingLength + 1, scs, ax ++ ag⟩ c = (p.run c).bind fourWords := by
  rw [SFun.run, Prog.run, Prog.runFrom]
  show (runBody n (c.env p.size) (St.init p.absorbingLength) scs >>= _) = _
  rw [h]
  cases execAll (c.env p.size) (St.init p.absorbingLength) p.stmts with
  | none => rfl
  | some s =>
    show (runArgs (c.env p.size) s (ax ++ ag) >>= _) = Option.bind (p.finals.mapM (eval (c.env p.size) s)) _
    rw [run_two (map_args (px s)) (map_args (pg s)), hf]
    simp only [List.mapM_cons, List.mapM_nil]
    cases hx : eval (c.env p.size) s wx with
    | none => rfl
    | some x =>
      cases hg : eval (c.env p.size) s wg with
      | none => rfl
      | some y =>
        replace tx := (eval_ty hx).trans tx
        replace tg := (eval_ty hg).trans tg
        cases x <;> cases tx
        cases y <;> cases tg
        rfl

/-- **C93.** The text that is written for a program is read and run as the program. -/
theorem C93_text {p : Prog} (hp : p.Writable) : ∃ t, p.text = some t ∧ ∀ c : Call, c.proof.length ≤ 2 ^ 256 → c.inst.length ≤ 2 ^ 256 →
    Text.Returns t c ((p.run c).bind fourWords) := by
  obtain ⟨wx, wg, hf, ⟨ox, tx⟩, og, tg⟩ := hp.finals
  obtain ⟨t, k, scs, h1, h2, h3, h4⟩ := renderStmts_renders fun c hc => Stmt.renders (hp.stmts c hc).1 (hp.stmts c hc).2.1 (hp.stmts c hc).2.2
  obtain ⟨tx', ax, ex, ⟨sx, -⟩, px⟩ := ox.renders
  obtain ⟨tg', ag, eg, ⟨sg, -⟩, pg⟩ := og.renders
  obtain ⟨ts, r1, r2⟩ := (sx.1.append sg.1).args
  have htext : p.text = some ("uint256[" ++ toString p.size ++ arrayText ++ toString (p.absorbingLength + 1) ++
      declText ++ t ++ "\n        return (" ++ (tx' ++ ", " ++ tg') ++ ");") := by
    simp only [Prog.text, hf, h1, ex, eg, Option.bind_eq_bind, Option.bind_some]
    exact congrArg some (String.toList_inj.1 (by simp [declText, arrayText]))
  refine ⟨_, htext, fun c hc1 hc2 => ?_⟩
  have hE : (c.env p.size).Roomy := ⟨hp.size, hc1, hc2⟩
  obtain ⟨n₁, h3⟩ := h3
  obtain ⟨n₂, r2⟩ := r2
  obtain ⟨n₃, h4⟩ := h4 _ hE
  refine ⟨⟨p.size, p.absorbingLength + 1, scs, ax ++ ag⟩, max n₁ (max n₂ n₃), fun n hn => ?_⟩
  have m1 : n ≥ n₁ := le_trans (le_max_left _ _) hn
  have m2 : n ≥ n₂ := le_trans (le_trans (le_max_left _ _) (le_max_right _ _)) hn
  have m3 : n ≥ n₃ := le_trans (le_trans (le_max_right _ _) (le_max_right _ _)) hn
  refine ⟨?_, run_text hE hf tx tg (h4 n m3 _ ?_) (fun s => (px _ s hE).1) fun s => (pg _ s hE).1⟩
  · rw [lex_text (lex_head _ _) h2 r1]
    exact pFun_toks (h3 n m1) (r2 n m2)
  · rw [St.init, List.length_replicate]
    exact hp.absorbing

end Verif.Sol
