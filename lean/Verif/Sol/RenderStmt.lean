import Verif.Sol.RenderRun

/-!
# Rendered statements
-/

namespace Verif.Sol
open Verif.Circuit Verif.Ecc

/-! ### Lines -/

/-- A text after which a new token starts, whatever follows. -/
def LexAny (t : String) (k : List Tok) : Prop := ∀ rest, lexFrom [] (t.toList ++ rest) = k ++ lexFrom [] rest

theorem LexAny.append {t t' : String} {k k' : List Tok} (h : LexAny t k) (h' : LexAny t' k') : LexAny (t ++ t') (k ++ k') := by
  intro rest
  rw [String.toList_append, List.append_assoc, h, h', List.append_assoc]

theorem LexAny.then {t t' : String} {k k' : List Tok} (h : LexAny t k) (h' : Lexes t' k') : Lexes (t ++ t') (k ++ k') := by
  intro rest hr
  rw [String.toList_append, List.append_assoc, h, h' rest hr, List.append_assoc]

/-- A text that ends the word before it. -/
structure Sep (t : String) : Prop where
  stop : Stop t.toList
  ne : t.toList ≠ []

theorem Sep.append {t : String} (h : Sep t) (t' : String) : Sep (t ++ t') := by
  obtain ⟨h1, h2⟩ := h
  match hc : t.toList, h2 with
  | c :: cs, _ =>
    rw [hc] at h1
    exact ⟨by rw [String.toList_append, hc]; exact h1, by simp [hc]⟩

theorem Lexes.then {t t' : String} {k k' : List Tok} (h : Lexes t k) (h' : LexAny t' k') (hs : Sep t') : LexAny (t ++ t') (k ++ k') := by
  obtain ⟨hs, hne⟩ := hs
  intro rest
  rw [String.toList_append, List.append_assoc, h, h', List.append_assoc]
  match hc : t'.toList, hne with
  | c :: cs, _ =>
    rw [hc] at hs
    exact hs

/-! ### Parsing -/

/-- The next token closes the body. -/
def Closes : List Tok → Prop
  | .sym '}' :: _ => True
  | .id "return" :: _ => True
  | _ => False

/-- The tokens are one statement. -/
structure IsStmt (k : List Tok) (c : SStmt) : Prop where
  parse : ∃ n₀, ∀ n ≥ n₀, ∀ rest, pStmt n (k ++ rest) = some (c, rest)
  ne : k ≠ []
  opens : ¬Closes k

def IsBody (k : List Tok) (cs : List SStmt) : Prop := ∃ n₀, ∀ n ≥ n₀, ∀ rest, Closes rest → pBody n (k ++ rest) = some (cs, rest)

theorem isBody_nil : IsBody [] [] := by
  refine ⟨1, fun n hn rest hr => ?_⟩
  obtain ⟨n, rfl, -⟩ := ge_add (m := 0) (j := 1) hn
  rw [List.nil_append]
  unfold Closes at hr
  split at hr
  · rfl
  · rfl
  · cases hr

theorem IsStmt.body {k ks : List Tok} {c : SStmt} {cs : List SStmt} (h : IsStmt k c) (h' : IsBody ks cs) : IsBody (k ++ ks) (c :: cs) := by
  obtain ⟨⟨n₁, h1⟩, hne, ho⟩ := h
  obtain ⟨n₂, h2⟩ := h'
  refine ⟨max n₁ n₂ + 1, fun n hn rest hr => ?_⟩
  obtain ⟨n, rfl, hn'⟩ := ge_add hn
  rw [List.append_assoc, pBody]
  · rw [h1 n (by omega)]
    show (pBody n (ks ++ rest) >>= _) = _
    rw [h2 n (by omega) rest hr]
    rfl
  · match k, hne with
    | x :: k, _ =>
      rintro ts hts
      obtain ⟨rfl, -⟩ := List.cons.inj hts
      exact ho trivial
  · match k, hne with
    | x :: k, _ =>
      rintro ts hts
      obtain ⟨rfl, -⟩ := List.cons.inj hts
      exact ho trivial

theorem pRhs_args {ts : List Tok} {as : List SExp} {n : ℕ} (h : ∀ rest, pArgs n (ts ++ .sym ')' :: rest) = some (as, rest)) (rest : List Tok) :
    pRhs n (.sym '=' :: .sym '(' :: (ts ++ .sym ')' :: .sym ';' :: rest)) = some (as, rest) := by
  rw [pRhs, h]
  rfl

/-- `place = (values);` -/
theorem stmt_one {x : String} {k ts : List Tok} {e : SExp} {as : List SExp} (hx : x ≠ "for") (hr : x ≠ "return") (he : IsExpr (.id x :: k) e) (h : IsArgs ts as) :
    IsStmt (.id x :: k ++ [.sym '=', .sym '('] ++ ts ++ [.sym ')', .sym ';']) (.assign [e] as) := by
  obtain ⟨n₁, h1⟩ := he
  obtain ⟨n₂, h2⟩ := h
  refine ⟨⟨max n₁ n₂ + 1, fun n hn rest => ?_⟩, by simp, ?_⟩
  · obtain ⟨n, rfl, hn'⟩ := ge_add hn
    have e1 : .id x :: k ++ [.sym '=', .sym '('] ++ ts ++ [.sym ')', .sym ';'] ++ rest =
        .id x :: k ++ .sym '=' :: .sym '(' :: (ts ++ .sym ')' :: .sym ';' :: rest) := by simp
    rw [e1, pStmt]
    · rw [h1 n (by omega) _ (by simp [Fol])]
      show (pRhs n (.sym '=' :: .sym '(' :: (ts ++ .sym ')' :: .sym ';' :: rest)) >>= _) = _
      rw [pRhs_args (h2 n (by omega))]
      rfl
    · intro v ts' hts
      exact hx (Tok.id.inj (List.cons.inj hts).1)
    · intro ts' hts
      cases (List.cons.inj hts).1
  · intro hc
    simp only [List.cons_append] at hc
    unfold Closes at hc
    split at hc
    · rename_i heq
      cases (List.cons.inj heq).1
    · rename_i heq
      exact hr (Tok.id.inj (List.cons.inj heq).1)
    · exact hc

/-- `(places) = (values);` -/
theorem stmt_many {k ts : List Tok} {es as : List SExp} (he : IsArgs k es) (h : IsArgs ts as) :
    IsStmt (.sym '(' :: k ++ [.sym ')', .sym '=', .sym '('] ++ ts ++ [.sym ')', .sym ';']) (.assign es as) := by
  obtain ⟨n₁, h1⟩ := he
  obtain ⟨n₂, h2⟩ := h
  refine ⟨⟨max n₁ n₂ + 1, fun n hn rest => ?_⟩, by simp, by simp [Closes]⟩
  obtain ⟨n, rfl, hn'⟩ := ge_add hn
  have e1 : .sym '(' :: k ++ [.sym ')', .sym '=', .sym '('] ++ ts ++ [.sym ')', .sym ';'] ++ rest =
      .sym '(' :: (k ++ .sym ')' :: .sym '=' :: .sym '(' :: (ts ++ .sym ')' :: .sym ';' :: rest)) := by simp
  rw [e1, pStmt, h1 n (by omega)]
  show (pRhs n (.sym '=' :: .sym '(' :: (ts ++ .sym ')' :: .sym ';' :: rest)) >>= _) = _
  rw [pRhs_args (h2 n (by omega))]
  rfl

/-- `f(values);` -/
theorem stmt_call {x : String} {k : List Tok} {e : SExp} (hx : x ≠ "for") (hr : x ≠ "return") (he : IsExpr (.id x :: k) e) :
    IsStmt (.id x :: k ++ [.sym ';']) (.eval e) := by
  obtain ⟨n₁, h1⟩ := he
  refine ⟨⟨n₁ + 1, fun n hn rest => ?_⟩, by simp, ?_⟩
  · obtain ⟨n, rfl, hn'⟩ := ge_add hn
    have e1 : .id x :: k ++ [.sym ';'] ++ rest = .id x :: k ++ .sym ';' :: rest := by simp
    rw [e1, pStmt]
    · rw [h1 n (by omega) _ (by simp [Fol])]
      rfl
    · intro v ts' hts
      exact hx (Tok.id.inj (List.cons.inj hts).1)
    · intro ts' hts
      cases (List.cons.inj hts).1
  · intro hc
    simp only [List.cons_append] at hc
    unfold Closes at hc
    split at hc
    · rename_i heq
      cases (List.cons.inj heq).1
    · rename_i heq
      exact hr (Tok.id.inj (List.cons.inj heq).1)
    · exact hc

/-- The tokens of the bound. -/
def boundToks (le : Bool) : List Tok := if le then [.sym '<', .sym '='] else [.sym '<']

theorem pBound_num {n : ℕ} (hn : n ≥ 3) (le : Bool) (b : ℕ) (rest : List Tok) :
    pBound n (boundToks le ++ .num b :: .sym ';' :: rest) = some (le, .num b, .sym ';' :: rest) := by
  obtain ⟨n, rfl, -⟩ := ge_add (m := 0) (j := 3) hn
  cases le <;> rfl

/-- `for (t0 = 0; t0 < b; t0++) { body }` -/
theorem stmt_loop {k : List Tok} {cs : List SStmt} (le : Bool) (b : ℕ) (h : IsBody k cs) :
    IsStmt ([.id "for", .sym '(', .id "t0", .sym '=', .num 0, .sym ';', .id "t0"] ++ boundToks le ++
      [.num b, .sym ';', .id "t0", .sym '+', .sym '+', .sym ')', .sym '{'] ++ k ++ [.sym '}']) (.loop "t0" (.num 0) le (.num b) cs) := by
  obtain ⟨n₁, h1⟩ := h
  refine ⟨⟨max n₁ 3 + 1, fun n hn rest => ?_⟩, by simp, by simp [Closes]⟩
  obtain ⟨n, rfl, hn'⟩ := ge_add hn
  have e1 : [.id "for", .sym '(', .id "t0", .sym '=', .num 0, .sym ';', .id "t0"] ++ boundToks le ++
      [.num b, .sym ';', .id "t0", .sym '+', .sym '+', .sym ')', .sym '{'] ++ k ++ [.sym '}'] ++ rest =
      .id "for" :: .sym '(' :: .id "t0" :: .sym '=' :: .num 0 :: .sym ';' :: .id "t0" :: (boundToks le ++
        .num b :: .sym ';' :: .id "t0" :: .sym '+' :: .sym '+' :: .sym ')' :: .sym '{' :: (k ++ .sym '}' :: rest)) := by simp
  have e2 : ∀ r, pExpr n (.num 0 :: .sym ';' :: r) = some (.num 0, .sym ';' :: r) := by
    intro r
    obtain ⟨n, rfl, -⟩ := ge_add (n := n) (m := 0) (j := 3) (by omega)
    rfl
  rw [e1, pStmt, e2]
  simp only [Option.bind_eq_bind, Option.bind_some]
  rw [pBound_num (by omega)]
  simp only [Option.bind_some, and_self, if_true]
  rw [h1 n (by omega) _ (by simp [Closes])]
  rfl

/-! ### Running -/

/-- The statement of the text does what the statement of the program does. -/
def StmtRuns (c : SStmt) (E : Env) (F : St → Option St) : Prop := ∃ n₀, ∀ n ≥ n₀, ∀ s : St, s.abs.length ≤ 2 ^ 256 → SStmt.run n E s c = F s

theorem save_num {E : Env} (hE : E.Roomy) (s : St) (o : ℕ) (w : Word) : assignTo E s (.index "m" (.num o)) (.w w) = E.save s o w := by
  show ((SExp.num o).run E s >>= _) = _
  rw [run_num]
  by_cases ho : o < 2 ^ 256
  · rw [lit_some ho]
    show E.save s (BitVec.ofNat 256 o).toNat w = _
    rw [ofNat_toNat ho]
  · have := hE.size
    rw [lit_none (by omega), Env.save, if_neg (by omega)]
    rfl

theorem save_comm {E : Env} (s : St) (o : ℕ) (x y : Word) : ((E.save s (o + 1) y).bind fun s => E.save s o x) = (E.save s o x).bind fun s => E.save s (o + 1) y := by
  unfold Env.save
  by_cases h1 : o + 1 < E.size
  · have h0 : o < E.size := by omega
    simp only [h1, h0, if_true, Option.bind_some]
    rw [Function.update_comm (by omega)]
  · simp only [h1, if_false, Option.bind_none]
    split <;> rfl

/-- The places on the left side. -/
def places : Expr → List SExp
  | .memory o .scalar => [.index "m" (.num o)]
  | .memory o .point => [.index "m" (.num o), .index "m" (.num (o + 1))]
  | .temp .scalar => [.var "t0"]
  | .temp .point => [.var "t0", .var "t1"]
  | _ => []

theorem assignAll_one (E : Env) (s : St) (e : SExp) (a : Arg) : assignAll E s [e] [a] = assignTo E s e a := rfl

theorem assignAll_two (E : Env) (s : St) (e e' : SExp) (a a' : Arg) : assignAll E s [e, e'] [a, a'] = (assignTo E s e' a').bind fun s => assignTo E s e a := rfl

theorem assign_put {E : Env} (hE : E.Roomy) (s : St) {l : Expr} (hl : l.isMemory = true ∨ l.isTemp = true) {v : Val} (hv : v.ty = l.type) :
    assignAll E s (places l) v.args = put E s l v := by
  cases l with
  | memory o t =>
    cases t <;> cases v <;> cases hv
    · exact (assignAll_one ..).trans (save_num hE s o _)
    · rw [places, Val.args, assignAll_two, save_num hE]
      simp only [save_num hE]
      exact save_comm s o _ _
  | temp t => cases t <;> cases v <;> cases hv <;> rfl
  | _ => simp [Expr.isMemory, Expr.isTemp] at hl

theorem evalRhs_ty {E : Env} {s : St} {e : Expr} {r : St × Val} (h : evalRhs E s e = some r) : r.2.ty = e.type := by
  by_cases he : ∃ o, e = .hash o
  · obtain ⟨o, rfl⟩ := he
    rw [evalRhs] at h
    simp only [Option.bind_eq_bind, Option.bind_eq_some_iff] at h
    obtain ⟨q, -, h⟩ := h
    cases h
    rfl
  · rw [evalRhs_pure fun o ho => he ⟨o, ho⟩, Option.map_eq_some_iff] at h
    obtain ⟨v, hv, rfl⟩ := h
    exact eval_ty hv

theorem runs_assign {E : Env} (hE : E.Roomy) {l r : Expr} {as : List SExp} (hl : l.isMemory = true ∨ l.isTemp = true) (ht : l.type = r.type)
    (h : ∀ s, runTuple E s as = (evalRhs E s r).map fun q => (q.1, q.2.args)) : StmtRuns (.assign (places l) as) E fun s => exec E s (.assign l r) := by
  refine ⟨1, fun n hn s _ => ?_⟩
  obtain ⟨n, rfl, -⟩ := ge_add (m := 0) (j := 1) hn
  show _ = exec E s (.assign l r)
  rw [SStmt.run, h, exec]
  cases hv : evalRhs E s r with
  | none => rfl
  | some q => exact assign_put hE q.1 hl ((evalRhs_ty hv).trans ht.symm)

/-! ### Absorbing -/

theorem store_length {a a' : List Word} {i : ℕ} {w : Word} (h : store a i w = some a') : a'.length = a.length := by
  unfold store at h
  split at h
  · cases h
    simp
  · cases h

theorem store_lt {a a' : List Word} {i : ℕ} {w : Word} (h : store a i w = some a') : i < a.length := by
  unfold store at h
  split at h
  · assumption
  · cases h

theorem absorb_some {s s' : St} {off : ℕ} {t : Ty} {v : Val} (h : absorb s off t v = some s') : off < s.abs.length ∧ s'.abs.length = s.abs.length := by
  cases t <;> cases v <;> simp only [absorb, Option.map_eq_some_iff, reduceCtorEq] at h
  · obtain ⟨a, ha, rfl⟩ := h
    simp only [updateHashScalar, Option.bind_eq_bind, Option.bind_eq_some_iff] at ha
    obtain ⟨b, h1, h2⟩ := ha
    exact ⟨store_lt h1, (store_length h2).trans (store_length h1)⟩
  · obtain ⟨a, ha, rfl⟩ := h
    simp only [updateHashPoint, Option.bind_eq_bind, Option.bind_eq_some_iff] at ha
    obtain ⟨b, h1, c, h2, h3⟩ := ha
    exact ⟨store_lt h1, ((store_length h3).trans (store_length h2)).trans (store_length h1)⟩

/-- `update_hash_scalar` and `update_hash_point`. -/
def absorbName : Ty → String
  | .scalar => "update_hash_scalar"
  | .point => "update_hash_point"

/-- The call with a value and a position. -/
theorem builtin_absorb {E : Env} {s : St} (hs : s.abs.length ≤ 2 ^ 256) (t : Ty) (v : Val) (hv : v.ty = t) (off : ℕ) :
    ((lit off).bind fun w => builtin E s (absorbName t) (v.args ++ [.absorbing] ++ [.w w])) = (absorb s off t v).map fun s => (s, []) := by
  by_cases ho : off < 2 ^ 256
  · rw [lit_some ho, Option.bind_some]
    cases t <;> cases v <;> cases hv
    · rename_i w
      show Option.map _ (updateHashScalar w s.abs (BitVec.ofNat 256 off).toNat) = Option.map _ (Option.map _ _)
      rw [ofNat_toNat ho, Option.map_map]
      rfl
    · rename_i x y
      show Option.map _ (updateHashPoint x y s.abs (BitVec.ofNat 256 off).toNat) = Option.map _ (Option.map _ _)
      rw [ofNat_toNat ho, Option.map_map]
      rfl
  · rw [lit_none (by omega)]
    cases h : absorb s off t v with
    | none => rfl
    | some s' => exact absurd (absorb_some h).1 (by omega)

/-- The arguments of the call. -/
theorem run_absorb {E : Env} {s : St} (hs : s.abs.length ≤ 2 ^ 256) {t : Ty} {as : List SExp} {p : SExp} {o : Option Val} {off : ℕ}
    (hv : ∀ v, o = some v → v.ty = t) (ha : runArgs E s as = (o.map Val.args).map fun v => (s, v))
    (hp : runArgs E s [p] = ((lit off).map fun v => [Arg.w v]).map fun v => (s, v)) :
    (SExp.call (absorbName t) (as ++ [.var "absorbing"] ++ [p])).run E s = (o.bind (absorb s off t)).map fun s => (s, []) := by
  rw [run_call _ (run_three ha (run_var (a := .absorbing) rfl) hp)]
  cases o with
  | none => rfl
  | some v =>
    have := builtin_absorb (E := E) hs t v (hv v rfl) off
    rw [Option.bind_some, ← this]
    cases lit off <;> rfl

theorem runs_update {E : Env} (hE : E.Roomy) {e : Expr} {as : List SExp} (off : ℕ)
    (h : ∀ s, runArgs E s as = (eval E s e).map fun v => (s, v.args)) :
    StmtRuns (.eval (.call (absorbName e.type) (as ++ [.var "absorbing"] ++ [.num off]))) E fun s => exec E s (.updateHash e off) := by
  refine ⟨1, fun n hn s hs => ?_⟩
  obtain ⟨n, rfl, -⟩ := ge_add (m := 0) (j := 1) hn
  show _ = exec E s (.updateHash e off)
  rw [SStmt.run, run_absorb hs (fun v hv => eval_ty hv) (map_args (h s)) (run_lit E s off), exec]
  cases eval E s e with
  | none => rfl
  | some v =>
    show Option.map _ (Option.map _ (absorb s off e.type v)) = absorb s off e.type v
    cases absorb s off e.type v <;> rfl

/-! ### Loops -/

/-- The variables with the counter. -/
def St.at (s : St) (i : ℕ) : St := { s with t0 := BitVec.ofNat 256 i }

/-- `a + t0 * b`. -/
def linear (a b : ℕ) : SExp := .bin '+' (.num a) (.bin '*' (.var "t0") (.num b))

theorem run_linear (E : Env) (s : St) {i a b : ℕ} (hi : i < 2 ^ 256) (hb : b < 2 ^ 256) :
    (linear a b).run E (s.at i) = ((lit (a + i * b)).map .w).map fun v => (s.at i, [v]) := by
  simp only [linear, SExp.run]
  by_cases ha : a < 2 ^ 256
  · simp only [lit_some ha, lit_some hb]
    show ((arith '*' (BitVec.ofNat 256 i) (BitVec.ofNat 256 b) >>= fun v => pure (s.at i, [Arg.w v])) >>= fun r : St × List Arg => _) = _
    rw [arith, ofNat_toNat hi, ofNat_toNat hb]
    by_cases hm : i * b < 2 ^ 256
    · rw [if_pos hm]
      show (arith '+' (BitVec.ofNat 256 a) (BitVec.ofNat 256 i * BitVec.ofNat 256 b) >>= fun v => pure (s.at i, [Arg.w v])) = _
      rw [arith, ofNat_toNat ha, BitVec.toNat_mul, ofNat_toNat hi, ofNat_toNat hb, Nat.mod_eq_of_lt hm]
      by_cases hs : a + i * b < 2 ^ 256
      · rw [if_pos hs, lit_some hs, BitVec.ofNat_add, BitVec.ofNat_mul]
        rfl
      · rw [if_neg hs, lit_none (by omega)]
        rfl
    · rw [if_neg hm, lit_none (by omega)]
      rfl
  · rw [lit_none (n := a) (by omega), lit_none (n := a + i * b) (by omega)]
    rfl

theorem run_index_linear (E : Env) (s : St) {f : String} {i a b : ℕ} (hi : i < 2 ^ 256) (hb : b < 2 ^ 256)
    (h : ∀ n, 2 ^ 256 ≤ n → element E (s.at i) f n = none) :
    (SExp.index f (linear a b)).run E (s.at i) = ((element E (s.at i) f (a + i * b)).map .w).map fun v => (s.at i, [v]) := by
  rw [SExp.run, run_linear E s hi hb]
  by_cases hn : a + i * b < 2 ^ 256
  · rw [lit_some hn]
    show (element E (s.at i) f (BitVec.ofNat 256 (a + i * b)).toNat >>= _) = _
    rw [ofNat_toNat hn]
    cases element E (s.at i) f (a + i * b) <;> rfl
  · rw [lit_none (by omega), h _ (by omega)]
    rfl

/-- A loop over the rounds of `G`. -/
theorem run_rounds {E : Env} {body : SStmt} {N B : ℕ} {le : Bool} {F : ℕ → St → Option St} {G : List ℕ → St → Option St} {m₀ : ℕ}
    (hN : N < 2 ^ 256) (hB : B < 2 ^ 256) (hle : if le = true then B + 1 = N else B = N)
    (h0 : ∀ s, G [] s = some s) (h1 : ∀ i is s, G (i :: is) s = (F i s).bind (G is))
    (hF : ∀ n ≥ m₀, ∀ i < N, ∀ s : St, s.abs.length ≤ 2 ^ 256 → SStmt.run n E (s.at i) body = (F i s).map fun s => s.at i)
    (hA : ∀ i s s', F i s = some s' → s'.abs.length = s.abs.length) :
    ∀ (k i n : ℕ) (s : St), i + k = N → n ≥ m₀ + k + 3 → s.abs.length ≤ 2 ^ 256 →
      runLoop n E (s.at i) "t0" le (.num B) [body] = (G (List.range' i k) s).map fun s => s.at N := by
  intro k
  induction k with
  | zero =>
    intro i n s hi hn hs
    obtain ⟨n, rfl, -⟩ := ge_add (n := n) (m := m₀) (j := 1) (by omega)
    simp only [runLoop, SExp.run, lit_some hB]
    have hc : ¬((BitVec.ofNat 256 i).toNat < (BitVec.ofNat 256 B).toNat ∨ (le = true ∧ (BitVec.ofNat 256 i).toNat = (BitVec.ofNat 256 B).toNat)) := by
      rw [ofNat_toNat hB, ofNat_toNat (by omega)]
      cases le <;> simp at hle ⊢ <;> omega
    show (if ((BitVec.ofNat 256 i).toNat < (BitVec.ofNat 256 B).toNat ∨ (le = true ∧ (BitVec.ofNat 256 i).toNat = (BitVec.ofNat 256 B).toNat)) then _ else some (s.at i)) = _
    rw [if_neg hc, List.range'_zero, h0]
    obtain rfl : i = N := by omega
    rfl
  | succ k ih =>
    intro i n s hi hn hs
    obtain ⟨n, rfl, hn'⟩ := ge_add (n := n) (m := m₀ + k + 3) (j := 1) (by omega)
    simp only [runLoop, SExp.run, lit_some hB]
    have hc : (BitVec.ofNat 256 i).toNat < (BitVec.ofNat 256 B).toNat ∨ (le = true ∧ (BitVec.ofNat 256 i).toNat = (BitVec.ofNat 256 B).toNat) := by
      rw [ofNat_toNat hB, ofNat_toNat (by omega)]
      cases le <;> simp at hle ⊢ <;> omega
    show (if ((BitVec.ofNat 256 i).toNat < (BitVec.ofNat 256 B).toNat ∨ (le = true ∧ (BitVec.ofNat 256 i).toNat = (BitVec.ofNat 256 B).toNat)) then
      runBody n E (s.at i) [body] >>= _ else some (s.at i)) = _
    rw [if_pos hc, List.range'_succ, h1]
    obtain ⟨j, rfl, -⟩ := ge_add (n := n) (m := m₀ + k + 1) (j := 2) (by omega)
    have hb : runBody (j + 2) E (s.at i) [body] = (F i s).map fun s => s.at i := by
      rw [runBody, hF (j + 1) (by omega) i (by omega) s hs]
      cases F i s <;> rfl
    rw [hb]
    cases hf : F i s with
    | none => rfl
    | some s' =>
      have ha := hA i s s' hf
      show ((arith '+' (BitVec.ofNat 256 i) 1) >>= fun c => assignTo E (s'.at i) (.var "t0") (.w c) >>= fun s => runLoop (j + 2) E s "t0" le (.num B) [body]) = _
      rw [arith, ofNat_toNat (by omega), if_pos (show i + (1 : Word).toNat < 2 ^ 256 by rw [show (1 : Word).toNat = 1 from rfl]; omega)]
      show runLoop (j + 2) E { s'.at i with t0 := BitVec.ofNat 256 i + 1 } "t0" le (.num B) [body] = _
      have e : ({ s'.at i with t0 := BitVec.ofNat 256 i + 1 } : St) = s'.at (i + 1) := by
        rw [St.at, St.at, BitVec.ofNat_add]
        rfl
      rw [e]
      exact ih (i + 1) (j + 2) s' (by omega) (by omega) (by omega)

theorem runs_loop {E : Env} {body : SStmt} {N B : ℕ} {le : Bool} {F : ℕ → St → Option St} {G : List ℕ → St → Option St} {m₀ : ℕ}
    (hN : N < 2 ^ 256) (hB : B < 2 ^ 256) (hle : if le = true then B + 1 = N else B = N)
    (h0 : ∀ s, G [] s = some s) (h1 : ∀ i is s, G (i :: is) s = (F i s).bind (G is))
    (hF : ∀ n ≥ m₀, ∀ i < N, ∀ s : St, s.abs.length ≤ 2 ^ 256 → SStmt.run n E (s.at i) body = (F i s).map fun s => s.at i)
    (hA : ∀ i s s', F i s = some s' → s'.abs.length = s.abs.length) :
    StmtRuns (.loop "t0" (.num 0) le (.num B) [body]) E fun s => (G (List.range N) s).map fun s => s.at N := by
  refine ⟨m₀ + N + 4, fun n hn s hs => ?_⟩
  obtain ⟨n, rfl, hn'⟩ := ge_add (n := n) (m := m₀ + N + 3) (j := 1) hn
  have := run_rounds hN hB hle h0 h1 hF hA N 0 n s (by omega) hn' hs
  rw [← List.range_eq_range'] at this
  exact this

/-- A round of the loop over `proof`. -/
def hashRound (E : Env) (memStart memStep absStart absStep : ℕ) (t : Ty) (i : ℕ) (s : St) : Option St :=
  (readArr E.proof (memStart + i * memStep) t).bind (absorb s (absStart + i * absStep) t)

theorem hashRounds_cons (E : Env) (a b c d : ℕ) (t : Ty) (i : ℕ) (is : List ℕ) (s : St) :
    hashRounds E a b c d t (i :: is) s = (hashRound E a b c d t i s).bind (hashRounds E a b c d t is) := by
  rw [hashRounds, hashRound, Option.bind_assoc]
  rfl

/-- The elements of `proof` in a round. -/
def proofAt (a b : ℕ) : Ty → List SExp
  | .scalar => [.index "proof" (linear a b)]
  | .point => [.index "proof" (linear a b), .index "proof" (linear (a + 1) b)]

theorem run_proofAt {E : Env} (hE : E.Roomy) (s : St) {i a b : ℕ} (hi : i < 2 ^ 256) (hb : b < 2 ^ 256) (t : Ty) :
    runArgs E (s.at i) (proofAt a b t) = ((readArr E.proof (a + i * b) t).map Val.args).map fun v => (s.at i, v) := by
  have h1 : ∀ c, runArgs E (s.at i) [.index "proof" (linear c b)] = ((E.proof[c + i * b]?).map fun v => [Arg.w v]).map fun v => (s.at i, v) := by
    intro c
    rw [runArgs_one (run_index_linear E s hi hb fun n => element_proof hE _), element]
    cases E.proof[c + i * b]? <;> rfl
  cases t with
  | scalar =>
    rw [proofAt, h1, readArr]
    cases E.proof[a + i * b]? <;> rfl
  | point =>
    have := run_two (h1 a) (h1 (a + 1))
    rw [List.cons_append, List.nil_append] at this
    rw [proofAt, this, readArr, show a + 1 + i * b = a + i * b + 1 by ring]
    cases E.proof[a + i * b]? with
    | none => rfl
    | some x => cases E.proof[a + i * b + 1]? <;> rfl

theorem absorb_at (s : St) (i off : ℕ) (t : Ty) (v : Val) : absorb (s.at i) off t v = (absorb s off t v).map fun s => s.at i := by
  cases t <;> cases v <;> try rfl
  · rename_i w
    show Option.map _ (updateHashScalar w s.abs off) = Option.map _ (Option.map _ (updateHashScalar w s.abs off))
    cases updateHashScalar w s.abs off <;> rfl
  · rename_i x y
    show Option.map _ (updateHashPoint x y s.abs off) = Option.map _ (Option.map _ (updateHashPoint x y s.abs off))
    cases updateHashPoint x y s.abs off <;> rfl

theorem runs_hash {E : Env} (hE : E.Roomy) {memStart memEnd memStep absStart absStep : ℕ} {t : Ty} (h1 : memStart ≤ memEnd) (h2 : memStep ≠ 0)
    (h3 : memEnd + 1 < 2 ^ 256) (h4 : memStep < 2 ^ 256) (h5 : absStep < 2 ^ 256) :
    StmtRuns (.loop "t0" (.num 0) true (.num ((memEnd - memStart) / memStep))
      [.eval (.call (absorbName t) (proofAt memStart memStep t ++ [.var "absorbing"] ++ [linear absStart absStep]))]) E
      fun s => exec E s (.loop memStart memEnd memStep absStart absStep t) := by
  have hd : (memEnd - memStart) / memStep ≤ memEnd := (Nat.div_le_self _ _).trans (by omega)
  have key := runs_loop (E := E) (body := .eval (.call (absorbName t) (proofAt memStart memStep t ++ [.var "absorbing"] ++ [linear absStart absStep])))
    (N := (memEnd - memStart) / memStep + 1) (B := (memEnd - memStart) / memStep) (le := true)
    (F := hashRound E memStart memStep absStart absStep t) (G := hashRounds E memStart memStep absStart absStep t) (m₀ := 1) (by omega) (by omega)
    (by simp) (fun s => rfl) (fun i is s => hashRounds_cons ..) ?_ ?_
  · obtain ⟨n₀, key⟩ := key
    refine ⟨n₀, fun n hn s hs => ?_⟩
    rw [key n hn s hs]
    show _ = exec E s (.loop memStart memEnd memStep absStart absStep t)
    rw [exec, if_pos ⟨h1, h2⟩]
    show Option.map _ (hashRounds E memStart memStep absStart absStep t (List.range ((memEnd - memStart) / memStep + 1)) s) =
      (hashRounds E memStart memStep absStart absStep t (List.range ((memEnd - memStart) / memStep + 1)) s >>= _)
    cases hashRounds E memStart memStep absStart absStep t (List.range ((memEnd - memStart) / memStep + 1)) s <;> rfl
  · intro n hn i hi s hs
    obtain ⟨n, rfl, -⟩ := ge_add (m := 0) (j := 1) hn
    have hi' : i < 2 ^ 256 := by omega
    have hp : runArgs E (s.at i) [linear absStart absStep] = ((lit (absStart + i * absStep)).map fun v => [Arg.w v]).map fun v => (s.at i, v) := by
      rw [runArgs_one (run_linear E s hi' h5)]
      cases lit (absStart + i * absStep) <;> rfl
    rw [SStmt.run, run_absorb (s := s.at i) hs (fun v hv => readArr_ty hv) (run_proofAt hE s hi' h4 t) hp, hashRound]
    cases readArr E.proof (memStart + i * memStep) t with
    | none => rfl
    | some v =>
      rw [Option.bind_some, Option.bind_some, absorb_at]
      cases absorb s (absStart + i * absStep) t v <;> rfl
  · intro i s s' h
    rw [hashRound, Option.bind_eq_some_iff] at h
    obtain ⟨v, -, h⟩ := h
    exact (absorb_some h).2

/-- A round of the loop over `m`. -/
def mulRound (E : Env) (start step : ℕ × ℕ × ℕ) (i : ℕ) (s : St) : Option St := do
  let a ← E.load s (start.2.1 + i * step.2.1)
  let b ← E.load s (start.2.2 + i * step.2.2)
  E.save s (start.1 + i * step.1) (mulmod a b)

theorem mulRounds_cons (E : Env) (start step : ℕ × ℕ × ℕ) (i : ℕ) (is : List ℕ) (s : St) :
    mulRounds E start step (i :: is) s = (mulRound E start step i s).bind (mulRounds E start step is) := by
  rw [mulRounds, mulRound]
  cases E.load s (start.2.1 + i * step.2.1) with
  | none => rfl
  | some a => cases E.load s (start.2.2 + i * step.2.2) <;> rfl

theorem save_linear {E : Env} (hE : E.Roomy) (s : St) {i a b : ℕ} (hi : i < 2 ^ 256) (hb : b < 2 ^ 256) (w : Word) :
    assignTo E (s.at i) (.index "m" (linear a b)) (.w w) = (E.save s (a + i * b) w).map fun s => s.at i := by
  show ((linear a b).run E (s.at i) >>= _) = _
  rw [run_linear E s hi hb]
  by_cases ho : a + i * b < 2 ^ 256
  · rw [lit_some ho]
    show E.save (s.at i) (BitVec.ofNat 256 (a + i * b)).toNat w = _
    rw [ofNat_toNat ho]
    unfold Env.save
    split <;> rfl
  · have := hE.size
    rw [lit_none (by omega), Env.save, if_neg (by omega)]
    rfl

theorem runs_mul {E : Env} (hE : E.Roomy) {start step : ℕ × ℕ × ℕ} {N : ℕ} (hN : N < 2 ^ 256) (h1 : step.1 < 2 ^ 256) (h2 : step.2.1 < 2 ^ 256)
    (h3 : step.2.2 < 2 ^ 256) :
    StmtRuns (.loop "t0" (.num 0) false (.num N) [.assign [.index "m" (linear start.1 step.1)]
      [.call "mulmod" ([.index "m" (linear start.2.1 step.2.1)] ++ [.index "m" (linear start.2.2 step.2.2)] ++ [.var "q_mod"])]]) E
      fun s => exec E s (.mulLoop start step N .scalar) := by
  have key := runs_loop (E := E) (body := .assign [.index "m" (linear start.1 step.1)]
      [.call "mulmod" ([.index "m" (linear start.2.1 step.2.1)] ++ [.index "m" (linear start.2.2 step.2.2)] ++ [.var "q_mod"])])
    (N := N) (B := N) (le := false) (F := mulRound E start step) (G := mulRounds E start step) (m₀ := 1) hN hN
    (by simp) (fun s => rfl) (fun i is s => mulRounds_cons ..) ?_ ?_
  · obtain ⟨n₀, key⟩ := key
    refine ⟨n₀, fun n hn s hs => ?_⟩
    rw [key n hn s hs]
    show Option.map _ (mulRounds E start step (List.range N) s) = (mulRounds E start step (List.range N) s >>= _)
    cases mulRounds E start step (List.range N) s <;> rfl
  · intro n hn i hi s hs
    obtain ⟨n, rfl, -⟩ := ge_add (m := 0) (j := 1) hn
    have hi' : i < 2 ^ 256 := by omega
    have hp : ∀ a b, b < 2 ^ 256 → runArgs E (s.at i) [.index "m" (linear a b)] = ((E.load s (a + i * b)).map fun v => [Arg.w v]).map fun v => (s.at i, v) := by
      intro a b hb
      rw [runArgs_one (run_index_linear E s hi' hb fun n => element_m hE _), element]
      show Option.map _ (Option.map _ (E.load s (a + i * b))) = _
      cases E.load s (a + i * b) <;> rfl
    rw [SStmt.run, runTuple, run_call _ (run_three (hp _ _ h2) (hp _ _ h3) (run_var (a := .w qMod) rfl)), mulRound]
    cases E.load s (start.2.1 + i * step.2.1) with
    | none => rfl
    | some a =>
      cases E.load s (start.2.2 + i * step.2.2) with
      | none => rfl
      | some b =>
        show (builtin E (s.at i) "mulmod" [.w a, .w b, .w qMod] >>= _) = _
        rw [builtin_mulmod]
        exact save_linear hE s hi' h1 _
  · intro i s s' h
    simp only [mulRound, Option.bind_eq_bind, Option.bind_eq_some_iff] at h
    obtain ⟨a, -, b, -, h⟩ := h
    unfold Env.save at h
    split at h
    · cases h
      rfl
    · cases h

end Verif.Sol
