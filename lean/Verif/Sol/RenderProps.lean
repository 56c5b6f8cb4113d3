import Verif.Sol.Render

/-!
# Reading rendered text

`Says t as`: the text `t` is a list of expressions separated by commas, and `as` are their trees.
-/

namespace Verif.Sol

/-! ### Tokens -/

/-- The text that follows does not continue a word. -/
def Stop : List Char → Prop
  | [] => True
  | c :: _ => wordChar c = false

def Lexes (t : String) (k : List Tok) : Prop := ∀ rest, Stop rest → lexFrom [] (t.toList ++ rest) = k ++ lexFrom [] rest

theorem lexFrom_word : ∀ (u w rest : List Char), (∀ c ∈ u, wordChar c = true) → lexFrom w (u ++ rest) = lexFrom (w ++ u) rest
  | [], w, rest, _ => by simp
  | c :: u, w, rest, h => by
    rw [List.cons_append, lexFrom, if_pos (h c (List.mem_cons_self ..)), lexFrom_word u _ rest fun d hd => h d (List.mem_cons_of_mem _ hd)]
    simp

theorem lexFrom_stop {w : List Char} (hw : w ≠ []) : ∀ {rest : List Char}, Stop rest → lexFrom w rest = wordTok w :: lexFrom [] rest
  | [], _ => by simp [lexFrom, hw]
  | c :: cs, h => by simp [lexFrom, hw, show wordChar c = false from h]

theorem lexes_word {t : String} (h0 : t.toList ≠ []) (h : ∀ c ∈ t.toList, wordChar c = true) : Lexes t [wordTok t.toList] := by
  intro rest hr
  rw [lexFrom_word _ _ _ h, List.nil_append, lexFrom_stop h0 hr]
  rfl

/-- A name: a word that does not consist of digits. -/
def Name (x : String) : Prop := x.toList ≠ [] ∧ (∀ c ∈ x.toList, wordChar c = true) ∧ x.toList.all Char.isDigit = false

instance (x : String) : Decidable (Name x) := by
  unfold Name
  infer_instance

theorem lexes_name {x : String} (h : Name x) : Lexes x [.id x] := by
  have := lexes_word h.1 h.2.1
  rwa [wordTok, h.2.2, if_neg (by simp), String.ofList_toList] at this

theorem lexes_num (n : ℕ) : Lexes (toString n) [.num n] := by
  have hl : (toString n : String).toList = Nat.toDigits 10 n := Nat.toList_repr
  have hd : ∀ c ∈ Nat.toDigits 10 n, c.isDigit = true := fun c hc => Nat.isDigit_of_mem_toDigits (by omega) (by omega) hc
  have := lexes_word (t := toString n) (by rw [hl]; exact List.ne_nil_of_length_pos Nat.length_toDigits_pos)
    (by rw [hl]; intro c hc; simp [wordChar, Char.isAlphanum, hd c hc])
  rw [hl, wordTok, if_pos (List.all_eq_true.2 hd), Nat.ofDigitChars_toDigits (by omega) (by omega)] at this
  exact this

/-- Two texts with a separator that starts with no letter and ends with none. -/
theorem Lexes.append {t t' sep : String} {k k' ks : List Tok} (h : Lexes t k) (h' : Lexes t' k') (hs : Stop sep.toList) (hne : sep.toList ≠ [])
    (hsep : ∀ rest, lexFrom [] (sep.toList ++ rest) = ks ++ lexFrom [] rest) : Lexes (t ++ sep ++ t') (k ++ ks ++ k') := by
  intro rest hr
  rw [String.toList_append, String.toList_append, List.append_assoc, List.append_assoc, h, hsep, h' rest hr]
  · simp
  · match hc : sep.toList, hne with
    | c :: cs, _ =>
      rw [hc] at hs
      exact hs

/-- A text between two pieces, of which the second starts with no letter. -/
theorem Lexes.between {t pre post : String} {k k1 k2 : List Tok} (h : Lexes t k) (h1 : ∀ rest, lexFrom [] (pre.toList ++ rest) = k1 ++ lexFrom [] rest)
    (hs : Stop post.toList) (hne : post.toList ≠ []) (h2 : ∀ rest, lexFrom [] (post.toList ++ rest) = k2 ++ lexFrom [] rest) (rest : List Char) :
    lexFrom [] ((pre ++ t ++ post).toList ++ rest) = k1 ++ k ++ k2 ++ lexFrom [] rest := by
  rw [String.toList_append, String.toList_append, List.append_assoc, List.append_assoc, h1, h, h2]
  · simp
  · match hc : post.toList, hne with
    | c :: cs, _ =>
      rw [hc] at hs
      exact hs

/-! ### Expressions -/

/-- The next token is none of these. -/
def Fol (bad : List Char) : List Tok → Prop
  | .sym c :: _ => c ∉ bad
  | _ => True

def IsAtom (ts : List Tok) (a : SExp) : Prop := ∃ n₀, ∀ n ≥ n₀, ∀ rest, Fol ['(', '['] rest → pAtom n (ts ++ rest) = some (a, rest)
def IsTerm (ts : List Tok) (a : SExp) : Prop := ∃ n₀, ∀ n ≥ n₀, ∀ rest, Fol ['(', '[', '*'] rest → pTerm n (ts ++ rest) = some (a, rest)
def IsExpr (ts : List Tok) (a : SExp) : Prop := ∃ n₀, ∀ n ≥ n₀, ∀ rest, Fol ['(', '[', '*', '+', '-'] rest → pExpr n (ts ++ rest) = some (a, rest)
def IsArgs (ts : List Tok) (as : List SExp) : Prop := ∃ n₀, ∀ n ≥ n₀, ∀ rest, pArgs n (ts ++ .sym ')' :: rest) = some (as, rest)

theorem Fol.mono {a b : List Char} (h : ∀ c ∈ a, c ∈ b) : ∀ {ts : List Tok}, Fol b ts → Fol a ts
  | [], _ => trivial
  | .sym _ :: _, hf => fun hc => hf (h _ hc)
  | .id _ :: _, _ => trivial
  | .num _ :: _, _ => trivial

theorem ge_add {n m j : ℕ} (h : n ≥ m + j) : ∃ k, n = k + j ∧ k ≥ m := ⟨n - j, by omega, by omega⟩

theorem atom_num (n : ℕ) : IsAtom [.num n] (.num n) := by
  refine ⟨1, fun k hk rest _ => ?_⟩
  obtain ⟨k, rfl, -⟩ := ge_add (m := 0) (j := 1) hk
  rfl

theorem atom_var (x : String) : IsAtom [.id x] (.var x) := by
  refine ⟨1, fun k hk rest hr => ?_⟩
  obtain ⟨k, rfl, -⟩ := ge_add (m := 0) (j := 1) hk
  show pAtom (k + 1) (.id x :: rest) = _
  rw [pAtom]
  · rintro ts rfl
    exact hr (by simp)
  · rintro ts rfl
    exact hr (by simp)

theorem atom_index (a : String) {ts : List Tok} {i : SExp} (h : IsExpr ts i) : IsAtom (.id a :: .sym '[' :: ts ++ [.sym ']']) (.index a i) := by
  obtain ⟨n₀, h⟩ := h
  refine ⟨n₀ + 1, fun k hk rest hr => ?_⟩
  obtain ⟨k, rfl, hk'⟩ := ge_add hk
  have := h k hk' (.sym ']' :: rest) (by simp [Fol])
  simp only [List.cons_append, List.append_assoc, List.nil_append, pAtom, this, Option.bind_eq_bind, Option.bind_some]
  rfl

theorem atom_call (f : String) {ts : List Tok} {as : List SExp} (h : IsArgs ts as) : IsAtom (.id f :: .sym '(' :: ts ++ [.sym ')']) (.call f as) := by
  obtain ⟨n₀, h⟩ := h
  refine ⟨n₀ + 1, fun k hk rest hr => ?_⟩
  obtain ⟨k, rfl, hk'⟩ := ge_add hk
  simp only [List.cons_append, List.append_assoc, List.nil_append, pAtom, h k hk' rest, Option.bind_eq_bind, Option.bind_some]
  rfl

theorem pProd_end {n : ℕ} {a : SExp} {rest : List Tok} (h : Fol ['(', '[', '*'] rest) : pProd (n + 1) a rest = some (a, rest) := by
  rw [pProd]
  rintro ts rfl
  exact h (by simp)

theorem pSum_end {n : ℕ} {a : SExp} {rest : List Tok} (h : Fol ['(', '[', '*', '+', '-'] rest) : pSum (n + 1) a rest = some (a, rest) := by
  rw [pSum]
  · rintro ts rfl
    exact h (by simp)
  · rintro ts rfl
    exact h (by simp)

theorem IsAtom.term {ts : List Tok} {a : SExp} (h : IsAtom ts a) : IsTerm ts a := by
  obtain ⟨n₀, h⟩ := h
  refine ⟨n₀ + 2, fun k hk rest hr => ?_⟩
  obtain ⟨j, rfl, hk'⟩ := ge_add hk
  rw [pTerm, h (j + 1) (by omega) rest (hr.mono (by simp))]
  exact pProd_end hr

theorem IsTerm.expr {ts : List Tok} {a : SExp} (h : IsTerm ts a) : IsExpr ts a := by
  obtain ⟨n₀, h⟩ := h
  refine ⟨n₀ + 2, fun k hk rest hr => ?_⟩
  obtain ⟨j, rfl, hk'⟩ := ge_add hk
  rw [pExpr, h (j + 1) (by omega) rest (hr.mono (by simp))]
  exact pSum_end hr

theorem IsAtom.mul {ts ts' : List Tok} {a b : SExp} (h : IsAtom ts a) (h' : IsAtom ts' b) : IsTerm (ts ++ .sym '*' :: ts') (.bin '*' a b) := by
  obtain ⟨n, h⟩ := h
  obtain ⟨n', h'⟩ := h'
  refine ⟨max n n' + 3, fun k hk rest hr => ?_⟩
  obtain ⟨k, rfl, hk'⟩ := ge_add hk
  rw [pTerm, List.append_assoc, List.cons_append, h (k + 2) (by omega) _ (by simp [Fol])]
  show pProd (k + 2) a (.sym '*' :: (ts' ++ rest)) = _
  rw [pProd, h' (k + 1) (by omega) rest (hr.mono (by simp))]
  exact pProd_end hr

theorem IsTerm.add {ts ts' : List Tok} {a b : SExp} (h : IsTerm ts a) (h' : IsTerm ts' b) : IsExpr (ts ++ .sym '+' :: ts') (.bin '+' a b) := by
  obtain ⟨n, h⟩ := h
  obtain ⟨n', h'⟩ := h'
  refine ⟨max n n' + 3, fun k hk rest hr => ?_⟩
  obtain ⟨k, rfl, hk'⟩ := ge_add hk
  rw [pExpr, List.append_assoc, List.cons_append, h (k + 2) (by omega) _ (by simp [Fol])]
  show pSum (k + 2) a (.sym '+' :: (ts' ++ rest)) = _
  rw [pSum, h' (k + 1) (by omega) rest (hr.mono (by simp))]
  exact pSum_end hr

theorem IsTerm.sub {ts ts' : List Tok} {a b : SExp} (h : IsTerm ts a) (h' : IsTerm ts' b) : IsExpr (ts ++ .sym '-' :: ts') (.bin '-' a b) := by
  obtain ⟨n, h⟩ := h
  obtain ⟨n', h'⟩ := h'
  refine ⟨max n n' + 3, fun k hk rest hr => ?_⟩
  obtain ⟨k, rfl, hk'⟩ := ge_add hk
  rw [pExpr, List.append_assoc, List.cons_append, h (k + 2) (by omega) _ (by simp [Fol])]
  show pSum (k + 2) a (.sym '-' :: (ts' ++ rest)) = _
  rw [pSum, h' (k + 1) (by omega) rest (hr.mono (by simp))]
  exact pSum_end hr

theorem IsExpr.args {ts : List Tok} {a : SExp} (h : IsExpr ts a) : IsArgs ts [a] := by
  obtain ⟨n₀, h⟩ := h
  refine ⟨n₀ + 1, fun k hk rest => ?_⟩
  obtain ⟨k, rfl, hk'⟩ := ge_add hk
  rw [pArgs, h k hk' _ (by simp [Fol])]
  rfl

theorem IsExpr.cons {ts ts' : List Tok} {a : SExp} {as : List SExp} (h : IsExpr ts a) (h' : IsArgs ts' as) :
    IsArgs (ts ++ .sym ',' :: ts') (a :: as) := by
  obtain ⟨n, h⟩ := h
  obtain ⟨n', h'⟩ := h'
  refine ⟨max n n' + 1, fun k hk rest => ?_⟩
  obtain ⟨k, rfl, hk'⟩ := ge_add hk
  rw [List.append_assoc, List.cons_append, pArgs, h k (by omega) _ (by simp [Fol])]
  simp only [Option.bind_eq_bind, Option.bind_some, h' k (by omega) rest]
  rfl

/-! ### Text -/

/-- Expressions with their tokens, and the tokens of the list. -/
def joined : List (List Tok × SExp) → List Tok
  | [] => []
  | [x] => x.1
  | x :: y :: l => x.1 ++ .sym ',' :: joined (y :: l)

theorem joined_cons (x : List Tok × SExp) {l : List (List Tok × SExp)} (h : l ≠ []) : joined (x :: l) = x.1 ++ .sym ',' :: joined l := by
  match l, h with
  | y :: l, _ => rfl

theorem joined_append : ∀ {a b : List (List Tok × SExp)}, a ≠ [] → b ≠ [] → joined (a ++ b) = joined a ++ [.sym ','] ++ joined b
  | [x], b, _, hb => by simp [joined_cons x hb, joined]
  | x :: y :: a, b, _, hb => by
    rw [List.cons_append, joined_cons x (by simp), joined_append (a := y :: a) (by simp) hb, joined_cons x (by simp)]
    simp

def Says (t : String) (as : List SExp) : Prop :=
  ∃ parts : List (List Tok × SExp), parts ≠ [] ∧ parts.map Prod.snd = as ∧ (∀ x ∈ parts, IsExpr x.1 x.2) ∧ Lexes t (joined parts)

theorem joined_args : ∀ {parts : List (List Tok × SExp)}, parts ≠ [] → (∀ x ∈ parts, IsExpr x.1 x.2) → IsArgs (joined parts) (parts.map Prod.snd)
  | [x], _, h => (h x (by simp)).args
  | x :: y :: l, _, h => (h x (by simp)).cons (joined_args (parts := y :: l) (by simp) fun z hz => h z (List.mem_cons_of_mem _ hz))

/-- A text that is read as a list of arguments. -/
theorem Says.args {t : String} {as : List SExp} (h : Says t as) : ∃ ts, Lexes t ts ∧ IsArgs ts as := by
  obtain ⟨parts, h1, rfl, h2, h3⟩ := h
  exact ⟨_, h3, joined_args h1 h2⟩

theorem Says.expr {t : String} {a : SExp} (h : Says t [a]) : ∃ ts, Lexes t ts ∧ IsExpr ts a := by
  obtain ⟨parts, h1, h, h2, h3⟩ := h
  match parts, h with
  | [x], h =>
    obtain rfl : x.2 = a := by simpa using h
    exact ⟨_, h3, h2 x (by simp)⟩

theorem says_expr {t : String} {ts : List Tok} {a : SExp} (h : Lexes t ts) (h' : IsExpr ts a) : Says t [a] :=
  ⟨[(ts, a)], by simp, rfl, by simpa using h', h⟩

theorem says_num (n : ℕ) : Says (toString n) [.num n] := says_expr (lexes_num n) (atom_num n).term.expr

theorem says_var {x : String} (h : Name x) : Says x [.var x] := says_expr (lexes_name h) (atom_var x).term.expr

theorem Says.append {t t' : String} {as as' : List SExp} (h : Says t as) (h' : Says t' as') : Says (t ++ ", " ++ t') (as ++ as') := by
  obtain ⟨p, h1, rfl, h2, h3⟩ := h
  obtain ⟨p', h1', rfl, h2', h3'⟩ := h'
  refine ⟨p ++ p', by simp [h1], by simp, fun x hx => ?_, ?_⟩
  · rcases List.mem_append.1 hx with hx | hx
    · exact h2 x hx
    · exact h2' x hx
  · rw [joined_append h1 h1']
    exact h3.append h3' rfl (by decide) fun _ => rfl

/-- Reading `name(` or `name[`. -/
theorem lexFrom_open {f : String} (hf : Name f) {c : Char} (hc : wordChar c = false) (hw : c.isWhitespace = false) (rest : List Char) :
    lexFrom [] (f.toList ++ c :: rest) = .id f :: .sym c :: lexFrom [] rest := by
  rw [lexes_name hf (c :: rest) (show Stop (c :: rest) from hc)]
  simp [lexFrom, hc, hw]

theorem call_lexes {t f : String} (hf : Name f) {ts : List Tok} (h : Lexes t ts) : Lexes (f ++ "(" ++ t ++ ")") (.id f :: .sym '(' :: ts ++ [.sym ')']) := by
  intro rest _
  have e : (f ++ "(" ++ t ++ ")").toList ++ rest = f.toList ++ '(' :: (t.toList ++ ')' :: rest) := by simp
  rw [e, lexFrom_open hf (by decide) (by decide), h (')' :: rest) (show wordChar ')' = false by decide)]
  simp [lexFrom, show wordChar ')' = false by decide, show ')'.isWhitespace = false by decide]

theorem index_lexes {t f : String} (hf : Name f) {ts : List Tok} (h : Lexes t ts) : Lexes (f ++ "[" ++ t ++ "]") (.id f :: .sym '[' :: ts ++ [.sym ']']) := by
  intro rest _
  have e : (f ++ "[" ++ t ++ "]").toList ++ rest = f.toList ++ '[' :: (t.toList ++ ']' :: rest) := by simp
  rw [e, lexFrom_open hf (by decide) (by decide), h (']' :: rest) (show wordChar ']' = false by decide)]
  simp [lexFrom, show wordChar ']' = false by decide, show ']'.isWhitespace = false by decide]

theorem Says.call {t : String} {as : List SExp} (h : Says t as) {f : String} (hf : Name f) : Says (f ++ "(" ++ t ++ ")") [.call f as] := by
  obtain ⟨ts, h1, h2⟩ := h.args
  exact says_expr (call_lexes hf h1) (atom_call f h2).term.expr

theorem Says.index {t : String} {i : SExp} (h : Says t [i]) {f : String} (hf : Name f) : Says (f ++ "[" ++ t ++ "]") [.index f i] := by
  obtain ⟨ts, h1, h2⟩ := h.expr
  exact says_expr (index_lexes hf h1) (atom_index f h2).term.expr

/-- `a + t0 * b`. -/
theorem says_linear (a b : ℕ) : Says (toString a ++ " + t0 * " ++ toString b) [.bin '+' (.num a) (.bin '*' (.var "t0") (.num b))] :=
  says_expr ((lexes_num a).append (lexes_num b) (sep := " + t0 * ") (ks := [.sym '+', .id "t0", .sym '*']) rfl (by decide) fun _ => rfl)
    ((atom_num a).term.add ((atom_var "t0").mul (atom_num b)))

end Verif.Sol
