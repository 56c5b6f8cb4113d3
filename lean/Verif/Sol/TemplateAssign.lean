import Verif.Sol.TemplateText

/-!
# The statements that are filled in at `instance_assign`

`halo2-snark-aggregator-solidity/src/lib.rs` lines 46-52 and `templates/verifier.sol` lines 366-368: for every number of instances, the text is
read as the statements that assign them.
-/

namespace Verif.Sol.Template

/-- `format!("instances[{}] = target_circuit_final_pair[{}];", i, i)`: lib.rs:48-51. -/
def instanceText (i : ℕ) : List Char :=
  chars! "instances[" ++ (toString i).toList ++ chars! "] = target_circuit_final_pair[" ++ (toString i).toList ++ chars! "];"

/-- What the loop of verifier.sol:366-368 writes: `{%-` removes the end of the line. -/
def instancesText (size : ℕ) : List Char := ((List.range' 4 (size - 4)).map fun i => chars! "\n        " ++ instanceText i).flatten

/-- The statements of a text. -/
def parseStmts (t : List Char) : Option (List Stmt) :=
  match pBody ((lex t).length + 20) (lex t ++ [.sym '}']) with
  | some (cs, []) => some cs
  | _ => none

/-- The statements that assign the instances from the fifth on. -/
def instanceAssign (size : ℕ) : List Stmt := (List.range' 4 (size - 4)).map fun i =>
  .assign [.index (.var "instances") (.num i)] (.index (.var "target_circuit_final_pair") (.num i))

/-! ### Tokens -/

theorem lexFrom_word : ∀ (w u t : List Char), (∀ c ∈ w, wordChar c = true) → lexFrom u false (w ++ t) = lexFrom (w.reverse ++ u) false t
  | [], u, t, _ => rfl
  | c :: w, u, t, h => by
    rw [List.cons_append, lexFrom, if_pos (h c (by simp)), lexFrom_word w (c :: u) t fun d hd => h d (by simp [hd])]
    simp

theorem digits_eq : ∀ (w : List Char) (a : ℕ), (∀ c ∈ w, c.isDigit = true) → digits 10 a w = some (Nat.ofDigitChars 10 w a)
  | [], a, _ => by simp [digits]
  | c :: w, a, h => by
    have hc := h c (by simp)
    have h1 : '0'.toNat ≤ c.toNat ∧ c.toNat ≤ '9'.toNat := by
      simp only [Char.isDigit, Bool.and_eq_true, decide_eq_true_eq] at hc
      exact hc
    have h2 : c.toNat - '0'.toNat < 10 := by
      have : '0'.toNat = 48 := rfl
      have : '9'.toNat = 57 := rfl
      omega
    rw [digits, hexDigit, if_pos h1]
    simp only
    rw [if_pos h2, digits_eq w _ fun d hd => h d (by simp [hd]), Nat.ofDigitChars_cons]

theorem lex_number {n : ℕ} {c : Char} (hc : wordChar c = false) (t : List Char) :
    lexFrom [] false ((toString n).toList ++ c :: t) = .num n :: lexFrom [] false (c :: t) := by
  have hl : (toString n : String).toList = Nat.toDigits 10 n := Nat.toList_repr
  have hd : ∀ c ∈ Nat.toDigits 10 n, c.isDigit = true := fun c hc => Nat.isDigit_of_mem_toDigits (by omega) (by omega) hc
  have hn : Nat.toDigits 10 n ≠ [] := List.ne_nil_of_length_pos Nat.length_toDigits_pos
  have hw : wordTok (Nat.toDigits 10 n) = .num n := by
    have e : digits 10 0 (Nat.toDigits 10 n) = some n := by rw [digits_eq _ _ hd, Nat.ofDigitChars_toDigits (by omega) (by omega)]
    unfold wordTok
    split
    · next ds h => rw [h] at hd; exact absurd (hd 'x' (by simp)) (by decide)
    · rw [e]
  rw [hl, lexFrom_word _ _ _ fun c hc => by simp [wordChar, Char.isAlphanum, hd c hc]]
  rw [List.append_nil]
  generalize hr : (Nat.toDigits 10 n).reverse = r
  have hr' : r.reverse = Nat.toDigits 10 n := by rw [← hr, List.reverse_reverse]
  cases r with
  | nil => rw [← hr'] at hn; exact absurd rfl hn
  | cons d r => simp only [lexFrom, hc, hr', hw, Bool.false_eq_true, if_false]

/-- The tokens of one statement. -/
def instanceToks (i : ℕ) : List Tok :=
  [.id (chars! "instances"), .sym '[', .num i, .sym ']', .sym '=', .id (chars! "target_circuit_final_pair"), .sym '[', .num i, .sym ']', .sym ';']

theorem lex_instance (i : ℕ) (t : List Char) : lexFrom [] false (chars! "\n        " ++ instanceText i ++ t) = instanceToks i ++ lexFrom [] false t := by
  have h1 : ∀ t, lexFrom [] false (chars! "\n        " ++ (chars! "instances[" ++ t)) = .id (chars! "instances") :: .sym '[' :: lexFrom [] false t := fun t => rfl
  have h2 : ∀ t, lexFrom [] false (']' :: (chars! " = target_circuit_final_pair[" ++ t)) =
      .sym ']' :: .sym '=' :: .id (chars! "target_circuit_final_pair") :: .sym '[' :: lexFrom [] false t := fun t => rfl
  have h3 : ∀ t, lexFrom [] false (']' :: ';' :: t) = .sym ']' :: .sym ';' :: lexFrom [] false t := fun t => rfl
  have e : chars! "\n        " ++ instanceText i ++ t = chars! "\n        " ++ (chars! "instances[" ++ ((toString i).toList ++
      ']' :: (chars! " = target_circuit_final_pair[" ++ ((toString i).toList ++ ']' :: ';' :: t)))) := by
    simp [instanceText]
  rw [e, h1, lex_number (by decide), h2, lex_number (by decide), h3]
  rfl

theorem lex_instances : ∀ (l : List ℕ), lex ((l.map fun i => chars! "\n        " ++ instanceText i).flatten) = (l.map instanceToks).flatten
  | [] => rfl
  | i :: l => by
    have := lex_instances l
    rw [lex] at this ⊢
    rw [List.map_cons, List.flatten_cons, lex_instance, this]
    rfl

/-! ### Statements -/

theorem parse_instance (i n : ℕ) (ts : List Tok) : pStmt (n + 10) (instanceToks i ++ ts) =
    some ([.assign [.index (.var "instances") (.num i)] (.index (.var "target_circuit_final_pair") (.num i))], ts) := by
  rfl

theorem parse_instances (ts : List Tok) : ∀ (l : List ℕ) (n : ℕ), l.length + 11 ≤ n → pBody n ((l.map instanceToks).flatten ++ .sym '}' :: ts) =
    some (l.map fun i => .assign [.index (.var "instances") (.num i)] (.index (.var "target_circuit_final_pair") (.num i)), ts)
  | [], n, h => by
    obtain ⟨m, rfl⟩ : ∃ m, n = m + 1 := ⟨n - 1, by omega⟩
    rfl
  | i :: l, n, h => by
    obtain ⟨m, rfl⟩ : ∃ m, n = m + 10 + 1 := ⟨n - 11, by simp at h; omega⟩
    rw [List.map_cons, List.flatten_cons, List.append_assoc, pBody]
    · rw [parse_instance]
      simp only
      rw [parse_instances ts l (m + 10) (by simp at h; omega)]
      rfl
    · rintro ts ⟨⟩

/-- **C99**, lib.rs:46-52: the text of the statements is read as the assignments of the instances from the fifth on. -/
theorem C99_instances (size : ℕ) : parseStmts (instancesText size) = some (instanceAssign size) := by
  rw [parseStmts, instancesText, lex_instances, parse_instances]
  · rfl
  · have : ∀ l : List ℕ, l.length ≤ (l.map instanceToks).flatten.length := fun l => by
      induction l with
      | nil => simp
      | cons i l ih =>
        simp only [List.map_cons, List.flatten_cons, List.length_append, List.length_cons]
        have : (instanceToks i).length = 10 := rfl
        omega
    have := this (List.range' 4 (size - 4))
    omega

/-- Two instances. -/
example : instancesText 6 = chars! "\n        instances[4] = target_circuit_final_pair[4];\n        instances[5] = target_circuit_final_pair[5];" := by
  decide +kernel

end Verif.Sol.Template
