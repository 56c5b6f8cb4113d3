import Verif.Api.Params
import Std.Data.String.ToNat

/-!
# Commitment keys

Equal commitments are merged by their key (`evaluation.rs`), so the keys have to be unambiguous. `Name` lists the commitments a
proof with one instance of the circuit can have; `Name.suffix` is what is appended to the key of the proof. The suffix, and the
suffix together with the proof key `{name}_p{i}` that `verify_circuit.rs` (lines 140 and 454) builds, determine the commitment.
-/

namespace Verif.Api

/-- The commitments of a proof. `k` is the number of the circuit instance in the proof. -/
inductive Name where
  | inst (i : ℕ)
  | advice (i : ℕ)
  | fixed (i : ℕ)
  | permCommon (i : ℕ)
  | h (i : ℕ)
  | random
  | w (i : ℕ)
  | permProduct (k i : ℕ)
  | lookupProduct (k j : ℕ)
  | lookupInput (k j : ℕ)
  | lookupTable (k j : ℕ)

/-- The suffix of the key. -/
def Name.suffix : Name → String
  | .inst i => "_instance_commitments" ++ toString i
  | .advice i => "_advice_commitments" ++ toString i
  | .fixed i => "_fixed_commitments" ++ toString i
  | .permCommon i => "_permutation_commitments" ++ toString i
  | .h i => "_h_commitment" ++ toString i
  | .random => "_random_commitment"
  | .w i => "_w" ++ toString i
  | .permProduct k i => "_" ++ toString k ++ "_permutation_product_commitment_" ++ toString i
  | .lookupProduct k j => "_" ++ toString k ++ "_" ++ toString j ++ "_product_commitment"
  | .lookupInput k j => "_" ++ toString k ++ "_" ++ toString j ++ "_permuted_input_commitment"
  | .lookupTable k j => "_" ++ toString k ++ "_" ++ toString j ++ "_permuted_table_commitment"

/-- A numeral as characters. -/
def num (n : ℕ) : List Char := Nat.toDigits 10 n

theorem toList_toString (n : ℕ) : (toString n).toList = num n := by
  show n.repr.toList = _
  rw [Nat.toList_repr, num]

theorem num_injective {m n : ℕ} (h : num m = num n) : m = n := by
  apply Nat.repr_injective
  rw [← String.toList_inj, Nat.toList_repr, Nat.toList_repr]
  exact h

theorem num_digit {n : ℕ} {d : Char} (h : d ∈ num n) : d.isDigit = true := Nat.isDigit_of_mem_toDigits (by omega) (by omega) h

theorem num_ne_nil (n : ℕ) : num n ≠ [] := by
  intro h
  have : (num n).length = 0 := by rw [h]; rfl
  have h2 := Nat.length_toDigits_pos (b := 10) (n := n)
  unfold num at this
  omega

/-- The list does not begin with a digit. -/
def Stop (l : List Char) : Prop := ∀ d, l.head? = some d → d.isDigit = false

theorem digits_split : ∀ {a b r s : List Char}, (∀ d ∈ a, d.isDigit = true) → (∀ d ∈ b, d.isDigit = true) → Stop r → Stop s →
    a ++ r = b ++ s → a = b ∧ r = s
  | [], [], _, _, _, _, _, _, h => ⟨rfl, h⟩
  | [], d :: b, r, s, _, hb, hr, _, h => by
    have h1 := hr d (by rw [List.nil_append] at h; rw [h]; rfl)
    rw [hb d (by simp)] at h1
    cases h1
  | d :: a, [], r, s, ha, _, _, hs, h => by
    have h1 := hs d (by rw [List.nil_append] at h; rw [← h]; rfl)
    rw [ha d (by simp)] at h1
    cases h1
  | d :: a, e :: b, r, s, ha, hb, hr, hs, h => by
    rw [List.cons_append, List.cons_append, List.cons.injEq] at h
    obtain ⟨h1, h2⟩ := digits_split (fun d hd => ha d (by simp [hd])) (fun d hd => hb d (by simp [hd])) hr hs h.2
    exact ⟨by rw [h.1, h1], h2⟩

theorem num_split {m n : ℕ} {r s : List Char} (hr : Stop r) (hs : Stop s) (h : num m ++ r = num n ++ s) : m = n ∧ r = s := by
  obtain ⟨h1, h2⟩ := digits_split (fun _ => num_digit) (fun _ => num_digit) hr hs h
  exact ⟨num_injective h1, h2⟩

theorem num_split' {m n : ℕ} (h : num m = num n) : m = n := num_injective h

/-- A numeral and a list that begins with something else differ. -/
theorem num_ne {n : ℕ} {d : Char} {r s : List Char} (hd : d.isDigit = false) : num n ++ r ≠ d :: s := by
  intro h
  cases hn : num n with
  | nil => exact num_ne_nil n hn
  | cons e l =>
    rw [hn, List.cons_append, List.cons.injEq] at h
    have := num_digit (n := n) (d := e) (by rw [hn]; simp)
    rw [h.1, hd] at this
    cases this

theorem stop_cons {d : Char} {l : List Char} (h : d.isDigit = false) : Stop (d :: l) := fun e he => by
  rw [List.head?_cons, Option.some.injEq] at he
  rw [← he, h]

/-- The suffix as characters. -/
def Name.chars : Name → List Char
  | .inst i => '_' :: 'i' :: ("nstance_commitments".toList ++ num i)
  | .advice i => '_' :: 'a' :: ("dvice_commitments".toList ++ num i)
  | .fixed i => '_' :: 'f' :: ("ixed_commitments".toList ++ num i)
  | .permCommon i => '_' :: 'p' :: ("ermutation_commitments".toList ++ num i)
  | .h i => '_' :: 'h' :: ("_commitment".toList ++ num i)
  | .random => '_' :: 'r' :: "andom_commitment".toList
  | .w i => '_' :: 'w' :: num i
  | .permProduct k i => '_' :: (num k ++ ('_' :: 'p' :: ("ermutation_product_commitment_".toList ++ num i)))
  | .lookupProduct k j => '_' :: (num k ++ ('_' :: (num j ++ "_product_commitment".toList)))
  | .lookupInput k j => '_' :: (num k ++ ('_' :: (num j ++ "_permuted_input_commitment".toList)))
  | .lookupTable k j => '_' :: (num k ++ ('_' :: (num j ++ "_permuted_table_commitment".toList)))

attribute [local irreducible] num

theorem toList_single {s : String} {l : List Char} (h : s.toList = l) (i : ℕ) : (s ++ toString i).toList = l ++ num i := by
  rw [String.toList_append, toList_toString, h]

theorem toList_two {s t : String} {l : List Char} (h : s.toList = l) (k j : ℕ) :
    ("_" ++ toString k ++ t ++ toString j ++ s).toList = '_' :: (num k ++ (t.toList ++ (num j ++ l))) := by
  rw [String.toList_append, String.toList_append, String.toList_append, String.toList_append, toList_toString, toList_toString, h,
    List.append_assoc, List.append_assoc, List.append_assoc]
  rfl

theorem Name.suffix_toList : ∀ a : Name, a.suffix.toList = a.chars
  | .inst i => toList_single (l := '_' :: 'i' :: "nstance_commitments".toList) (by rfl) i
  | .advice i => toList_single (l := '_' :: 'a' :: "dvice_commitments".toList) (by rfl) i
  | .fixed i => toList_single (l := '_' :: 'f' :: "ixed_commitments".toList) (by rfl) i
  | .permCommon i => toList_single (l := '_' :: 'p' :: "ermutation_commitments".toList) (by rfl) i
  | .h i => toList_single (l := '_' :: 'h' :: "_commitment".toList) (by rfl) i
  | .random => (by rfl : "_random_commitment".toList = '_' :: 'r' :: "andom_commitment".toList)
  | .w i => toList_single (l := ['_', 'w']) (by rfl) i
  | .permProduct k i => by
    have e8 : "_permutation_product_commitment_".toList = '_' :: 'p' :: "ermutation_product_commitment_".toList := by rfl
    show ("_" ++ toString k ++ "_permutation_product_commitment_" ++ toString i).toList =
      '_' :: (num k ++ ('_' :: 'p' :: ("ermutation_product_commitment_".toList ++ num i)))
    rw [String.toList_append, String.toList_append, String.toList_append, toList_toString, toList_toString, e8,
      List.append_assoc, List.append_assoc]
    rfl
  | .lookupProduct k j => toList_two (t := "_") rfl k j
  | .lookupInput k j => toList_two (t := "_") rfl k j
  | .lookupTable k j => toList_two (t := "_") rfl k j

theorem Name.chars_injective {a b : Name} (h : a.chars = b.chars) : a = b := by
  have s1 : ∀ l, Stop ('_' :: l) := fun l => stop_cons (by decide)
  have n1 : ∀ (d : Char) (m : ℕ) (r s : List Char), d.isDigit = false → (d :: s = num m ++ r) = False := fun d m r s hd =>
    eq_false fun h => num_ne hd h.symm
  have n2 : ∀ (d : Char) (m : ℕ) (r s : List Char), d.isDigit = false → (num m ++ r = d :: s) = False := fun d m r s hd =>
    eq_false fun h => num_ne hd h
  have t1 : Stop "_product_commitment".toList := s1 "product_commitment".toList
  have t2 : Stop "_permuted_input_commitment".toList := s1 "permuted_input_commitment".toList
  have t3 : Stop "_permuted_table_commitment".toList := s1 "permuted_table_commitment".toList
  have u1 : "_product_commitment".toList ≠ "_permuted_input_commitment".toList := by decide +kernel
  have u2 : "_product_commitment".toList ≠ "_permuted_table_commitment".toList := by decide +kernel
  have u3 : "_permuted_input_commitment".toList ≠ "_permuted_table_commitment".toList := by decide +kernel
  have di : Char.isDigit 'i' = false := by decide
  have da : Char.isDigit 'a' = false := by decide
  have df : Char.isDigit 'f' = false := by decide
  have dp : Char.isDigit 'p' = false := by decide
  have dh : Char.isDigit 'h' = false := by decide
  have dr : Char.isDigit 'r' = false := by decide
  have dw : Char.isDigit 'w' = false := by decide
  have c1 : ('i' : Char) ≠ 'a' := by decide
  cases a <;> cases b <;> unfold Name.chars at h <;>
    generalize "nstance_commitments".toList = g1 at h <;> generalize "dvice_commitments".toList = g2 at h <;>
    generalize "ixed_commitments".toList = g3 at h <;> generalize "ermutation_commitments".toList = g4 at h <;>
    generalize "_commitment".toList = g5 at h <;> generalize "andom_commitment".toList = g6 at h <;>
    generalize "ermutation_product_commitment_".toList = g7 at h <;> generalize "_product_commitment".toList = g8 at h t1 u1 u2 <;>
    generalize "_permuted_input_commitment".toList = g9 at h t2 u1 u3 <;> generalize "_permuted_table_commitment".toList = g10 at h t3 u2 u3 <;>
    (have h := (List.cons.injEq _ _ _ _ ▸ h : _ ∧ _).2)
  all_goals first
    | (rw [List.cons.injEq, List.append_cancel_left_eq] at h; have := num_injective h.2; subst this; rfl)
    | (rw [List.cons.injEq] at h; have := num_injective h.2; subst this; rfl)
    | rfl
    | exact absurd (List.cons.inj h).1 (by decide)
    | exact absurd h (num_ne (by assumption))
    | exact absurd h.symm (num_ne (by assumption))
    | skip
  all_goals
    obtain ⟨h1, h2⟩ := num_split (s1 _) (s1 _) h
    subst h1
    have h3 := (List.cons.inj h2).2
    clear h2 h
  all_goals first
    | (rw [List.cons.injEq, List.append_cancel_left_eq] at h3; have := num_injective h3.2; subst this; rfl)
    | exact absurd h3 (num_ne dp)
    | exact absurd h3.symm (num_ne dp)
    | skip
  all_goals
    have h4 := num_split (by assumption) (by assumption) h3
    clear h3
  all_goals first
    | (obtain ⟨h4, -⟩ := h4; subst h4; rfl)
    | exact absurd h4.2 (by assumption)
    | exact absurd h4.2.symm (by assumption)

/-! ### Keys of several proofs -/

/-- The list begins with `p` and a digit. -/
def startsP : List Char → Bool
  | p :: d :: _ => p == 'p' && d.isDigit
  | _ => false

/-- The list contains `_p` and a digit. -/
def mark : List Char → Bool
  | [] => false
  | d :: l => (d == '_' && startsP l) || mark l

theorem mark_cons {d : Char} (h : d ≠ '_') (l : List Char) : mark (d :: l) = mark l := by
  simp [mark, h]

theorem digit_ne {d e : Char} (h : d.isDigit = true) (he : e.isDigit = false) : d ≠ e := by
  rintro rfl
  rw [h] at he
  cases he

theorem mark_digits : ∀ {a : List Char}, (∀ d ∈ a, d.isDigit = true) → ∀ l, mark (a ++ l) = mark l
  | [], _, _ => rfl
  | d :: a, h, l => by
    rw [List.cons_append, mark_cons (digit_ne (h d (by simp)) (by decide)), mark_digits fun d hd => h d (by simp [hd])]

theorem mark_num (n : ℕ) (l : List Char) : mark (num n ++ l) = mark l := mark_digits (fun _ => num_digit) l

theorem startsP_num (n : ℕ) (l : List Char) : startsP (num n ++ l) = false := by
  cases hn : num n with
  | nil => exact absurd hn (num_ne_nil n)
  | cons d a =>
    have hd : d ≠ 'p' := digit_ne (num_digit (n := n) (by rw [hn]; simp)) (by decide)
    cases h : a ++ l with
    | nil => rw [List.cons_append, h]; rfl
    | cons e r => rw [List.cons_append, h]; simp [startsP, hd]

theorem mark_under_num (n : ℕ) (l : List Char) : mark ('_' :: (num n ++ l)) = mark l := by
  rw [mark, startsP_num, Bool.and_false, Bool.false_or, mark_num]

theorem mark_append : ∀ {s : List Char}, mark s = false → (∀ a, s ≠ a ++ ['_', 'p']) → ∀ n, mark (s ++ num n) = false
  | [], _, _, n => by rw [List.nil_append, ← List.append_nil (num n), mark_num]; rfl
  | d :: s, h, he, n => by
    rw [mark, Bool.or_eq_false_iff] at h
    rw [List.cons_append, mark, mark_append h.2 (fun a ha => he (d :: a) (by rw [ha]; rfl)), Bool.or_false]
    match s with
    | [] => rw [List.nil_append, ← List.append_nil (num n), startsP_num, Bool.and_false]
    | [e] =>
      by_cases hd : d = '_'
      · have : e ≠ 'p' := by
          rintro rfl
          exact he [] (by rw [hd]; rfl)
        cases hn : num n with
        | nil => exact absurd hn (num_ne_nil n)
        | cons x a => simp [startsP, this]
      · simp [hd]
    | e :: f :: r => exact h.1

theorem mark_mem : ∀ (a : List Char) {d : Char} (r : List Char), d.isDigit = true → mark (a ++ '_' :: 'p' :: d :: r) = true
  | [], d, r, h => by simp [mark, startsP, h]
  | e :: a, d, r, h => by rw [List.cons_append, mark, mark_mem a r h, Bool.or_true]

theorem Name.mark_chars (a : Name) : mark a.chars = false := by
  have key : ∀ (t s : List Char), mark s = false → s.reverse.take 2 ≠ ['p', '_'] → ∀ n, t = s ++ num n → mark t = false := by
    intro t s h1 h2 n ht
    rw [ht]
    refine mark_append h1 (fun a ha => h2 ?_) n
    rw [ha, List.reverse_append]
    rfl
  cases a with
  | inst i => exact key _ "_instance_commitments".toList (by decide +kernel) (by decide +kernel) i rfl
  | advice i => exact key _ "_advice_commitments".toList (by decide +kernel) (by decide +kernel) i rfl
  | fixed i => exact key _ "_fixed_commitments".toList (by decide +kernel) (by decide +kernel) i rfl
  | permCommon i => exact key _ "_permutation_commitments".toList (by decide +kernel) (by decide +kernel) i rfl
  | h i => exact key _ "_h_commitment".toList (by decide +kernel) (by decide +kernel) i rfl
  | random =>
    show mark "_random_commitment".toList = false
    decide +kernel
  | w i => exact key _ "_w".toList (by decide +kernel) (by decide +kernel) i rfl
  | permProduct k i =>
    refine (mark_under_num _ _).trans ?_
    exact key _ "_permutation_product_commitment_".toList (by decide +kernel) (by decide +kernel) i rfl
  | lookupProduct k j =>
    refine (mark_under_num _ _).trans ((mark_under_num _ _).trans ?_)
    decide +kernel
  | lookupInput k j =>
    refine (mark_under_num _ _).trans ((mark_under_num _ _).trans ?_)
    decide +kernel
  | lookupTable k j =>
    refine (mark_under_num _ _).trans ((mark_under_num _ _).trans ?_)
    decide +kernel

theorem Name.stop_chars (a : Name) : Stop a.chars := by
  cases a <;> exact stop_cons (by decide)

theorem mark_split : ∀ {a b r s : List Char} {d e : Char}, d.isDigit = true → e.isDigit = true → mark ('p' :: d :: r) = false →
    mark ('p' :: e :: s) = false → a ++ '_' :: 'p' :: d :: r = b ++ '_' :: 'p' :: e :: s → a = b ∧ d :: r = e :: s
  | [], [], _, _, _, _, _, _, _, _, h => ⟨rfl, by
    rw [List.nil_append, List.nil_append, List.cons.injEq, List.cons.injEq] at h; exact h.2.2⟩
  | [], x :: b, r, s, d, e, _, he, hr, _, h => by
    rw [List.nil_append, List.cons_append, List.cons.injEq] at h
    rw [h.2, mark_mem b s he] at hr
    cases hr
  | x :: a, [], r, s, d, e, hd, _, _, hs, h => by
    rw [List.nil_append, List.cons_append, List.cons.injEq] at h
    rw [← h.2, mark_mem a r hd] at hs
    cases hs
  | x :: a, y :: b, r, s, d, e, hd, he, hr, hs, h => by
    rw [List.cons_append, List.cons_append, List.cons.injEq] at h
    obtain ⟨h1, h2⟩ := mark_split hd he hr hs h.2
    exact ⟨by rw [h.1, h1], h2⟩

/-- `format!("{}_p{}", name, i)`: halo2-snark-aggregator-circuit/src/verify_circuit.rs lines 140 and 454. -/
def proofKey (name : String) (i : ℕ) : String := name ++ "_p" ++ toString i

/-- The key of a commitment determines the circuit name, the number of the proof and the commitment. -/
theorem key_injective {n n' : String} {i i' : ℕ} {a a' : Name} (h : proofKey n i ++ a.suffix = proofKey n' i' ++ a'.suffix) :
    n = n' ∧ i = i' ∧ a = a' := by
  have h1 := congrArg String.toList h
  have e : ∀ (n : String) (i : ℕ) (a : Name), (proofKey n i ++ a.suffix).toList = n.toList ++ '_' :: 'p' :: (num i ++ a.chars) := by
    intro n i a
    rw [proofKey, String.toList_append, String.toList_append, String.toList_append, toList_toString, Name.suffix_toList,
      List.append_assoc, List.append_assoc]
    rfl
  rw [e, e] at h1
  obtain ⟨d, r, hr⟩ : ∃ d r, num i = d :: r := by
    cases hn : num i with
    | nil => exact absurd hn (num_ne_nil i)
    | cons d r => exact ⟨d, r, rfl⟩
  obtain ⟨d', r', hr'⟩ : ∃ d r, num i' = d :: r := by
    cases hn : num i' with
    | nil => exact absurd hn (num_ne_nil i')
    | cons d r => exact ⟨d, r, rfl⟩
  have hm : ∀ (i : ℕ) (a : Name), mark ('p' :: (num i ++ a.chars)) = false := fun i a => by
    rw [mark_cons (by decide), mark_num, a.mark_chars]
  have m1 := hm i a
  have m2 := hm i' a'
  rw [hr, List.cons_append] at m1
  rw [hr', List.cons_append] at m2
  rw [hr, hr', List.cons_append, List.cons_append] at h1
  obtain ⟨g1, g2⟩ := mark_split (num_digit (n := i) (by rw [hr]; simp)) (num_digit (n := i') (by rw [hr']; simp)) m1 m2 h1
  rw [← List.cons_append, ← List.cons_append, ← hr, ← hr'] at g2
  obtain ⟨g3, g4⟩ := num_split a.stop_chars a'.stop_chars g2
  exact ⟨String.toList_inj.1 g1, g3, Name.chars_injective g4⟩

theorem suffix_injective {key : String} {a b : Name} (h : key ++ a.suffix = key ++ b.suffix) : a = b := by
  apply Name.chars_injective
  have h1 := congrArg String.toList h
  rw [String.toList_append, String.toList_append, Name.suffix_toList, Name.suffix_toList, List.append_cancel_left_eq] at h1
  exact h1

/-! ### The table of a proof -/

section
variable {P S : Type}

/-- The commitment with a name. -/
def Params.commitment (v : Params P S) : Name → Option P
  | .inst i => (v.instanceCommitments.getD 0 [])[i]?
  | .advice i => (v.adviceCommitments.getD 0 [])[i]?
  | .fixed i => v.fixedCommitments[i]?
  | .permCommon i => v.permutationCommitments[i]?
  | .h i => v.vanishCommitments.reverse[i]?
  | .random => some v.randomCommitment
  | .w i => v.w[i]?
  | .permProduct k i => v.perms[k]?.bind fun p => p.sets[i]?.map PermSet.commitment
  | .lookupProduct k j => (v.lookups.getD k [])[j]?.map LookupEval.product
  | .lookupInput k j => (v.lookups.getD k [])[j]?.map LookupEval.permutedInput
  | .lookupTable k j => (v.lookups.getD k [])[j]?.map LookupEval.permutedTable

/-- The keys of the permutation and lookup arguments; verify.rs lines 282 and 332. -/
structure Params.Keyed (v : Params P S) : Prop where
  perms : ∀ (k : ℕ) (p : PermEval P S), v.perms[k]? = some p → p.key = v.key ++ "_" ++ toString k
  lookups : ∀ (k j : ℕ) (q : LookupEval P S), (v.lookups.getD k [])[j]? = some q → q.key = v.key ++ "_" ++ toString k ++ "_" ++ toString j

theorem mem_mapIdx' {α β : Type} {l : List α} {f : ℕ → α → β} {b : β} (h : b ∈ l.mapIdx f) : ∃ i a, l[i]? = some a ∧ b = f i a := by
  obtain ⟨i, hi, rfl⟩ := List.mem_mapIdx.1 h
  exact ⟨i, l[i], List.getElem?_eq_getElem hi, rfl⟩

/-- One instance per proof: every row of the table is the commitment with the name in its key. -/
theorem Params.keyTable_name {v : Params P S} (hk : v.Keyed) (h1 : v.instanceCommitments.length = 1) {e : String × P}
    (he : e ∈ v.keyTable) : ∃ a : Name, e.1 = v.key ++ a.suffix ∧ v.commitment a = some e.2 := by
  unfold keyTable at he
  rw [h1] at he
  simp only [List.mem_append, List.mem_flatMap, List.mem_range, Nat.lt_one_iff, exists_eq_left, List.mem_singleton] at he
  rcases he with (((((((he | he) | he) | he) | he) | he) | he) | he) | he
  · obtain ⟨i, C, hC, rfl⟩ := mem_mapIdx' he
    exact ⟨.inst i, String.append_assoc .., hC⟩
  · obtain ⟨i, C, hC, rfl⟩ := mem_mapIdx' he
    exact ⟨.advice i, String.append_assoc .., hC⟩
  · cases hp : v.perms[0]? with
    | none => rw [hp] at he; cases he
    | some p =>
      rw [hp] at he
      obtain ⟨i, C, hC, rfl⟩ := mem_mapIdx' he
      refine ⟨.permProduct 0 i, ?_, ?_⟩
      · show permProductKey p.key i = v.key ++ ("_" ++ toString 0 ++ "_permutation_product_commitment_" ++ toString i)
        rw [permProductKey, hk.perms 0 p hp]
        simp only [String.append_assoc]
      · show (v.perms[0]?.bind fun p => p.sets[i]?.map PermSet.commitment) = _
        rw [hp, Option.bind_some, hC]
        rfl
  · obtain ⟨q, hq, he⟩ := he
    obtain ⟨j, hj, rfl⟩ := List.mem_iff_getElem.1 hq
    have hget := List.getElem?_eq_getElem hj
    have hkey := hk.lookups 0 j _ hget
    simp only [List.mem_cons, List.not_mem_nil, or_false] at he
    rcases he with rfl | rfl | rfl
    · refine ⟨.lookupProduct 0 j, ?_, ?_⟩
      · show lookupProductKey (v.lookups.getD 0 [])[j].key = v.key ++ ("_" ++ toString 0 ++ "_" ++ toString j ++ "_product_commitment")
        rw [lookupProductKey, hkey]
        simp only [String.append_assoc]
      · show (v.lookups.getD 0 [])[j]?.map LookupEval.product = _
        rw [hget]
        rfl
    · refine ⟨.lookupInput 0 j, ?_, ?_⟩
      · show lookupInputKey (v.lookups.getD 0 [])[j].key = v.key ++ ("_" ++ toString 0 ++ "_" ++ toString j ++ "_permuted_input_commitment")
        rw [lookupInputKey, hkey]
        simp only [String.append_assoc]
      · show (v.lookups.getD 0 [])[j]?.map LookupEval.permutedInput = _
        rw [hget]
        rfl
    · refine ⟨.lookupTable 0 j, ?_, ?_⟩
      · show lookupTableKey (v.lookups.getD 0 [])[j].key = v.key ++ ("_" ++ toString 0 ++ "_" ++ toString j ++ "_permuted_table_commitment")
        rw [lookupTableKey, hkey]
        simp only [String.append_assoc]
      · show (v.lookups.getD 0 [])[j]?.map LookupEval.permutedTable = _
        rw [hget]
        rfl
  · obtain ⟨i, C, hC, rfl⟩ := mem_mapIdx' he
    exact ⟨.fixed i, String.append_assoc .., hC⟩
  · obtain ⟨i, C, hC, rfl⟩ := mem_mapIdx' he
    exact ⟨.permCommon i, String.append_assoc .., hC⟩
  · obtain ⟨i, C, hC, rfl⟩ := mem_mapIdx' he
    exact ⟨.h i, String.append_assoc .., hC⟩
  · subst he
    exact ⟨.random, rfl, rfl⟩
  · obtain ⟨i, C, hC, rfl⟩ := mem_mapIdx' he
    exact ⟨.w i, String.append_assoc .., hC⟩

/-- A list of rows in which equal keys have equal values comes from a function. -/
theorem exists_of_functional {G : Type} [Zero G] (t : List (String × G)) (h : ∀ e ∈ t, ∀ e' ∈ t, e.1 = e'.1 → e.2 = e'.2) :
    ∃ K : String → G, ∀ e ∈ t, K e.1 = e.2 := by
  refine ⟨fun s => ((t.find? fun e => e.1 = s).map Prod.snd).getD 0, fun e he => ?_⟩
  cases hf : t.find? fun e' => e'.1 = e.1 with
  | none =>
    rw [List.find?_eq_none] at hf
    exact absurd (decide_eq_true rfl) (hf e he)
  | some e' =>
    have h1 := List.find?_some hf
    have h2 := List.mem_of_find?_eq_some hf
    simp only [hf]
    exact h e' h2 e he (by simpa using h1)

/-- One proof. -/
theorem Params.keys_single [Zero P] {v : Params P S} (hk : v.Keyed) (h1 : v.instanceCommitments.length = 1) :
    ∃ K : String → P, ∀ e ∈ v.keyTable, K e.1 = e.2 := by
  refine exists_of_functional _ fun e he e' he' h => ?_
  obtain ⟨a, ha1, ha2⟩ := keyTable_name hk h1 he
  obtain ⟨b, hb1, hb2⟩ := keyTable_name hk h1 he'
  rw [ha1, hb1] at h
  have := suffix_injective h
  subst this
  rw [ha2] at hb2
  exact Option.some.inj hb2

/-- Several proofs whose pairs of circuit name and proof number differ. -/
theorem Params.keys_many [Zero P] {vs : List (Params P S)} (hk : ∀ v ∈ vs, v.Keyed ∧ v.instanceCommitments.length = 1)
    (hn : ∀ v ∈ vs, ∃ n i, v.key = proofKey n i) (hd : (vs.map Params.key).Nodup) :
    ∃ K : String → P, ∀ v ∈ vs, ∀ e ∈ v.keyTable, K e.1 = e.2 := by
  obtain ⟨K, hK⟩ := exists_of_functional (vs.flatMap Params.keyTable) (fun e he e' he' h => by
    obtain ⟨v, hv, he⟩ := List.mem_flatMap.1 he
    obtain ⟨v', hv', he'⟩ := List.mem_flatMap.1 he'
    obtain ⟨a, ha1, ha2⟩ := keyTable_name (hk v hv).1 (hk v hv).2 he
    obtain ⟨b, hb1, hb2⟩ := keyTable_name (hk v' hv').1 (hk v' hv').2 he'
    obtain ⟨n, i, hni⟩ := hn v hv
    obtain ⟨n', i', hni'⟩ := hn v' hv'
    rw [ha1, hb1, hni, hni'] at h
    obtain ⟨g1, g2, g3⟩ := key_injective h
    subst g1 g2 g3
    have : v = v' := List.inj_on_of_nodup_map hd hv hv' (by rw [hni, hni'])
    subst this
    rw [ha2] at hb2
    exact Option.some.inj hb2)
  exact ⟨K, fun v hv e he => hK e (List.mem_flatMap.2 ⟨v, hv, he⟩)⟩

end

end Verif.Api
