import Verif.Api.Plonk
import Mathlib.Algebra.BigOperators.Intervals

/-!
# What the permutation and lookup constraints say about the rows

The verifier evaluates the constraints at a random point; if the quotient exists they vanish on the whole domain. On the domain the
Lagrange values are `l0 = 1` on row `0` only, `llast = 1` on row `u` only (the last usable row) and `lblind = 1` on the rows after it.
-/

namespace Verif.Api

variable {F : Type} [Field F]

/-- `1` if the proposition holds. -/
def ind (p : Prop) [Decidable p] : F := if p then 1 else 0

@[simp] theorem ind_true {p : Prop} [Decidable p] (h : p) : (ind p : F) = 1 := if_pos h
@[simp] theorem ind_false {p : Prop} [Decidable p] (h : ¬ p) : (ind p : F) = 0 := if_neg h

/-! ### Permutation -/

/-- A table for the permutation argument: `k` grand products, the columns of each with their values and permuted labels. -/
structure PermTable (F : Type) where
  k : ℕ
  /-- Number of columns of a full chunk. -/
  m : ℕ
  /-- Last usable row. -/
  u : ℕ
  z : ℕ → ℕ → F
  cols : ℕ → ℕ → List (F × F)

/-- The constraints on row `r`; `x` is the label of the row. -/
def PermTable.row (t : PermTable F) (beta gamma delta : F) (x : ℕ → F) (r : ℕ) : List F :=
  permSpec (ind (r = 0)) (ind (r = t.u)) (ind (t.u < r)) beta gamma delta (x r) t.m
    ((List.range t.k).map fun i => ⟨t.z i r, t.z i (r + 1), t.z i (r + t.u)⟩) ((List.range t.k).map fun i => t.cols i r)

/-- `Π (value + β σ + γ)` over the columns of chunk `i` on row `r`. -/
def PermTable.permuted (t : PermTable F) (beta gamma : F) (i r : ℕ) : F :=
  ((t.cols i r).map fun p => p.1 + beta * p.2 + gamma).prod

/-- `Π (value + β δ^(m i + j) x + γ)`. -/
def PermTable.identity (t : PermTable F) (beta gamma delta : F) (x : ℕ → F) (i r : ℕ) : F :=
  ((t.cols i r).mapIdx fun j p => p.1 + beta * delta ^ (t.m * i + j) * x r + gamma).prod

/-- The permutation check. -/
structure PermTable.Ok (t : PermTable F) (beta gamma delta : F) (x : ℕ → F) : Prop where
  first : 0 < t.k → t.z 0 0 = 1
  last : 0 < t.k → t.z (t.k - 1) t.u = 0 ∨ t.z (t.k - 1) t.u = 1
  chain : ∀ i, i + 1 < t.k → t.z (i + 1) 0 = t.z i t.u
  step : ∀ i < t.k, ∀ r < t.u, t.z i (r + 1) * t.permuted beta gamma i r = t.z i r * t.identity beta gamma delta x i r

theorem sq_sub_self {a : F} : a ^ 2 - a = 0 ↔ a = 0 ∨ a = 1 := by
  rw [show a ^ 2 - a = a * (a - 1) by ring, mul_eq_zero, sub_eq_zero]

theorem head?_map_range {α : Type} (f : ℕ → α) (k : ℕ) : ((List.range k).map f).head? = if 0 < k then some (f 0) else none := by
  cases k with
  | zero => rfl
  | succ k => rw [List.range_succ_eq_map]; rfl

theorem getLast?_map_range {α : Type} (f : ℕ → α) (k : ℕ) :
    ((List.range k).map f).getLast? = if 0 < k then some (f (k - 1)) else none := by
  cases k with
  | zero => rfl
  | succ k => rw [List.range_succ, List.map_append, List.map_singleton, List.getLast?_append]; simp

/-- The constraints on all rows of the domain vanish exactly if the check holds. -/
theorem PermTable.vanish_iff (t : PermTable F) (beta gamma delta : F) (x : ℕ → F) {n : ℕ} (hu : t.u < n) :
    (∀ r < n, ∀ e ∈ t.row beta gamma delta x r, e = 0) ↔ t.Ok beta gamma delta x := by
  have hrow : ∀ r, (∀ e ∈ t.row beta gamma delta x r, e = 0) ↔
      (0 < t.k → ind (r = 0) * (1 - t.z 0 r) = 0) ∧ (0 < t.k → ind (r = t.u) * (t.z (t.k - 1) r ^ 2 - t.z (t.k - 1) r) = 0) ∧
      (∀ i, i + 1 < t.k → (t.z (i + 1) r - t.z i (r + t.u)) * ind (r = 0) = 0) ∧
      ∀ i < t.k, (t.z i (r + 1) * t.permuted beta gamma i r - t.z i r * t.identity beta gamma delta x i r) *
        (1 - (ind (r = t.u) + ind (t.u < r))) = 0 := by
    intro r
    unfold PermTable.row permSpec
    simp only [List.mem_append, or_imp, forall_and, head?_map_range, getLast?_map_range, and_assoc]
    refine and_congr ?_ (and_congr ?_ (and_congr ?_ ?_))
    · split <;> simp [*]
    · split <;> simp [*]
    · constructor
      · intro h i hi
        refine h _ (List.mem_iff_getElem.2 ⟨i, by simp; omega, ?_⟩)
        simp
      · intro h e he
        obtain ⟨i, hi, rfl⟩ := List.mem_iff_getElem.1 he
        simp only [List.length_zipWith, List.length_tail, List.length_map, List.length_range] at hi
        simpa using h i (by omega)
    · constructor
      · intro h i hi
        refine h _ (List.mem_iff_getElem.2 ⟨i, by simpa using hi, ?_⟩)
        simp [permStep, PermTable.permuted, PermTable.identity]
      · intro h e he
        obtain ⟨i, hi, rfl⟩ := List.mem_iff_getElem.1 he
        simp only [List.length_mapIdx, List.length_zip, List.length_map, List.length_range, min_self] at hi
        have := h i hi
        simpa [permStep, PermTable.permuted, PermTable.identity] using this
  simp only [hrow]
  constructor
  · intro h
    refine ⟨fun hk => ?_, fun hk => ?_, fun i hi => ?_, fun i hi r hr => ?_⟩
    · have := (h 0 (by omega)).1 hk
      rw [ind_true rfl, one_mul, sub_eq_zero] at this
      exact this.symm
    · have := (h t.u hu).2.1 hk
      rw [ind_true rfl, one_mul] at this
      exact sq_sub_self.1 this
    · have := (h 0 (by omega)).2.2.1 i hi
      rw [ind_true rfl, mul_one, sub_eq_zero, zero_add] at this
      exact this
    · have := (h r (by omega)).2.2.2 i hi
      rw [ind_false (by omega), ind_false (by omega), add_zero, sub_zero, mul_one, sub_eq_zero] at this
      exact this
  · intro h r hr
    refine ⟨fun hk => ?_, fun hk => ?_, fun i hi => ?_, fun i hi => ?_⟩
    · by_cases h0 : r = 0
      · subst h0; rw [h.first hk, sub_self, mul_zero]
      · rw [ind_false h0, zero_mul]
    · by_cases h0 : r = t.u
      · subst h0; rw [sq_sub_self.2 (h.last hk), mul_zero]
      · rw [ind_false h0, zero_mul]
    · by_cases h0 : r = 0
      · subst h0; rw [zero_add, h.chain i hi, sub_self, zero_mul]
      · rw [ind_false h0, mul_zero]
    · rcases lt_trichotomy r t.u with h0 | h0 | h0
      · rw [h.step i hi r h0, sub_self, zero_mul]
      · rw [ind_true h0, ind_false (by omega), add_zero, sub_self, mul_zero]
      · rw [ind_false (by omega), ind_true h0, zero_add, sub_self, mul_zero]

theorem PermTable.Ok.chunk {t : PermTable F} {beta gamma delta : F} {x : ℕ → F} (h : t.Ok beta gamma delta x) {i : ℕ} (hi : i < t.k) :
    ∀ s ≤ t.u, t.z i s * ∏ r ∈ Finset.range s, t.permuted beta gamma i r =
      t.z i 0 * ∏ r ∈ Finset.range s, t.identity beta gamma delta x i r
  | 0, _ => by simp
  | s + 1, hs => by
    have ih := h.chunk hi s (by omega)
    have := h.step i hi s (by omega)
    rw [Finset.prod_range_succ, Finset.prod_range_succ]
    linear_combination (∏ r ∈ Finset.range s, t.permuted beta gamma i r) * this + t.identity beta gamma delta x i s * ih

/-- The product of the whole table telescopes through the chained grand products. -/
theorem PermTable.Ok.telescope {t : PermTable F} {beta gamma delta : F} {x : ℕ → F} (h : t.Ok beta gamma delta x) :
    ∀ i < t.k, t.z i t.u * ∏ j ∈ Finset.range (i + 1), ∏ r ∈ Finset.range t.u, t.permuted beta gamma j r =
      ∏ j ∈ Finset.range (i + 1), ∏ r ∈ Finset.range t.u, t.identity beta gamma delta x j r
  | 0, hk => by
    have := h.chunk hk t.u le_rfl
    rw [h.first hk, one_mul] at this
    simpa using this
  | i + 1, hk => by
    have ih := h.telescope i (by omega)
    have h1 := h.chunk hk t.u le_rfl
    rw [h.chain i hk] at h1
    rw [Finset.prod_range_succ, Finset.prod_range_succ (n := i + 1)]
    linear_combination (∏ j ∈ Finset.range (i + 1), ∏ r ∈ Finset.range t.u, t.permuted beta gamma j r) * h1 +
      (∏ r ∈ Finset.range t.u, t.identity beta gamma delta x (i + 1) r) * ih

/-- What the check gives: the products over the whole table, of the values labelled by their own cell and by the permuted cell, agree
(unless a factor vanishes). -/
theorem PermTable.Ok.products {t : PermTable F} {beta gamma delta : F} {x : ℕ → F} (h : t.Ok beta gamma delta x) :
    (∏ j ∈ Finset.range t.k, ∏ r ∈ Finset.range t.u, t.identity beta gamma delta x j r =
      ∏ j ∈ Finset.range t.k, ∏ r ∈ Finset.range t.u, t.permuted beta gamma j r) ∨
    ∏ j ∈ Finset.range t.k, ∏ r ∈ Finset.range t.u, t.identity beta gamma delta x j r = 0 := by
  rcases Nat.eq_zero_or_pos t.k with h0 | h0
  · simp [h0]
  · have := h.telescope (t.k - 1) (by omega)
    rw [Nat.sub_add_cancel h0] at this
    rcases h.last h0 with h1 | h1
    · rw [h1, zero_mul] at this
      exact .inr this.symm
    · rw [h1, one_mul] at this
      exact .inl this.symm

/-- The grand products an honest prover computes: chunk after chunk, row after row. -/
def PermTable.grand (t : PermTable F) (beta gamma delta : F) (x : ℕ → F) (i r : ℕ) : F :=
  (∏ j ∈ Finset.range i, ∏ s ∈ Finset.range t.u, t.identity beta gamma delta x j s / t.permuted beta gamma j s) *
    ∏ s ∈ Finset.range r, t.identity beta gamma delta x i s / t.permuted beta gamma i s

/-- If the products over the whole table agree and no factor of the permuted one vanishes, the honest grand products pass. -/
theorem PermTable.complete (t : PermTable F) {beta gamma delta : F} {x : ℕ → F}
    (h0 : ∀ i < t.k, ∀ r < t.u, t.permuted beta gamma i r ≠ 0)
    (h : ∏ j ∈ Finset.range t.k, ∏ r ∈ Finset.range t.u, t.identity beta gamma delta x j r =
      ∏ j ∈ Finset.range t.k, ∏ r ∈ Finset.range t.u, t.permuted beta gamma j r) :
    (⟨t.k, t.m, t.u, t.grand beta gamma delta x, t.cols⟩ : PermTable F).Ok beta gamma delta x := by
  refine ⟨fun _ => by simp [PermTable.grand], fun hk => .inr ?_, fun i _ => ?_, fun i hi r hr => ?_⟩
  · dsimp only at hk ⊢
    rw [PermTable.grand, ← Finset.prod_range_succ (fun j => ∏ s ∈ Finset.range t.u,
      t.identity beta gamma delta x j s / t.permuted beta gamma j s), Nat.sub_add_cancel hk]
    simp only [Finset.prod_div_distrib]
    rw [h, div_self]
    exact Finset.prod_ne_zero_iff.2 fun i hi => Finset.prod_ne_zero_iff.2 fun r hr =>
      h0 i (Finset.mem_range.1 hi) r (Finset.mem_range.1 hr)
  · simp only [PermTable.grand, Finset.prod_range_zero, mul_one, Finset.prod_range_succ]
  · show t.grand beta gamma delta x i (r + 1) * t.permuted beta gamma i r = t.grand beta gamma delta x i r * t.identity beta gamma delta x i r
    simp only [PermTable.grand]
    rw [Finset.prod_range_succ (n := r), mul_assoc, mul_assoc, div_mul_cancel₀ _ (h0 i hi r hr), mul_assoc]

/-! ### Lookup -/

/-- A table for the lookup argument: grand product, permuted input and table, compressed input and table. -/
structure LookupTable (F : Type) where
  u : ℕ
  z : ℕ → F
  a' : ℕ → F
  s' : ℕ → F
  a : ℕ → F
  s : ℕ → F

/-- The constraints on row `r` of a domain with `n` rows; the row before row `0` is the last one. -/
def LookupTable.row (t : LookupTable F) (beta gamma : F) (n r : ℕ) : List F :=
  lookupSpec (ind (r = 0)) (ind (r = t.u)) (ind (t.u < r)) beta gamma (t.z r) (t.z (r + 1)) (t.a' r)
    (t.a' (if r = 0 then n - 1 else r - 1)) (t.s' r) (t.a r) (t.s r)

structure LookupTable.Ok (t : LookupTable F) (beta gamma : F) : Prop where
  first : t.z 0 = 1
  last : t.z t.u = 0 ∨ t.z t.u = 1
  step : ∀ r < t.u, t.z (r + 1) * (t.a' r + beta) * (t.s' r + gamma) = t.z r * (t.a r + beta) * (t.s r + gamma)
  start : t.a' 0 = t.s' 0
  sorted : ∀ r < t.u, 0 < r → t.a' r = t.s' r ∨ t.a' r = t.a' (r - 1)

theorem LookupTable.vanish_iff (t : LookupTable F) (beta gamma : F) {n : ℕ} (hu : t.u < n) :
    (∀ r < n, ∀ e ∈ t.row beta gamma n r, e = 0) ↔ t.Ok beta gamma := by
  simp only [LookupTable.row, lookupSpec, List.mem_cons, List.not_mem_nil, or_false, forall_eq_or_imp, forall_eq]
  constructor
  · intro h
    refine ⟨?_, ?_, fun r hr => ?_, ?_, fun r hr h0 => ?_⟩
    · have := (h 0 (by omega)).1
      rw [ind_true rfl, one_mul, sub_eq_zero] at this
      exact this.symm
    · have := (h t.u hu).2.1
      rw [ind_true rfl, one_mul] at this
      exact sq_sub_self.1 this
    · have := (h r (by omega)).2.2.1
      rw [ind_false (by omega), ind_false (by omega), add_zero, sub_zero, one_mul, sub_eq_zero] at this
      exact this
    · have := (h 0 (by omega)).2.2.2.1
      rw [ind_true rfl, one_mul, sub_eq_zero] at this
      exact this
    · have := (h r (by omega)).2.2.2.2
      rw [ind_false (by omega), ind_false (by omega), add_zero, sub_zero, one_mul, if_neg (by omega), mul_eq_zero, sub_eq_zero,
        sub_eq_zero] at this
      exact this
  · intro h r hr
    refine ⟨?_, ?_, ?_, ?_, ?_⟩
    · by_cases h0 : r = 0
      · subst h0; rw [h.first, sub_self, mul_zero]
      · rw [ind_false h0, zero_mul]
    · by_cases h0 : r = t.u
      · subst h0; rw [sq_sub_self.2 h.last, mul_zero]
      · rw [ind_false h0, zero_mul]
    · rcases lt_trichotomy r t.u with h0 | h0 | h0
      · rw [h.step r h0, sub_self, mul_zero]
      · rw [ind_true h0, ind_false (by omega), add_zero, sub_self, zero_mul]
      · rw [ind_false (by omega), ind_true h0, zero_add, sub_self, zero_mul]
    · by_cases h0 : r = 0
      · subst h0; rw [h.start, sub_self, mul_zero]
      · rw [ind_false h0, zero_mul]
    · rcases lt_trichotomy r t.u with h0 | h0 | h0
      · by_cases h1 : r = 0
        · subst h1; rw [h.start, sub_self, zero_mul, mul_zero]
        · rcases h.sorted r h0 (by omega) with h2 | h2
          · rw [h2, sub_self, zero_mul, mul_zero]
          · rw [if_neg h1, h2, sub_self, mul_zero, mul_zero]
      · rw [ind_true h0, ind_false (by omega), add_zero, sub_self, zero_mul]
      · rw [ind_false (by omega), ind_true h0, zero_add, sub_self, zero_mul]

/-- Every permuted input occurs in the permuted table. -/
theorem LookupTable.Ok.mem {t : LookupTable F} {beta gamma : F} (h : t.Ok beta gamma) : ∀ r < t.u, ∃ j ≤ r, t.a' r = t.s' j
  | 0, _ => ⟨0, le_rfl, h.start⟩
  | r + 1, hr => by
    rcases h.sorted (r + 1) hr (by omega) with h1 | h1
    · exact ⟨r + 1, le_rfl, h1⟩
    · obtain ⟨j, hj, h2⟩ := h.mem r (by omega)
      exact ⟨j, by omega, h1.trans h2⟩

theorem LookupTable.Ok.telescope {t : LookupTable F} {beta gamma : F} (h : t.Ok beta gamma) : ∀ s ≤ t.u,
    t.z s * ∏ r ∈ Finset.range s, (t.a' r + beta) * (t.s' r + gamma) = ∏ r ∈ Finset.range s, (t.a r + beta) * (t.s r + gamma)
  | 0, _ => by simpa using h.first
  | s + 1, hs => by
    have ih := h.telescope s (by omega)
    have := h.step s (by omega)
    rw [Finset.prod_range_succ, Finset.prod_range_succ]
    linear_combination (∏ r ∈ Finset.range s, (t.a' r + beta) * (t.s' r + gamma)) * this + (t.a s + beta) * (t.s s + gamma) * ih

/-- The permuted columns have the product of the original ones (unless a factor vanishes). -/
theorem LookupTable.Ok.products {t : LookupTable F} {beta gamma : F} (h : t.Ok beta gamma) :
    (∏ r ∈ Finset.range t.u, (t.a r + beta) * (t.s r + gamma) = ∏ r ∈ Finset.range t.u, (t.a' r + beta) * (t.s' r + gamma)) ∨
    ∏ r ∈ Finset.range t.u, (t.a r + beta) * (t.s r + gamma) = 0 := by
  have := h.telescope t.u le_rfl
  rcases h.last with h1 | h1
  · rw [h1, zero_mul] at this
    exact .inr this.symm
  · rw [h1, one_mul] at this
    exact .inl this.symm

/-- The grand product an honest prover computes. -/
def LookupTable.grand (t : LookupTable F) (beta gamma : F) (r : ℕ) : F :=
  ∏ j ∈ Finset.range r, ((t.a j + beta) * (t.s j + gamma)) / ((t.a' j + beta) * (t.s' j + gamma))

theorem LookupTable.complete (t : LookupTable F) {beta gamma : F} (h0 : ∀ r < t.u, (t.a' r + beta) * (t.s' r + gamma) ≠ 0)
    (h : ∏ r ∈ Finset.range t.u, (t.a r + beta) * (t.s r + gamma) = ∏ r ∈ Finset.range t.u, (t.a' r + beta) * (t.s' r + gamma))
    (start : t.a' 0 = t.s' 0) (sorted : ∀ r < t.u, 0 < r → t.a' r = t.s' r ∨ t.a' r = t.a' (r - 1)) :
    (⟨t.u, t.grand beta gamma, t.a', t.s', t.a, t.s⟩ : LookupTable F).Ok beta gamma := by
  refine ⟨by simp [LookupTable.grand], .inr ?_, fun r hr => ?_, start, sorted⟩
  · show t.grand beta gamma t.u = 1
    rw [LookupTable.grand, Finset.prod_div_distrib, h, div_self]
    exact Finset.prod_ne_zero_iff.2 fun r hr => h0 r (Finset.mem_range.1 hr)
  · show t.grand beta gamma (r + 1) * (t.a' r + beta) * (t.s' r + gamma) = t.grand beta gamma r * (t.a r + beta) * (t.s r + gamma)
    rw [LookupTable.grand, Finset.prod_range_succ, mul_assoc, mul_assoc, div_mul_cancel₀ _ (h0 r hr), LookupTable.grand, mul_assoc]

/-! How an honest prover permutes input and table. -/

/-- Every pair is on the diagonal or has the first component of its predecessor. -/
def Stacked : Option F → List (F × F) → Prop
  | _, [] => True
  | prev, p :: l => (p.1 = p.2 ∨ prev = some p.1) ∧ Stacked (some p.1) l

theorem Stacked.weaken {prev : Option F} : ∀ {l : List (F × F)}, Stacked none l → Stacked prev l
  | [], _ => trivial
  | _ :: _, h => ⟨.inl (h.1.resolve_right (by simp)), h.2⟩

theorem Stacked.block (a : F) {l : List (F × F)} (h : Stacked none l) :
    ∀ r : List F, Stacked (some a) ((r.map fun s => (a, s)) ++ l)
  | [] => h.weaken
  | _ :: r => ⟨.inr rfl, Stacked.block a h r⟩

theorem stacked_exists [DecidableEq F] : ∀ (k : ℕ) (A S : List F), A.length ≤ k → A ⊆ S → A.length ≤ S.length →
    ∃ (l : List (F × F)) (R : List F), (l.map Prod.fst).Perm A ∧ (l.map Prod.snd ++ R).Perm S ∧ Stacked none l
  | _, [], S, _, _, _ => ⟨[], S, .refl _, .refl _, trivial⟩
  | k + 1, a :: A, S, hk, hs, hl => by
    have ha : a ∈ S := hs (by simp)
    let B := A.filter fun x => decide (x ≠ a)
    let m := A.count a
    have hcount : A.length = m + B.length := by
      have := A.length_eq_countP_add_countP (fun x => decide (x = a))
      have h1 : A.countP (fun x => decide (x = a)) = m := List.countP_congr fun x _ => by simp
      have h2 : B.length = A.countP (fun x => decide ¬ (decide (x = a) = true)) := by
        rw [List.countP_eq_length_filter]
        congr 1
        exact List.filter_congr fun x _ => by simp
      rw [h1, ← h2] at this
      exact this
    have hperm : A.Perm (List.replicate m a ++ B) := by
      rw [List.perm_iff_count]
      intro x
      rw [List.count_append, List.count_replicate]
      rcases eq_or_ne x a with rfl | hx
      · have : List.count x B = 0 := List.count_eq_zero.2 fun h => by simpa using (List.mem_filter.1 h).2
        simp [this, m]
      · rw [List.count_filter (by simpa using hx)]
        simp [Ne.symm hx]
    obtain ⟨l, R, h1, h2, h3⟩ := stacked_exists k B (S.erase a) (by simp only [List.length_cons] at hk; omega) (by
      intro x hx
      have := List.mem_filter.1 hx
      exact (List.mem_erase_of_ne (by simpa using this.2)).2 (hs (by simp [this.1]))) (by
      rw [List.length_erase_of_mem ha]
      simp only [List.length_cons] at hl
      omega)
    have hlen : m ≤ R.length := by
      have e1 := h1.length_eq
      have e2 := h2.length_eq
      rw [List.length_append, List.length_map, List.length_erase_of_mem ha] at e2
      rw [List.length_map] at e1
      simp only [List.length_cons] at hl
      omega
    refine ⟨(a, a) :: (((R.take m).map fun s => (a, s)) ++ l), R.drop m, ?_, ?_, .inl rfl, Stacked.block a h3 _⟩
    · rw [List.map_cons, List.map_append, List.map_map]
      refine .cons _ ?_
      refine (List.Perm.append ?_ h1).trans hperm.symm
      have : (R.take m).map (Prod.fst ∘ fun s => (a, s)) = List.replicate m a := by
        rw [List.eq_replicate_iff]
        refine ⟨by simp [hlen], fun b hb => ?_⟩
        obtain ⟨s, -, rfl⟩ := List.mem_map.1 hb
        rfl
      rw [this]
    · rw [List.map_cons, List.map_append, List.map_map, List.cons_append]
      refine List.Perm.trans (.cons _ ?_) (List.perm_cons_erase ha).symm
      have : (R.take m).map (Prod.snd ∘ fun s => (a, s)) = R.take m := List.map_id _
      rw [this, List.append_assoc]
      refine .trans ?_ h2
      refine (List.perm_append_comm_assoc _ _ _).trans (List.Perm.append_left _ ?_)
      rw [List.take_append_drop]

theorem Stacked.get {l : List (F × F)} : ∀ {prev : Option F} (_ : Stacked prev l) (i : ℕ) (h : i < l.length),
    l[i].1 = l[i].2 ∨ (if h0 : i = 0 then prev else some l[i - 1].1) = some l[i].1 := by
  induction l with
  | nil => intro _ _ i h; simp at h
  | cons p l ih =>
    intro prev hst i h
    cases i with
    | zero => simpa using hst.1
    | succ i =>
      have := ih hst.2 i (by simpa using h)
      refine this.imp (by simpa using id) fun h2 => ?_
      rw [dif_neg (by omega)]
      cases i with
      | zero => simpa using h2
      | succ i => simpa using h2

/-- If every input is in the table, input and table can be permuted as the argument wants. -/
theorem permuted_exists {u : ℕ} (hu : 0 < u) {a s : ℕ → F} (h : ∀ r < u, ∃ j < u, a r = s j) :
    ∃ a' s' : ℕ → F, ((List.range u).map a).Perm ((List.range u).map a') ∧ ((List.range u).map s).Perm ((List.range u).map s') ∧
      a' 0 = s' 0 ∧ ∀ r < u, 0 < r → a' r = s' r ∨ a' r = a' (r - 1) := by
  classical
  obtain ⟨l, R, h1, h2, h3⟩ := stacked_exists u ((List.range u).map a) ((List.range u).map s) (by simp) (by
    intro x hx
    obtain ⟨r, hr, rfl⟩ := List.mem_map.1 hx
    obtain ⟨j, hj, he⟩ := h r (List.mem_range.1 hr)
    exact List.mem_map.2 ⟨j, List.mem_range.2 hj, he.symm⟩) (by simp)
  have hl : l.length = u := by simpa using h1.length_eq
  have hR : R = [] := by
    have := h2.length_eq
    simp only [List.length_append, List.length_map, List.length_range, hl] at this
    exact List.length_eq_zero_iff.1 (by omega)
  subst hR
  rw [List.append_nil] at h2
  have hm : ∀ f : F × F → F, (List.range u).map (fun i => (l.map f).getD i 0) = l.map f := by
    intro f
    apply List.ext_getElem
    · simp [hl]
    · intro i h4 h5
      have : i < l.length := by simpa using h5
      simp [List.getD_eq_getElem?_getD, this]
  have hg : ∀ (f : F × F → F) i (hi : i < l.length), (l.map f).getD i 0 = f l[i] := fun f i hi => by
    simp [List.getD_eq_getElem?_getD, hi]
  refine ⟨fun i => (l.map Prod.fst).getD i 0, fun i => (l.map Prod.snd).getD i 0, ?_, ?_, ?_, fun r hr h0 => ?_⟩
  · rw [hm]; exact h1.symm
  · rw [hm]; exact h2.symm
  · dsimp only
    rw [hg _ 0 (by omega), hg _ 0 (by omega)]
    have := h3.get 0 (by omega)
    simpa using this
  · dsimp only
    rw [hg _ r (by omega), hg _ r (by omega), hg _ (r - 1) (by omega)]
    refine (h3.get r (by omega)).imp id fun h5 => ?_
    rw [dif_neg (by omega)] at h5
    exact (Option.some.inj h5).symm

end Verif.Api
