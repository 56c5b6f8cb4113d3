import Mathlib.Algebra.Polynomial.Roots
import Mathlib.Algebra.Polynomial.BigOperators
import Mathlib.Algebra.Field.ZMod
import Mathlib.GroupTheory.Perm.Cycle.Basic
import Mathlib.Tactic.FieldSimp
import Mathlib.Tactic.Ring
import Mathlib.Tactic.LinearCombination
import Mathlib.Tactic.NormNum.Prime

/-!
# The shuffle circuit of the SDK examples: C97

`halo2-snark-aggregator-sdk/examples/shuffle.rs`. A column `[F; H]` is a function of the row, whose values from `H` on do not matter.
-/

namespace Verif.Sdk.Shuffle

/-! ### Model -/

section
variable {F : Type} [Field F]

/-- `shuffled`: lines 20-34. `rng row` is the word drawn in the round of `row`. -/
def shuffled (H : ℕ) (rng : ℕ → ℕ) (original : List (ℕ → F)) : List (ℕ → F) :=
  (List.range' 1 (H - 1)).reverse.foldl (fun cols row => cols.map fun c => c ∘ Equiv.swap row (rng row % row)) original

/-- `reduce(|acc, a| acc * theta + a).unwrap()`: lines 79-88. -/
def compress (θ : F) : List F → Option F
  | [] => none
  | a :: l => some (l.foldl (fun acc a => acc * θ + a) a)

/-- What the gates query. -/
structure Row (F : Type) where
  qShuffle : F
  qFirst : F
  qLast : F
  original : List F
  shuffled : List F
  z : F
  zNext : F

/-- The gates: lines 58-91. -/
def gates (θ γ : F) (r : Row F) : Option (List F) := do
  let original ← compress θ r.original
  let shuffled ← compress θ r.shuffled
  return [r.qFirst * (1 - r.z), r.qLast * (1 - r.z), r.qShuffle * (r.z * (original + γ) - r.zNext * (shuffled + γ))]

/-- The advice columns. -/
structure Grid (F : Type) where
  original : List (ℕ → F)
  shuffled : List (ℕ → F)
  z : ℕ → F

/-- A row of a circuit with `n` rows, with the selectors of lines 152-156. The only region starts in row zero. -/
def Grid.row (g : Grid F) (n H r : ℕ) : Row F where
  qShuffle := if r < H then 1 else 0
  qFirst := if r = 0 then 1 else 0
  qLast := if r = H then 1 else 0
  original := g.original.map fun c => c r
  shuffled := g.shuffled.map fun c => c r
  z := g.z r
  zNext := g.z ((r + 1) % n)

/-- All gates vanish in all rows. -/
def Grid.Sat (g : Grid F) (n H : ℕ) (θ γ : F) : Prop := ∀ r < n, ∃ es, gates θ γ (g.row n H r) = some es ∧ ∀ e ∈ es, e = 0

/-- `compressed` in lines 195-202 and 208-213. -/
def compressed (θ : F) (cols : List (ℕ → F)) (idx : ℕ) : F := cols.foldl (fun acc c => acc * θ + c idx) 0

/-- `product` after line 215. `batch_invert` leaves zeros as they are. -/
def product (original shuffled : List (ℕ → F)) (θ γ : F) (idx : ℕ) : F := (compressed θ shuffled idx + γ)⁻¹ * (compressed θ original idx + γ)

/-- `scan` in lines 218-224: the state after the elements of the list. -/
def scan : F → List F → List F
  | _, [] => []
  | s, c :: l => s * c :: scan (s * c) l

/-- `z`: lines 190-230. -/
def z (original shuffled : List (ℕ → F)) (H : ℕ) (θ γ : F) : List F :=
  scan 1 (1 :: (List.range H).map (product original shuffled θ γ))

/-- The cells that `synthesize` assigns, lines 140-242, with the witness `original`, `shuffled`. The other cells are arbitrary. -/
structure Assigned (o s : List (ℕ → F)) (H : ℕ) (θ γ : F) (g : Grid F) : Prop where
  original : List.Forall₂ (fun c d => ∀ i < H, c i = d i) g.original o
  shuffled : List.Forall₂ (fun c d => ∀ i < H, c i = d i) g.shuffled s
  z : ∀ i ≤ H, (z o s H θ γ)[i]? = some (g.z i)

/-! ### Specification -/

/-- The rows of a table. -/
def rows (cols : List (ℕ → F)) (H : ℕ) : List (List F) := (List.range H).map fun i => cols.map fun c => c i

/-- The value of a row at `θ`: the sum of `a_j θ^(W - 1 - j)`. -/
def valueAt (θ : F) : List F → F
  | [] => 0
  | a :: l => a * θ ^ l.length + valueAt θ l

/-! ### Compression -/

theorem foldl_value (θ : F) (l : List F) (a : F) : l.foldl (fun acc a => acc * θ + a) a = valueAt θ (a :: l) := by
  induction l generalizing a with
  | nil => simp [valueAt]
  | cons b l ih =>
    rw [List.foldl_cons, ih]
    simp only [valueAt, List.length_cons]
    ring

theorem compress_some {θ : F} {l : List F} (h : l ≠ []) : compress θ l = some (valueAt θ l) := by
  cases l with
  | nil => exact absurd rfl h
  | cons a l => exact congrArg some (foldl_value θ l a)

theorem compressed_eq (θ : F) (cols : List (ℕ → F)) (i : ℕ) : compressed θ cols i = valueAt θ (cols.map fun c => c i) := by
  have h : ∀ a, cols.foldl (fun acc c => acc * θ + c i) a = (cols.map fun c => c i).foldl (fun acc a => acc * θ + a) a := fun a => by rw [List.foldl_map]
  unfold compressed
  rw [h, foldl_value]
  simp [valueAt]

/-! ### The gates as equations -/

theorem Grid.sat_iff {g : Grid F} {n H : ℕ} {θ γ : F} (hn : H < n) (ho : g.original ≠ []) (hs : g.shuffled ≠ []) : g.Sat n H θ γ ↔
    g.z 0 = 1 ∧ g.z H = 1 ∧ ∀ r < H, g.z r * (valueAt θ (g.original.map fun c => c r) + γ) = g.z (r + 1) * (valueAt θ (g.shuffled.map fun c => c r) + γ) := by
  have hg : ∀ r, gates θ γ (g.row n H r) = some [(if r = 0 then 1 else 0) * (1 - g.z r), (if r = H then 1 else 0) * (1 - g.z r),
      (if r < H then 1 else 0) * (g.z r * (valueAt θ (g.original.map fun c => c r) + γ) - g.z ((r + 1) % n) * (valueAt θ (g.shuffled.map fun c => c r) + γ))] := by
    intro r
    unfold gates Grid.row
    dsimp only
    rw [compress_some (by simpa using ho), compress_some (by simpa using hs)]
    rfl
  unfold Grid.Sat
  simp only [hg, Option.some.injEq, exists_eq_left', List.mem_cons, List.not_mem_nil, or_false, forall_eq_or_imp, forall_eq]
  constructor
  · intro h
    refine ⟨?_, ?_, fun r hr => ?_⟩
    · have := (h 0 (by omega)).1
      rw [if_pos rfl, one_mul, sub_eq_zero] at this
      exact this.symm
    · have := (h H hn).2.1
      rw [if_pos rfl, one_mul, sub_eq_zero] at this
      exact this.symm
    · have := (h r (by omega)).2.2
      rw [if_pos hr, one_mul, sub_eq_zero, Nat.mod_eq_of_lt (by omega)] at this
      exact this
  · rintro ⟨h1, h2, h3⟩ r hr
    refine ⟨?_, ?_, ?_⟩
    · split
      · next h => rw [h, h1, sub_self, mul_zero]
      · rw [zero_mul]
    · split
      · next h => rw [h, h2, sub_self, mul_zero]
      · rw [zero_mul]
    · split
      · next h => rw [Nat.mod_eq_of_lt (by omega), h3 r h, sub_self, mul_zero]
      · rw [zero_mul]

theorem telescope {u o s : ℕ → F} {H : ℕ} (h : ∀ r < H, u r * o r = u (r + 1) * s r) :
    u 0 * ((List.range H).map o).prod = u H * ((List.range H).map s).prod := by
  induction H with
  | zero => simp
  | succ H ih =>
    have := ih fun r hr => h r (by omega)
    have h' := h H (by omega)
    simp only [List.range_succ, List.map_append, List.prod_append, List.map_cons, List.map_nil, List.prod_cons, List.prod_nil, mul_one]
    linear_combination o H * this + ((List.range H).map s).prod * h'

/-! ### Soundness -/

open Polynomial

/-- The row as a polynomial in `θ`. -/
noncomputable def poly : List F → F[X]
  | [] => 0
  | a :: l => C a * X ^ l.length + poly l

theorem eval_poly (θ : F) (l : List F) : (poly l).eval θ = valueAt θ l := by
  induction l with
  | nil => simp [poly, valueAt]
  | cons a l ih => simp [poly, valueAt, ih]

theorem degree_poly (l : List F) : (poly l).degree < l.length := by
  induction l with
  | nil => simp [poly]
  | cons a l ih =>
    rw [poly]
    refine lt_of_le_of_lt (degree_add_le _ _) (max_lt (lt_of_le_of_lt (degree_C_mul_X_pow_le _ _) ?_) (ih.trans ?_)) <;>
      exact_mod_cast Nat.lt_succ_self _

theorem natDegree_poly (l : List F) : (poly l).natDegree ≤ l.length - 1 := by
  cases l with
  | nil => simp [poly]
  | cons a l =>
    have := degree_poly (a :: l)
    rw [List.length_cons] at this
    rw [List.length_cons, Nat.add_sub_cancel, natDegree_le_iff_degree_le]
    exact Order.le_of_lt_succ (this.trans_eq (by rfl))

theorem poly_injective {l l' : List F} (hl : l.length = l'.length) (h : poly l = poly l') : l = l' := by
  induction l generalizing l' with
  | nil => exact (List.length_eq_zero_iff.1 hl.symm).symm
  | cons a l ih =>
    cases l' with
    | nil => simp at hl
    | cons b l' =>
      replace hl : l.length = l'.length := by simpa using hl
      rw [poly, poly] at h
      have hc := congrArg (fun p => coeff p l.length) h
      simp only [coeff_add, coeff_C_mul_X_pow, hl, if_true] at hc
      rw [coeff_eq_zero_of_degree_lt (hl ▸ degree_poly l), coeff_eq_zero_of_degree_lt (degree_poly l'), add_zero, add_zero] at hc
      subst hc
      rw [hl] at h
      exact congrArg _ (ih hl (add_left_cancel h))

/-- The product over the rows, as a polynomial in `γ` over the polynomials in `θ`. -/
noncomputable def prodPoly (rs : List (List F)) : F[X][X] := (rs.map fun l => X + C (poly l)).prod

theorem prodPoly_injective {rs rs' : List (List F)} {W : ℕ} (h : ∀ l ∈ rs, l.length = W) (h' : ∀ l ∈ rs', l.length = W) (e : prodPoly rs = prodPoly rs') : rs.Perm rs' := by
  have key : ∀ rs : List (List F), (prodPoly rs).roots = ((rs.map fun l => - poly l : List F[X]) : Multiset F[X]) := fun rs => by
    have : prodPoly rs = (((rs.map fun l => - poly l : List F[X]) : Multiset F[X]).map fun a => X - C a).prod := by
      unfold prodPoly
      rw [Multiset.map_coe, Multiset.prod_coe, List.map_map]
      congr 1
      refine List.map_congr_left fun l _ => ?_
      simp
    rw [this, roots_multiset_prod_X_sub_C]
  have hp : (rs.map fun l => - poly l).Perm (rs'.map fun l => - poly l) := by
    rw [← Multiset.coe_eq_coe, ← key, ← key, e]
  have inj : ∀ l ∈ rs ++ rs', ∀ l' ∈ rs ++ rs', - poly l = - poly l' → l = l' := by
    intro l hl l' hl' e
    have hW : ∀ l ∈ rs ++ rs', l.length = W := fun l hl => (List.mem_append.1 hl).elim (h l) (h' l)
    exact poly_injective ((hW l hl).trans (hW l' hl').symm) (neg_injective e)
  classical
  rw [List.perm_iff_count] at hp ⊢
  intro l
  by_cases hl : l ∈ rs ++ rs'
  · have c : ∀ r : List (List F), (∀ x ∈ r, x ∈ rs ++ rs') → (r.map fun l => - poly l).count (- poly l) = r.count l := fun r hr => by
      rw [List.count_eq_countP, List.countP_map, List.count_eq_countP]
      refine List.countP_congr fun x hx => ?_
      simp only [Function.comp_apply, beq_iff_eq]
      exact ⟨inj x (hr x hx) l hl, fun e => by rw [e]⟩
    rw [← c rs fun x hx => List.mem_append_left _ hx, ← c rs' fun x hx => List.mem_append_right _ hx, hp]
  · rw [List.mem_append, not_or] at hl
    rw [List.count_eq_zero_of_not_mem hl.1, List.count_eq_zero_of_not_mem hl.2]

theorem eval_prodPoly (θ γ : F) (rs : List (List F)) :
    ((prodPoly rs).map (evalRingHom θ)).eval γ = (rs.map fun l => valueAt θ l + γ).prod := by
  induction rs with
  | nil => simp [prodPoly]
  | cons l rs ih =>
    unfold prodPoly at ih ⊢
    rw [List.map_cons, List.prod_cons, Polynomial.map_mul, eval_mul, ih]
    simp [eval_poly, add_comm]

theorem prodPoly_degree (rs : List (List F)) : (prodPoly rs).natDegree ≤ rs.length := by
  induction rs with
  | nil => simp [prodPoly]
  | cons l rs ih =>
    unfold prodPoly at ih ⊢
    rw [List.map_cons, List.prod_cons]
    refine natDegree_mul_le.trans ?_
    have : (X + C (poly l) : F[X][X]).natDegree ≤ 1 := by rw [natDegree_X_add_C]
    simp only [List.length_cons]
    omega

theorem prodPoly_coeff (rs : List (List F)) {W : ℕ} (h : ∀ l ∈ rs, l.length = W) (k : ℕ) : ((prodPoly rs).coeff k).natDegree ≤ rs.length * (W - 1) := by
  induction rs generalizing k with
  | nil =>
    unfold prodPoly
    rw [List.map_nil, List.prod_nil, coeff_one]
    split <;> simp
  | cons l rs ih =>
    have ih := ih fun l hl => h l (by simp [hl])
    have e : prodPoly (l :: rs) = X * prodPoly rs + C (poly l) * prodPoly rs := by
      unfold prodPoly
      rw [List.map_cons, List.prod_cons, add_mul]
    rw [e, coeff_add, coeff_C_mul, List.length_cons, Nat.succ_mul]
    refine (natDegree_add_le _ _).trans (max_le ?_ ?_)
    · cases k with
      | zero => simp
      | succ k =>
        rw [coeff_X_mul]
        exact (ih k).trans (Nat.le_add_right _ _)
    · refine natDegree_mul_le.trans ?_
      have h1 := natDegree_poly l
      rw [h l (by simp)] at h1
      have h2 := ih k
      omega

open Classical in
/-- Few pairs of challenges are roots of a polynomial in two variables. -/
theorem card_roots [Fintype F] {D : F[X][X]} (hD : D ≠ 0) {H d : ℕ} (h1 : D.natDegree ≤ H) (h2 : ∀ k, (D.coeff k).natDegree ≤ d) :
    (Finset.univ.filter fun p : F × F => (D.map (evalRingHom p.1)).eval p.2 = 0).card ≤ (d + H) * Fintype.card F := by
  classical
  obtain ⟨k, hk⟩ : ∃ k, D.coeff k ≠ 0 := by
    by_contra h
    push Not at h
    exact hD (Polynomial.ext fun k => by rw [h k, coeff_zero])
  let bad : Finset F := (D.coeff k).roots.toFinset
  have hb : bad.card ≤ d := (Multiset.toFinset_card_le _).trans ((card_roots' _).trans (h2 k))
  have hsub : (Finset.univ.filter fun p : F × F => (D.map (evalRingHom p.1)).eval p.2 = 0) ⊆
      bad ×ˢ Finset.univ ∪ Finset.univ.biUnion fun θ : F => if θ ∈ bad then ∅ else {θ} ×ˢ (D.map (evalRingHom θ)).roots.toFinset := by
    rintro ⟨θ, γ⟩ h
    rw [Finset.mem_filter] at h
    rw [Finset.mem_union, Finset.mem_product, Finset.mem_biUnion]
    by_cases hθ : θ ∈ bad
    · exact Or.inl ⟨hθ, Finset.mem_univ _⟩
    · refine Or.inr ⟨θ, Finset.mem_univ _, ?_⟩
      rw [if_neg hθ, Finset.mem_product]
      refine ⟨Finset.mem_singleton_self _, ?_⟩
      rw [Multiset.mem_toFinset, mem_roots', IsRoot.def]
      refine ⟨fun h0 => hθ ?_, h.2⟩
      rw [Multiset.mem_toFinset, mem_roots hk, IsRoot.def]
      have := congrArg (fun p => coeff p k) h0
      simpa using this
  refine (Finset.card_le_card hsub).trans ((Finset.card_union_le _ _).trans ?_)
  rw [Finset.card_product, Finset.card_univ, add_mul]
  refine Nat.add_le_add (Nat.mul_le_mul_right _ hb) (Finset.card_biUnion_le.trans ?_)
  rw [mul_comm, ← smul_eq_mul, ← Finset.card_univ, ← Finset.sum_const]
  refine Finset.sum_le_sum fun θ _ => ?_
  split
  · simp
  · rw [Finset.card_product, Finset.card_singleton, one_mul]
    exact (Multiset.toFinset_card_le _).trans ((card_roots' _).trans (natDegree_map_le.trans h1))

theorem rows_length {cols : List (ℕ → F)} {H : ℕ} : (rows cols H).length = H := by simp [rows]

theorem rows_width {cols : List (ℕ → F)} {H : ℕ} : ∀ l ∈ rows cols H, l.length = cols.length := by
  intro l hl
  obtain ⟨i, -, rfl⟩ := List.mem_map.1 hl
  simp

theorem rows_prod (cols : List (ℕ → F)) (H : ℕ) (θ γ : F) :
    ((rows cols H).map fun l => valueAt θ l + γ).prod = ((List.range H).map fun i => valueAt θ (cols.map fun c => c i) + γ).prod := by
  unfold rows
  rw [List.map_map]
  rfl

open Classical in
/-- **C97**, soundness: if the rows of the second table are not those of the first in another order, the gates can be met for at most `H W` of every
`|F|` pairs of challenges, whatever is put into the column `z`. -/
theorem C97_sound [Fintype F] {original shuffled : List (ℕ → F)} {n H : ℕ} (hn : H < n) (hw : original.length = shuffled.length) (h0 : original ≠ [])
    (h : ¬ (rows original H).Perm (rows shuffled H)) :
    (Finset.univ.filter fun p : F × F => ∃ z, (⟨original, shuffled, z⟩ : Grid F).Sat n H p.1 p.2).card ≤ H * original.length * Fintype.card F := by
  classical
  have hs : shuffled ≠ [] := fun e => h0 (List.length_eq_zero_iff.1 (by rw [hw, e]; rfl))
  have hW : ∀ l ∈ rows shuffled H, l.length = original.length := fun l hl => (rows_width l hl).trans hw.symm
  let D := prodPoly (rows original H) - prodPoly (rows shuffled H)
  have hD : D ≠ 0 := fun e => h (prodPoly_injective rows_width hW (sub_eq_zero.1 e))
  have hc := card_roots hD (H := H) (d := H * (original.length - 1)) ((natDegree_sub_le _ _).trans (max_le
    ((prodPoly_degree _).trans rows_length.le) ((prodPoly_degree _).trans rows_length.le))) fun k => by
      rw [coeff_sub]
      refine (natDegree_sub_le _ _).trans (max_le ?_ ?_)
      · simpa only [rows_length] using prodPoly_coeff (rows original H) rows_width k
      · simpa only [rows_length] using prodPoly_coeff (rows shuffled H) hW k
  have hl : H * (original.length - 1) + H = H * original.length := by
    obtain ⟨k, hk⟩ : ∃ k, original.length = k + 1 := ⟨original.length - 1, by have := List.length_pos_iff.2 h0; omega⟩
    rw [hk, Nat.add_sub_cancel, Nat.mul_succ]
  rw [hl] at hc
  refine (Finset.card_le_card fun p hp => ?_).trans hc
  rw [Finset.mem_filter] at hp ⊢
  obtain ⟨-, z, hz⟩ := hp
  obtain ⟨e1, e2, e3⟩ := (Grid.sat_iff hn h0 hs).1 hz
  have := telescope e3
  refine ⟨Finset.mem_univ _, ?_⟩
  dsimp only at e1 e2 this
  rw [e1, e2, one_mul, one_mul, ← rows_prod, ← rows_prod] at this
  rw [Polynomial.map_sub, eval_sub, eval_prodPoly, eval_prodPoly, this, sub_self]

/-! ### Completeness -/

theorem scan_get (l : List F) (a : F) (i : ℕ) (h : i < l.length) : (scan a l)[i]? = some (a * (l.take (i + 1)).prod) := by
  induction l generalizing a i with
  | nil => simp at h
  | cons c l ih =>
    rw [scan]
    cases i with
    | zero => simp
    | succ i =>
      rw [List.getElem?_cons_succ, ih _ _ (by simpa using h), List.take_succ_cons, List.prod_cons, mul_assoc]

theorem z_get (o s : List (ℕ → F)) (H : ℕ) (θ γ : F) {i : ℕ} (h : i ≤ H) :
    (z o s H θ γ)[i]? = some ((List.range i).map (product o s θ γ)).prod := by
  unfold z
  rw [scan_get _ _ _ (by simp; omega), one_mul, List.take_succ_cons, List.prod_cons, one_mul, ← List.map_take, List.take_range, min_eq_left h]

theorem agree {g o : List (ℕ → F)} {H i : ℕ} (h : List.Forall₂ (fun c d => ∀ i < H, c i = d i) g o) (hi : i < H) : (g.map fun c => c i) = o.map fun c => c i := by
  induction h with
  | nil => rfl
  | cons h1 _ ih => rw [List.map_cons, List.map_cons, ih, h1 i hi]

/-- **C97**, completeness: if the second table has the rows of the first in some order, the assigned cells meet the gates if and only if no compressed
row of it is `-γ`. -/
theorem C97_honest {original shuffled : List (ℕ → F)} {g : Grid F} {n H : ℕ} {θ γ : F} (hn : H < n) (ho : original ≠ []) (hs : shuffled ≠ [])
    (hp : (rows original H).Perm (rows shuffled H)) (hg : Assigned original shuffled H θ γ g) :
    g.Sat n H θ γ ↔ ∀ l ∈ rows shuffled H, valueAt θ l + γ ≠ 0 := by
  have ho' : g.original ≠ [] := fun e => ho (List.length_eq_zero_iff.1 (by rw [← hg.original.length_eq, e]; rfl))
  have hs' : g.shuffled ≠ [] := fun e => hs (List.length_eq_zero_iff.1 (by rw [← hg.shuffled.length_eq, e]; rfl))
  have hz : ∀ i ≤ H, g.z i = ((List.range i).map (product original shuffled θ γ)).prod := fun i hi =>
    (Option.some.inj ((z_get original shuffled H θ γ hi).symm.trans (hg.z i hi)) : _ = _).symm
  have hstep : ∀ i < H, g.z (i + 1) = g.z i * ((valueAt θ (shuffled.map fun c => c i) + γ)⁻¹ * (valueAt θ (original.map fun c => c i) + γ)) := fun i hi => by
    rw [hz i hi.le, hz (i + 1) hi, List.range_succ, List.map_append, List.prod_append]
    simp only [List.map_cons, List.map_nil, List.prod_cons, List.prod_nil, mul_one, product, compressed_eq]
  have hl : (∀ l ∈ rows shuffled H, valueAt θ l + γ ≠ 0) ↔ ∀ i < H, valueAt θ (shuffled.map fun c => c i) + γ ≠ 0 := by
    simp [rows]
  rw [Grid.sat_iff hn ho' hs', hl]
  constructor
  · rintro ⟨-, h, -⟩ i hi e
    rw [hz H le_rfl] at h
    have : product original shuffled θ γ i = 0 := by
      unfold product
      rw [compressed_eq, e, inv_zero, zero_mul]
    rw [List.prod_eq_zero (List.mem_map.2 ⟨i, List.mem_range.2 hi, this⟩)] at h
    exact zero_ne_one h
  · intro h
    refine ⟨?_, ?_, fun r hr => ?_⟩
    · rw [hz 0 (Nat.zero_le _)]
      simp
    · have e : ∀ k ≤ H, g.z k * ((List.range k).map fun i => valueAt θ (shuffled.map fun c => c i) + γ).prod =
          ((List.range k).map fun i => valueAt θ (original.map fun c => c i) + γ).prod := by
        intro k hk
        induction k with
        | zero => simp [hz 0 (Nat.zero_le _)]
        | succ k ih =>
          have ih := ih (by omega)
          have h1 := hstep k (by omega)
          have h2 := h k (by omega)
          simp only [List.range_succ, List.map_append, List.prod_append, List.map_cons, List.map_nil, List.prod_cons, List.prod_nil, mul_one]
          rw [h1, ← ih]
          field_simp
      have h1 := e H le_rfl
      rw [← rows_prod, ← rows_prod, (hp.map _).prod_eq] at h1
      have h2 : ((rows shuffled H).map fun l => valueAt θ l + γ).prod ≠ 0 := by
        rw [rows_prod]
        refine List.prod_ne_zero fun h0 => ?_
        obtain ⟨i, hi, e0⟩ := List.mem_map.1 h0
        exact h i (List.mem_range.1 hi) e0
      exact mul_right_cancel₀ h2 (h1.trans (one_mul _).symm)
    · rw [agree hg.original hr, agree hg.shuffled hr, hstep r hr]
      have := h r hr
      field_simp

open Classical in
/-- **C97**: at most `H` of every `|F|` pairs of challenges make an honest prover fail. -/
theorem C97_failures [Fintype F] (shuffled : List (ℕ → F)) (H : ℕ) :
    (Finset.univ.filter fun p : F × F => ¬ ∀ l ∈ rows shuffled H, valueAt p.1 l + p.2 ≠ 0).card ≤ H * Fintype.card F := by
  have hsub : (Finset.univ.filter fun p : F × F => ¬ ∀ l ∈ rows shuffled H, valueAt p.1 l + p.2 ≠ 0) ⊆
      Finset.univ.biUnion fun θ : F => {θ} ×ˢ ((rows shuffled H).map fun l => - valueAt θ l).toFinset := by
    rintro ⟨θ, γ⟩ h
    rw [Finset.mem_filter] at h
    obtain ⟨-, h⟩ := h
    push Not at h
    obtain ⟨l, h1, h2⟩ := h
    rw [Finset.mem_biUnion]
    refine ⟨θ, Finset.mem_univ _, ?_⟩
    rw [Finset.mem_product, List.mem_toFinset]
    exact ⟨Finset.mem_singleton_self _, List.mem_map.2 ⟨l, h1, (eq_neg_of_add_eq_zero_right h2).symm⟩⟩
  refine (Finset.card_le_card hsub).trans (Finset.card_biUnion_le.trans ?_)
  rw [mul_comm, ← smul_eq_mul, ← Finset.card_univ, ← Finset.sum_const]
  refine Finset.sum_le_sum fun θ _ => ?_
  rw [Finset.card_product, Finset.card_singleton, one_mul]
  exact (List.toFinset_card_le _).trans (by rw [List.length_map, rows_length])

/-! ### `shuffled` -/

/-- The order into which the rounds put the rows. -/
def order (H : ℕ) (rng : ℕ → ℕ) : Equiv.Perm ℕ := ((List.range' 1 (H - 1)).reverse.map fun row => Equiv.swap row (rng row % row)).prod

theorem shuffled_eq (H : ℕ) (rng : ℕ → ℕ) (original : List (ℕ → F)) : shuffled H rng original = original.map fun c => c ∘ order H rng := by
  unfold shuffled order
  generalize (List.range' 1 (H - 1)).reverse = l
  induction l generalizing original with
  | nil => simp
  | cons row l ih =>
    rw [List.foldl_cons, ih, List.map_cons, List.prod_cons, List.map_map]
    rfl

end

theorem order_succ (k : ℕ) (rng : ℕ → ℕ) : order (k + 2) rng = Equiv.swap (k + 1) (rng (k + 1) % (k + 1)) * order (k + 1) rng := by
  unfold order
  rw [show k + 2 - 1 = k + 1 from rfl, Nat.add_sub_cancel, List.range'_concat, List.reverse_append]
  simp [add_comm]

theorem order_fix (k : ℕ) (rng : ℕ → ℕ) {i : ℕ} (h : k < i) : order (k + 1) rng i = i := by
  induction k with
  | zero => simp [order]
  | succ k ih =>
    have : rng (k + 1) % (k + 1) < k + 1 := Nat.mod_lt _ k.succ_pos
    rw [order_succ, Equiv.Perm.mul_apply, ih (by omega)]
    refine Equiv.swap_apply_of_ne_of_ne ?_ ?_ <;> omega

theorem sameCycle_insert {σ : Equiv.Perm ℕ} {a r : ℕ} (ha : σ a = a) (hr : r ≠ a) {x y : ℕ} (hx : x ≠ a) (h : σ.SameCycle x y) : (Equiv.swap a r * σ).SameCycle x y := by
  have step : ∀ x, x ≠ a → (Equiv.swap a r * σ).SameCycle x (σ x) := fun x hx => by
    by_cases e : σ x = r
    · refine ⟨2, ?_⟩
      rw [show (2 : ℤ) = ((2 : ℕ) : ℤ) from rfl, zpow_natCast, pow_two, Equiv.Perm.mul_apply, Equiv.Perm.mul_apply _ _ x, e, Equiv.swap_apply_right,
        Equiv.Perm.mul_apply, ha, Equiv.swap_apply_left]
    · refine ⟨1, ?_⟩
      rw [zpow_one, Equiv.Perm.mul_apply, Equiv.swap_apply_of_ne_of_ne _ e]
      intro e'
      exact hx (σ.injective (e'.trans ha.symm))
  have up : ∀ n : ℕ, ∀ x, x ≠ a → (Equiv.swap a r * σ).SameCycle x ((σ ^ n) x) := fun n => by
    induction n with
    | zero => exact fun x _ => .refl _ _
    | succ n ih =>
      intro x hx
      have hx' : σ x ≠ a := fun e => hx (σ.injective (e.trans ha.symm))
      rw [pow_succ, Equiv.Perm.mul_apply]
      exact (step x hx).trans (ih _ hx')
  obtain ⟨n, rfl⟩ := h
  cases n with
  | ofNat n =>
    rw [Int.ofNat_eq_natCast, zpow_natCast]
    exact up n x hx
  | negSucc n =>
    rw [zpow_negSucc]
    have hy : (σ ^ (n + 1))⁻¹ x ≠ a := fun e => hx (by
      rw [Equiv.Perm.inv_eq_iff_eq] at e
      rw [e, Equiv.Perm.pow_apply_eq_self_of_apply_eq_self ha])
    have := up (n + 1) _ hy
    rw [← Equiv.Perm.mul_apply, mul_inv_cancel, Equiv.Perm.one_apply] at this
    exact this.symm

theorem order_cycle (k : ℕ) (rng : ℕ → ℕ) : (order (k + 1) rng).IsCycleOn (Set.Iio (k + 1)) := by
  induction k with
  | zero =>
    have : Set.Iio (0 + 1) = ({0} : Set ℕ) := by ext; simp
    rw [this]
    simp [order]
  | succ k ih =>
    have hr : rng (k + 1) % (k + 1) < k + 1 := Nat.mod_lt _ k.succ_pos
    have hf := order_fix k rng (i := k + 1) (by omega)
    rw [order_succ]
    generalize rng (k + 1) % (k + 1) = r at hr
    generalize order (k + 1) rng = σ at ih hf
    have last : (Equiv.swap (k + 1) r * σ).SameCycle (k + 1) r := ⟨1, by rw [zpow_one, Equiv.Perm.mul_apply, hf, Equiv.swap_apply_left]⟩
    have all : ∀ x < k + 1, ∀ y < k + 1, (Equiv.swap (k + 1) r * σ).SameCycle x y := fun x hx y hy =>
      sameCycle_insert hf (by omega) (by omega) (ih.2 (Set.mem_Iio.2 hx) (Set.mem_Iio.2 hy))
    have toR : ∀ x < k + 2, (Equiv.swap (k + 1) r * σ).SameCycle x r := fun x hx => by
      by_cases e : x = k + 1
      · rw [e]
        exact last
      · exact all x (by omega) r (by omega)
    refine ⟨?_, fun x hx y hy => (toR x hx).trans (toR y hy).symm⟩
    have maps : ∀ x < k + 2, (Equiv.swap (k + 1) r * σ) x < k + 2 := fun x hx => by
      have hs : σ x < k + 2 := by
        by_cases e : x = k + 1
        · rw [e, hf]
          omega
        · have : σ x ∈ Set.Iio (k + 1) := ih.1.mapsTo (Set.mem_Iio.2 (show x < k + 1 by omega))
          have := Set.mem_Iio.1 this
          omega
      rw [Equiv.Perm.mul_apply, Equiv.swap_apply_def]
      split_ifs <;> omega
    exact ((Set.finite_Iio (k + 2)).injOn_iff_bijOn_of_mapsTo fun x hx => maps x hx).1 (Equiv.injective _).injOn

/-- **C97**: whatever is drawn, `shuffled` puts the rows of all columns into one order, which is a single cycle. -/
theorem C97_shuffled {F : Type} [Field F] {H : ℕ} (hH : 0 < H) (rng : ℕ → ℕ) (original : List (ℕ → F)) : ∃ σ : Equiv.Perm ℕ, σ.IsCycleOn (Set.Iio H) ∧
    shuffled H rng original = original.map fun c => c ∘ σ := by
  obtain ⟨k, rfl⟩ := Nat.exists_eq_add_one.2 hH
  exact ⟨_, order_cycle k rng, shuffled_eq _ rng original⟩

theorem rows_perm {F : Type} [Field F] {H : ℕ} {σ : Equiv.Perm ℕ} (h : Set.BijOn σ (Set.Iio H) (Set.Iio H)) (original : List (ℕ → F)) :
    (rows original H).Perm (rows (original.map fun c => c ∘ σ) H) := by
  have e : rows (original.map fun c => c ∘ σ) H = ((List.range H).map σ).map fun i => original.map fun c => c i := by
    unfold rows
    simp [Function.comp_def]
  rw [e, rows]
  refine List.Perm.map _ ((List.perm_ext_iff_of_nodup List.nodup_range (List.nodup_range.map σ.injective)).2 fun i => ?_)
  rw [List.mem_range, List.mem_map]
  constructor
  · intro hi
    obtain ⟨j, hj, rfl⟩ := h.surjOn (Set.mem_Iio.2 hi)
    exact ⟨j, List.mem_range.2 hj, rfl⟩
  · rintro ⟨j, hj, rfl⟩
    exact h.mapsTo (Set.mem_Iio.2 (List.mem_range.1 hj))

/-- **C97**: no row stays where it was. -/
theorem C97_moved {F : Type} [Field F] {H : ℕ} (hH : 2 ≤ H) (rng : ℕ → ℕ) (original : List (ℕ → F)) :
    ∃ σ : Equiv.Perm ℕ, (∀ i < H, σ i < H ∧ σ i ≠ i) ∧ shuffled H rng original = original.map fun c => c ∘ σ := by
  obtain ⟨σ, h1, h2⟩ := C97_shuffled (H := H) (by omega) rng original
  refine ⟨σ, fun i hi => ⟨h1.1.mapsTo (Set.mem_Iio.2 hi), ?_⟩, h2⟩
  refine h1.apply_ne ⟨0, Set.mem_Iio.2 (by omega), 1, Set.mem_Iio.2 (by omega), by omega⟩ (Set.mem_Iio.2 hi)

/-- **C97** for the circuit that `instance_builder` returns, lines 257-266: its assignment meets the gates if and only if no compressed row is `-γ`. -/
theorem C97_rand {F : Type} [Field F] {original : List (ℕ → F)} {g : Grid F} {n H : ℕ} {θ γ : F} (rng : ℕ → ℕ) (hH : 0 < H) (hn : H < n) (ho : original ≠ [])
    (hg : Assigned original (shuffled H rng original) H θ γ g) : g.Sat n H θ γ ↔ ∀ l ∈ rows original H, valueAt θ l + γ ≠ 0 := by
  obtain ⟨σ, h1, h2⟩ := C97_shuffled hH rng original
  rw [h2] at hg
  have hp := rows_perm h1.1 original
  rw [C97_honest hn ho (by simpa using ho) hp hg]
  exact ⟨fun h l hl => h l (hp.mem_iff.1 hl), fun h l hl => h l (hp.mem_iff.2 hl)⟩

/-! ### Examples -/

instance : Fact (Nat.Prime 101) := ⟨by norm_num⟩

/-- A table with two columns and three rows over a field with 101 elements. -/
def table : List (ℕ → ZMod 101) := [fun i => i + 1, fun i => 5 * i]

/-- Its assignment, with zeros in the other rows. -/
def grid (θ γ : ZMod 101) (rng : ℕ → ℕ) : Grid (ZMod 101) :=
  ⟨table, shuffled 3 rng table, fun i => (z table (shuffled 3 rng table) 3 θ γ).getD i 0⟩

theorem grid_assigned (θ γ : ZMod 101) (rng : ℕ → ℕ) : Assigned table (shuffled 3 rng table) 3 θ γ (grid θ γ rng) where
  original := List.forall₂_same.2 fun _ _ _ _ => rfl
  shuffled := List.forall₂_same.2 fun _ _ _ _ => rfl
  z := fun i hi => by
    unfold grid
    dsimp only
    rw [List.getD_eq_getElem?_getD, z_get _ _ _ _ _ hi]
    rfl

/-- An honest assignment that meets the gates, and one that does not. -/
example (rng : ℕ → ℕ) : (grid 2 3 rng).Sat 8 3 2 3 ∧ ¬ (grid 2 99 rng).Sat 8 3 2 99 := by
  rw [C97_rand rng (by omega) (by omega) (by simp [table]) (grid_assigned ..), C97_rand rng (by omega) (by omega) (by simp [table]) (grid_assigned ..)]
  decide

open Classical in
/-- Tables whose rows differ. -/
example : (Finset.univ.filter fun p : ZMod 101 × ZMod 101 => ∃ z, (⟨table, [fun i => i + 1, fun _ => 0], z⟩ : Grid (ZMod 101)).Sat 8 3 p.1 p.2).card ≤ 3 * 2 * 101 := by
  have := C97_sound (original := table) (shuffled := [fun i => i + 1, fun _ => 0]) (n := 8) (H := 3) (by omega) rfl (by simp [table]) (by decide)
  rw [ZMod.card] at this
  exact this

end Verif.Sdk.Shuffle
