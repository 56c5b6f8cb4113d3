import Verif.Api.Arguments
import Mathlib.Algebra.Polynomial.Roots
import Mathlib.Algebra.Polynomial.BigOperators
import Mathlib.RingTheory.Ideal.Quotient.Operations

/-!
# Soundness of the permutation and lookup arguments

How many challenges `(β, γ)` let a prover satisfy the constraints of `Verif.Api.Arguments` for a table that violates a copy constraint or a
lookup. The challenges range over a finite set `W` of field elements; the grand products may depend on them.
-/

namespace Verif.Api

variable {F : Type} [Field F]

open Polynomial

/-- `Π (X + a)`. -/
noncomputable def shiftProd (A : Multiset F) : F[X] := (A.map fun a => X - C (-a)).prod

theorem shiftProd_monic (A : Multiset F) : (shiftProd A).Monic := by
  unfold shiftProd
  have := monic_multisetProd_X_sub_C (A.map fun a => -a)
  rwa [Multiset.map_map] at this

theorem shiftProd_natDegree (A : Multiset F) : (shiftProd A).natDegree = A.card := by
  unfold shiftProd
  have := natDegree_multiset_prod_X_sub_C_eq_card (A.map fun a => -a)
  rwa [Multiset.map_map, Multiset.card_map] at this

theorem shiftProd_inj {A B : Multiset F} (h : shiftProd A = shiftProd B) : A = B := by
  unfold shiftProd at h
  have hr : ∀ A : Multiset F, (A.map fun a => X - C (-a)).prod.roots = A.map fun a => -a := fun A => by
    have := roots_multiset_prod_X_sub_C (A.map fun a => -a)
    rwa [Multiset.map_map] at this
  have := congrArg roots h
  rw [hr, hr] at this
  exact Multiset.map_injective neg_injective this

theorem shiftProd_eval (A : Multiset F) (x : F) : (shiftProd A).eval x = (A.map fun a => a + x).prod := by
  unfold shiftProd
  rw [eval_multiset_prod, Multiset.map_map]
  congr 1
  refine Multiset.map_congr rfl fun a _ => ?_
  simp [add_comm]

/-- Different multisets have equal products for few shifts only. -/
theorem card_prod_eq_le {A B : Multiset F} (hne : A ≠ B) (hcard : A.card = B.card) {a b : F} (ha : a ≠ 0) (S : Finset F)
    (hS : ∀ x ∈ S, a * (A.map fun y => y + x).prod = b * (B.map fun y => y + x).prod) : S.card ≤ A.card := by
  classical
  set p : F[X] := C a * shiftProd A - C b * shiftProd B with hp
  have hp0 : p ≠ 0 := by
    intro h0
    have h1 : C a * shiftProd A = C b * shiftProd B := sub_eq_zero.1 h0
    have h2 := congrArg leadingCoeff h1
    rw [leadingCoeff_mul, leadingCoeff_mul, (shiftProd_monic A).leadingCoeff, (shiftProd_monic B).leadingCoeff, leadingCoeff_C,
      leadingCoeff_C, mul_one, mul_one] at h2
    rw [h2] at h1
    exact hne (shiftProd_inj (mul_left_cancel₀ (C_ne_zero.2 (h2 ▸ ha)) h1))
  have hdeg : p.natDegree ≤ A.card := by
    refine (natDegree_sub_le _ _).trans (max_le ?_ ?_)
    · exact (natDegree_C_mul_le _ _).trans (shiftProd_natDegree A).le
    · exact (natDegree_C_mul_le _ _).trans ((shiftProd_natDegree B).le.trans hcard.ge)
  have hsub : S ⊆ p.roots.toFinset := by
    intro x hx
    rw [Multiset.mem_toFinset, mem_roots hp0, IsRoot, hp, eval_sub, eval_mul, eval_mul, eval_C, eval_C, shiftProd_eval,
      shiftProd_eval, hS x hx, sub_self]
  exact (Finset.card_le_card hsub).trans ((Multiset.toFinset_card_le _).trans ((card_roots' p).trans hdeg))

/-- Few shifts make a product vanish. -/
theorem card_prod_zero_le (A : Multiset F) (S : Finset F) (hS : ∀ x ∈ S, (A.map fun y => y + x).prod = 0) : S.card ≤ A.card := by
  classical
  have hsub : S ⊆ (A.map fun a => -a).toFinset := by
    intro x hx
    have := Multiset.prod_eq_zero_iff.1 (hS x hx)
    obtain ⟨a, ha, h0⟩ := Multiset.mem_map.1 this
    rw [Multiset.mem_toFinset, Multiset.mem_map]
    exact ⟨a, ha, by linear_combination -h0⟩
  exact (Finset.card_le_card hsub).trans ((Multiset.toFinset_card_le _).trans (by rw [Multiset.card_map]))

/-- Counting pairs by rows: `k` rows are arbitrary, the others have at most `l` members. -/
theorem card_pairs_le {W : Finset F} {B : Finset (F × F)} (hB : B ⊆ W ×ˢ W) (Bad : Finset F) (hBad : Bad ⊆ W) {k l : ℕ} (hk : Bad.card ≤ k)
    (hl : ∀ x ∈ W, x ∉ Bad → ∀ S : Finset F, (∀ y ∈ S, (x, y) ∈ B) → S.card ≤ l) : B.card ≤ (k + l) * W.card := by
  classical
  have h1 : B ⊆ Bad ×ˢ W ∪ (W.biUnion fun x => if x ∈ Bad then ∅ else B.filter fun p => p.1 = x) := by
    intro p hp
    have hW := Finset.mem_product.1 (hB hp)
    rw [Finset.mem_union]
    by_cases h : p.1 ∈ Bad
    · exact .inl (Finset.mem_product.2 ⟨h, hW.2⟩)
    · refine .inr (Finset.mem_biUnion.2 ⟨p.1, hW.1, ?_⟩)
      rw [if_neg h]
      exact Finset.mem_filter.2 ⟨hp, rfl⟩
  have h2 : (W.biUnion fun x => if x ∈ Bad then ∅ else B.filter fun p => p.1 = x).card ≤ W.card * l := by
    refine Finset.card_biUnion_le_card_mul _ _ _ fun x hx => ?_
    split
    · simp
    · next h =>
      have hinj : Set.InjOn Prod.snd (↑(B.filter fun p => p.1 = x) : Set (F × F)) := by
        intro p hp q hq hpq
        have hp' := (Finset.mem_filter.1 hp).2
        have hq' := (Finset.mem_filter.1 hq).2
        exact Prod.ext (hp'.trans hq'.symm) hpq
      rw [← Finset.card_image_of_injOn hinj]
      refine hl x hx h _ fun y hy => ?_
      obtain ⟨p, hp, rfl⟩ := Finset.mem_image.1 hy
      have := Finset.mem_filter.1 hp
      rw [← this.2]
      exact this.1
  calc B.card ≤ _ := Finset.card_le_card h1
    _ ≤ (Bad ×ˢ W).card + _ := Finset.card_union_le _ _
    _ ≤ k * W.card + W.card * l := by
      rw [Finset.card_product]
      exact Nat.add_le_add (Nat.mul_le_mul_right _ hk) h2
    _ = (k + l) * W.card := by ring

/-! ### Lookup -/

/-- Two products of which one is wrong. -/
theorem card_two_prods_le {A A' S S' : Multiset F} (hne : S ≠ S') (hcard : S.card = S'.card) {W : Finset F} {B : Finset (F × F)}
    (hB : B ⊆ W ×ˢ W)
    (h : ∀ p ∈ B, (A.map fun y => y + p.1).prod * (S.map fun y => y + p.2).prod =
        (A'.map fun y => y + p.1).prod * (S'.map fun y => y + p.2).prod ∨
      (A.map fun y => y + p.1).prod * (S.map fun y => y + p.2).prod = 0) : B.card ≤ (A.card + 2 * S.card) * W.card := by
  classical
  refine card_pairs_le hB (W.filter fun x => (A.map fun y => y + x).prod = 0) (Finset.filter_subset _ _) (card_prod_zero_le A _ fun x hx =>
    (Finset.mem_filter.1 hx).2) fun x hx hx' T hT => ?_
  have hA : (A.map fun y => y + x).prod ≠ 0 := fun h0 => hx' (Finset.mem_filter.2 ⟨hx, h0⟩)
  rw [two_mul, ← Finset.card_filter_add_card_filter_not (s := T) fun y => (S.map fun z => z + y).prod = 0]
  refine Nat.add_le_add (card_prod_zero_le S _ fun y hy => (Finset.mem_filter.1 hy).2) (card_prod_eq_le (b := (A'.map fun y => y + x).prod) hne hcard hA _
    fun y hy => ?_)
  obtain ⟨hy1, hy2⟩ := Finset.mem_filter.1 hy
  exact (h _ (hT y hy1)).resolve_right fun h0 => (mul_eq_zero.1 h0).elim hA hy2

/-- If some input is not in the table, the constraints can be satisfied for at most `3u|W|` of the `|W|²` pairs of challenges, whatever the
permuted columns are (the grand product may depend on the challenges). -/
theorem lookup_sound {u : ℕ} {a a' s s' : ℕ → F} (hbad : ∃ r < u, ∀ j < u, a r ≠ s j) {W : Finset F} {B : Finset (F × F)}
    (hB : B ⊆ W ×ˢ W) (h : ∀ p ∈ B, ∃ z, (⟨u, z, a', s', a, s⟩ : LookupTable F).Ok p.1 p.2) : B.card ≤ 3 * u * W.card := by
  classical
  rcases B.eq_empty_or_nonempty with rfl | ⟨p0, hp0⟩
  · simp
  let ms : (ℕ → F) → Multiset F := fun f => (Multiset.range u).map f
  have hms : ∀ f : ℕ → F, (ms f).card = u := fun f => by rw [Multiset.card_map, Multiset.card_range]
  have hprod : ∀ (f g : ℕ → F) (x y : F), ∏ r ∈ Finset.range u, (f r + x) * (g r + y) =
      ((ms f).map fun z => z + x).prod * ((ms g).map fun z => z + y).prod := fun f g x y => by
    rw [Finset.prod_mul_distrib, Multiset.map_map, Multiset.map_map]
    rfl
  have hB' : ∀ p ∈ B, ((ms a).map fun y => y + p.1).prod * ((ms s).map fun y => y + p.2).prod =
        ((ms a').map fun y => y + p.1).prod * ((ms s').map fun y => y + p.2).prod ∨
      ((ms a).map fun y => y + p.1).prod * ((ms s).map fun y => y + p.2).prod = 0 := fun p hp => by
    obtain ⟨z, hz⟩ := h p hp
    have := hz.products
    dsimp only at this
    rwa [hprod, hprod] at this
  by_cases hs : ms s = ms s'
  · have ha : ms a ≠ ms a' := by
      intro ha
      obtain ⟨r, hr, hr'⟩ := hbad
      obtain ⟨z, hz⟩ := h p0 hp0
      have h1 : a r ∈ ms a := Multiset.mem_map_of_mem _ (Multiset.mem_range.2 hr)
      rw [ha] at h1
      obtain ⟨r1, h2, h3⟩ := Multiset.mem_map.1 h1
      obtain ⟨j, hj, h4⟩ := hz.mem r1 (Multiset.mem_range.1 h2)
      dsimp only at h4
      have h5 : s' j ∈ ms s' := Multiset.mem_map_of_mem _ (Multiset.mem_range.2 (lt_of_le_of_lt hj (Multiset.mem_range.1 h2)))
      rw [← hs] at h5
      obtain ⟨j', h6, h7⟩ := Multiset.mem_map.1 h5
      exact hr' j' (Multiset.mem_range.1 h6) (by rw [h7, ← h4, h3])
    have hswap : (B.map (Equiv.prodComm F F).toEmbedding) ⊆ W ×ˢ W := by
      intro p hp
      obtain ⟨q, hq, rfl⟩ := Finset.mem_map.1 hp
      have := Finset.mem_product.1 (hB hq)
      exact Finset.mem_product.2 ⟨this.2, this.1⟩
    have := card_two_prods_le (A := ms s) (A' := ms s') ha (by rw [hms, hms]) hswap (fun p hp => by
      obtain ⟨q, hq, rfl⟩ := Finset.mem_map.1 hp
      have := hB' q hq
      rw [mul_comm (Multiset.prod _), mul_comm (Multiset.prod (Multiset.map _ (ms a')))] at this
      exact this)
    rw [Finset.card_map, hms, hms] at this
    exact this.trans (by rw [show u + 2 * u = 3 * u by ring])
  · have := card_two_prods_le hs (by rw [hms, hms]) hB hB'
    rw [hms, hms] at this
    exact this.trans (by rw [show u + 2 * u = 3 * u by ring])

/-! ### Permutation -/

/-- A cell: its value, the label of the cell it is copied to, its own label. -/
structure Cell (F : Type) where
  v : F
  σ : F
  own : F

/-- The cells of a table on its usable rows. -/
def PermTable.cells (t : PermTable F) (delta : F) (x : ℕ → F) : List (Cell F) :=
  (List.range t.k).flatMap fun i => (List.range t.u).flatMap fun r =>
    (t.cols i r).mapIdx fun j p => ⟨p.1, p.2, delta ^ (t.m * i + j) * x r⟩

theorem prod_flatMap {α β : Type} (l : List α) (f : α → List β) (g : β → F) :
    ((l.flatMap f).map g).prod = (l.map fun a => ((f a).map g).prod).prod := by
  induction l with
  | nil => rfl
  | cons a l ih => rw [List.flatMap_cons, List.map_append, List.prod_append, ih, List.map_cons, List.prod_cons]

theorem prod_map_range (f : ℕ → F) (n : ℕ) : ((List.range n).map f).prod = ∏ i ∈ Finset.range n, f i := by
  rw [← List.prod_toFinset f (List.nodup_range)]
  congr 1
  ext i
  simp

theorem PermTable.prod_own (t : PermTable F) (beta gamma delta : F) (x : ℕ → F) :
    ∏ i ∈ Finset.range t.k, ∏ r ∈ Finset.range t.u, t.identity beta gamma delta x i r =
      ((t.cells delta x).map fun c => c.v + beta * c.own + gamma).prod := by
  rw [PermTable.cells, prod_flatMap, prod_map_range]
  refine Finset.prod_congr rfl fun i _ => ?_
  rw [prod_flatMap, prod_map_range]
  refine Finset.prod_congr rfl fun r _ => ?_
  rw [PermTable.identity]
  congr 1
  apply List.ext_getElem
  · simp
  · intro j h1 h2
    simp [mul_assoc]

theorem PermTable.prod_sigma (t : PermTable F) (beta gamma delta : F) (x : ℕ → F) :
    ∏ i ∈ Finset.range t.k, ∏ r ∈ Finset.range t.u, t.permuted beta gamma i r =
      ((t.cells delta x).map fun c => c.v + beta * c.σ + gamma).prod := by
  rw [PermTable.cells, prod_flatMap, prod_map_range]
  refine Finset.prod_congr rfl fun i _ => ?_
  rw [prod_flatMap, prod_map_range]
  refine Finset.prod_congr rfl fun r _ => ?_
  rw [PermTable.permuted]
  congr 1
  apply List.ext_getElem
  · simp
  · intro j h1 h2
    simp

/-- Equal products of labelled cells, although a copy is violated, happen for few challenges. -/
theorem cells_sound {C : List (Cell F)} (hσ : (C.map Cell.σ).Nodup) {c d : Cell F} (hc : c ∈ C) (hd : d ∈ C) (hcd : c.σ = d.own)
    (hv : c.v ≠ d.v) {W : Finset F} {B : Finset (F × F)} (hB : B ⊆ W ×ˢ W)
    (h : ∀ p ∈ B, (C.map fun c => c.v + p.1 * c.own + p.2).prod = (C.map fun c => c.v + p.1 * c.σ + p.2).prod ∨
      (C.map fun c => c.v + p.1 * c.own + p.2).prod = 0) : B.card ≤ 3 * C.length * W.card := by
  classical
  let ms : (Cell F → F) → Multiset F := fun f => ↑(C.map f)
  have hms : ∀ f, (ms f).card = C.length := fun f => by rw [Multiset.coe_card, List.length_map]
  have hprod : ∀ (f : Cell F → F) (y : F), (C.map fun c => f c + y).prod = ((ms f).map fun z => z + y).prod := fun f y => by
    rw [Multiset.map_coe, Multiset.prod_coe, List.map_map]
    rfl
  let Bad := W.filter fun x => ms (fun c => c.v + x * c.own) = ms (fun c => c.v + x * c.σ)
  have hBad : Bad.card ≤ C.length := by
    have hsub : Bad ⊆ (C.map fun e => (e.v - d.v) / (d.own - e.σ)).toFinset := by
      intro x hx
      have hx' := (Finset.mem_filter.1 hx).2
      have h1 : d.v + x * d.own ∈ ms (fun c => c.v + x * c.own) := by
        rw [Multiset.mem_coe]
        exact List.mem_map_of_mem (f := fun c : Cell F => c.v + x * c.own) hd
      rw [hx', Multiset.mem_coe, List.mem_map] at h1
      obtain ⟨e, he, h2⟩ := h1
      rw [List.mem_toFinset, List.mem_map]
      refine ⟨e, he, ?_⟩
      have hne : d.own - e.σ ≠ 0 := by
        intro h0
        have h3 : e.σ = c.σ := by rw [hcd]; exact (sub_eq_zero.1 h0).symm
        have h4 : e = c := List.inj_on_of_nodup_map hσ he hc h3
        rw [h4, hcd] at h2
        exact hv (add_right_cancel h2)
      rw [div_eq_iff hne]
      linear_combination h2
    exact (Finset.card_le_card hsub).trans ((List.toFinset_card_le _).trans (by rw [List.length_map]))
  have := card_pairs_le (l := 2 * C.length) hB Bad (Finset.filter_subset _ _) hBad fun x hx hx' T hT => ?_
  · exact this.trans (by rw [show C.length + 2 * C.length = 3 * C.length by ring])
  have hne : ms (fun c => c.v + x * c.own) ≠ ms (fun c => c.v + x * c.σ) := fun h0 => hx' (Finset.mem_filter.2 ⟨hx, h0⟩)
  rw [two_mul, ← Finset.card_filter_add_card_filter_not (s := T) fun y => ((ms fun c => c.v + x * c.own).map fun z => z + y).prod = 0]
  refine Nat.add_le_add ?_ ?_
  · have := card_prod_zero_le (ms fun c => c.v + x * c.own) _ fun y (hy : y ∈ T.filter _) => (Finset.mem_filter.1 hy).2
    rwa [hms] at this
  · have := card_prod_eq_le hne (by rw [hms, hms]) (one_ne_zero (α := F)) (b := 1) (T.filter fun y =>
      ¬ ((ms fun c => c.v + x * c.own).map fun z => z + y).prod = 0) fun y hy => by
        obtain ⟨hy1, hy2⟩ := Finset.mem_filter.1 hy
        have := h _ (hT y hy1)
        dsimp only at this
        rw [hprod (fun c => c.v + x * c.own), hprod (fun c => c.v + x * c.σ)] at this
        rw [one_mul, one_mul]
        exact this.resolve_right hy2
    rwa [hms] at this

/-- If the permuted labels are distinct and a cell differs from the cell it is to be copied to, the constraints can be satisfied for at
most `3N|W|` of the `|W|²` pairs of challenges, `N` being the number of cells; the grand products may depend on the challenges. -/
theorem permutation_sound {k m u : ℕ} {cols : ℕ → ℕ → List (F × F)} {delta : F} {x : ℕ → F}
    {C : List (Cell F)} (hC : C = PermTable.cells ⟨k, m, u, fun _ _ => 0, cols⟩ delta x)
    (hσ : (C.map Cell.σ).Nodup) {c d : Cell F} (hc : c ∈ C) (hd : d ∈ C) (hcd : c.σ = d.own) (hv : c.v ≠ d.v) {W : Finset F}
    {B : Finset (F × F)} (hB : B ⊆ W ×ˢ W)
    (h : ∀ p ∈ B, ∃ z, (⟨k, m, u, z, cols⟩ : PermTable F).Ok p.1 p.2 delta x) : B.card ≤ 3 * C.length * W.card := by
  refine cells_sound hσ hc hd hcd hv hB fun p hp => ?_
  obtain ⟨z, hz⟩ := h p hp
  have := hz.products
  rw [PermTable.prod_own, PermTable.prod_sigma (delta := delta) (x := x)] at this
  rw [hC]
  exact this

/-- If the permuted labels are those of the cells with the same values, the honest grand products satisfy the constraints, unless `γ` is one of
the values that make a denominator vanish. -/
theorem permutation_complete (t : PermTable F) {beta gamma delta : F} {x : ℕ → F}
    (h : ((t.cells delta x).map fun c => (c.v, c.own)).Perm ((t.cells delta x).map fun c => (c.v, c.σ)))
    (h0 : ∀ i < t.k, ∀ r < t.u, ∀ p ∈ t.cols i r, p.1 + beta * p.2 + gamma ≠ 0) :
    ∃ z, (⟨t.k, t.m, t.u, z, t.cols⟩ : PermTable F).Ok beta gamma delta x := by
  refine ⟨_, t.complete (fun i hi r hr => ?_) ?_⟩
  · rw [PermTable.permuted]
    intro hz
    obtain ⟨p, hp, hp0⟩ := List.mem_map.1 (List.prod_eq_zero_iff.1 hz)
    exact h0 i hi r hr p hp hp0
  · rw [PermTable.prod_own, PermTable.prod_sigma (delta := delta) (x := x)]
    have := (h.map fun p => p.1 + beta * p.2 + gamma).prod_eq
    rw [List.map_map, List.map_map] at this
    exact this

/-! ### Vanishing -/

theorem combine_eq_powSum (y : F) : ∀ l : List F, combine y l = powSum y l.reverse
  | [] => by simp [combine]
  | a :: l => by
    rw [Logic.combine_cons, combine_eq_powSum y l, List.reverse_cons, powSum_append, List.length_reverse]
    simp [mul_comm, add_comm]

/-- If some constraint does not vanish on the domain then, except for fewer values of `y` than there are constraints, no quotient of
degree at most `D` passes the check at more than `max (D + n) d` points. -/
theorem vanish_sound {n : ℕ} {es : List F[X]} {d D : ℕ} (hd : ∀ e ∈ es, e.natDegree ≤ d) (hbad : ∃ e ∈ es, ¬ (X ^ n - 1 : F[X]) ∣ e)
    (W : Finset F) : ∃ Bad ⊆ W, Bad.card < es.length ∧ ∀ y ∈ W, y ∉ Bad → ∀ h : F[X], h.natDegree ≤ D → ∀ S : Finset F,
      (∀ x ∈ S, h.eval x * (x ^ n - 1) = combine y (es.map fun e => e.eval x)) → S.card ≤ max (D + n) d := by
  classical
  refine ⟨W.filter fun y => (X ^ n - 1 : F[X]) ∣ powSum y es.reverse, Finset.filter_subset _ _, ?_, ?_⟩
  · by_contra hlt
    obtain ⟨e, he, hne⟩ := hbad
    let I : Ideal F[X] := Ideal.span {(X ^ n - 1 : F[X])}
    let f : F[X] →ₗ[F] F[X] ⧸ I := (Ideal.Quotient.mkₐ F I).toLinearMap
    have hf : ∀ p : F[X], f p = 0 ↔ (X ^ n - 1 : F[X]) ∣ p := fun p => by
      rw [← Ideal.mem_span_singleton]
      exact Ideal.Quotient.eq_zero_iff_mem
    have := powSum_all_zero (l := es.reverse.map f) _ (by rw [List.length_map, List.length_reverse]; exact not_lt.1 hlt) (fun y hy => by
      rw [powSum_map, hf]
      exact (Finset.mem_filter.1 hy).2) (f e) (List.mem_map_of_mem (List.mem_reverse.2 he))
    exact hne ((hf e).1 this)
  · intro y hy hy' h hD S hS
    have hdvd : ¬ (X ^ n - 1 : F[X]) ∣ powSum y es.reverse := fun h0 => hy' (Finset.mem_filter.2 ⟨hy, h0⟩)
    set p : F[X] := h * (X ^ n - 1) - powSum y es.reverse with hp
    have hp0 : p ≠ 0 := fun h0 => hdvd (by rw [← sub_eq_zero.1 h0]; exact dvd_mul_left _ _)
    have hdeg : p.natDegree ≤ max (D + n) d := by
      refine (natDegree_sub_le _ _).trans (max_le_max ?_ ?_)
      · refine natDegree_mul_le.trans (Nat.add_le_add hD ?_)
        have := natDegree_X_pow_sub_C (R := F) (n := n) (r := 1)
        rw [C_1] at this
        exact this.le
      · have : ∀ l : List F[X], (∀ e ∈ l, e.natDegree ≤ d) → (powSum y l).natDegree ≤ d := by
          intro l
          induction l with
          | nil => intro _; simp
          | cons a l ih =>
            intro hl
            rw [powSum_cons]
            refine (natDegree_add_le _ _).trans (max_le (hl a (by simp)) ?_)
            exact (natDegree_smul_le _ _).trans (ih fun e he => hl e (by simp [he]))
        exact this _ fun e he => hd e (List.mem_reverse.1 he)
    have hsub : S ⊆ p.roots.toFinset := by
      intro x hx
      have h1 : (powSum y es.reverse).eval x = combine y (es.map fun e => e.eval x) := by
        rw [combine_eq_powSum, ← List.map_reverse, ← leval_apply, ← powSum_map]
        rfl
      rw [Multiset.mem_toFinset, mem_roots hp0, IsRoot, hp, eval_sub, eval_mul, eval_sub, eval_pow, eval_X, eval_one, h1, hS x hx, sub_self]
    exact (Finset.card_le_card hsub).trans ((Multiset.toFinset_card_le _).trans ((card_roots' p).trans hdeg))

/-- Completeness: if all constraints vanish on the domain there is a quotient, and it passes everywhere. -/
theorem vanish_complete {n : ℕ} {es : List F[X]} (h : ∀ e ∈ es, (X ^ n - 1 : F[X]) ∣ e) (y : F) :
    ∃ q : F[X], ∀ x, q.eval x * (x ^ n - 1) = combine y (es.map fun e => e.eval x) := by
  have hd : ∀ l : List F[X], (∀ e ∈ l, (X ^ n - 1 : F[X]) ∣ e) → (X ^ n - 1 : F[X]) ∣ powSum y l := by
    intro l
    induction l with
    | nil => intro _; simp
    | cons a l ih =>
      intro hl
      rw [powSum_cons]
      exact dvd_add (hl a (by simp)) (by
        obtain ⟨k, hk⟩ := ih fun e he => hl e (by simp [he])
        exact ⟨y • k, by rw [hk, mul_smul_comm]⟩)
  obtain ⟨q, hq⟩ := hd es.reverse fun e he => h e (List.mem_reverse.1 he)
  refine ⟨q, fun x => ?_⟩
  have h1 : (powSum y es.reverse).eval x = combine y (es.map fun e => e.eval x) := by
    rw [combine_eq_powSum, ← List.map_reverse, ← leval_apply, ← powSum_map]
    rfl
  rw [← h1, hq]
  simp [mul_comm]

end Verif.Api
