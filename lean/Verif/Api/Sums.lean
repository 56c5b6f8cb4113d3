import Mathlib.Algebra.Module.Basic
import Mathlib.Algebra.Module.Prod
import Mathlib.Algebra.Polynomial.Roots
import Mathlib.Algebra.BigOperators.Group.List.Basic
import Mathlib.LinearAlgebra.Dual.Lemmas
import Mathlib.Tactic.Ring

/-!
# Sums of powers times group elements

`powSum u [a₀, .., aₖ] = Σ uⁱ aᵢ` in any module over a field, and the fact the soundness of random linear combinations rests
on: a nonzero combination vanishes for at most `k` values of `u`.
-/

namespace Verif.Api

variable {F M : Type} [Field F] [AddCommGroup M] [Module F M]

/-- `Σ uⁱ aᵢ`. -/
def powSum (u : F) (l : List M) : M := (l.mapIdx fun i a => u ^ i • a).sum

@[simp] theorem powSum_nil (u : F) : powSum u ([] : List M) = 0 := rfl

theorem list_smul_sum (u : F) : ∀ l : List M, (l.map fun x => u • x).sum = u • l.sum
  | [] => by simp
  | a :: l => by simp [list_smul_sum u l, smul_add]

@[simp] theorem powSum_cons (u : F) (a : M) (l : List M) : powSum u (a :: l) = a + u • powSum u l := by
  unfold powSum
  rw [List.mapIdx_cons, List.sum_cons, pow_zero, one_smul, ← list_smul_sum]
  congr 2
  apply List.ext_getElem
  · simp
  · intro i h1 h2
    simp only [List.getElem_mapIdx, List.getElem_map]
    rw [pow_succ', mul_smul]

theorem powSum_append (u : F) (k : List M) : ∀ l : List M, powSum u (l ++ k) = powSum u l + u ^ l.length • powSum u k
  | [] => by simp
  | a :: l => by
    simp only [List.cons_append, powSum_cons, powSum_append u k l, List.length_cons, smul_add, pow_succ', mul_smul, add_assoc]

theorem powSum_map {M' : Type} [AddCommGroup M'] [Module F M'] (f : M →ₗ[F] M') (u : F) :
    ∀ l : List M, powSum u (l.map f) = f (powSum u l)
  | [] => by simp
  | a :: l => by simp [powSum_map f u l]

/-- Two combinations with the same number of terms subtract termwise. -/
theorem powSum_sub (u : F) : ∀ {l k : List M}, l.length = k.length →
    powSum u l - powSum u k = powSum u (List.zipWith (fun a b => a - b) l k)
  | [], [], _ => by simp
  | a :: l, b :: k, h => by
    have := powSum_sub u (l := l) (k := k) (by simpa using h)
    rw [List.zipWith_cons_cons, powSum_cons, powSum_cons, powSum_cons, ← this, smul_sub]
    abel

theorem powSum_smul (u t : F) (l : List M) : powSum u (l.map fun a => t • a) = t • powSum u l :=
  powSum_map (LinearMap.lsmul F M t) u l

theorem powSum_eq_zero_of_all {u : F} : ∀ {l : List M}, (∀ a ∈ l, a = 0) → powSum u l = 0
  | [], _ => rfl
  | a :: l, h => by
    rw [powSum_cons, h a (by simp), powSum_eq_zero_of_all (l := l) fun b hb => h b (by simp [hb])]
    simp

open Polynomial in
/-- The polynomial with the given coefficients. -/
noncomputable def listPoly : List F → F[X]
  | [] => 0
  | a :: l => C a + X * listPoly l

open Polynomial in
theorem listPoly_eval (u : F) : ∀ l : List F, (listPoly l).eval u = powSum u l
  | [] => by simp [listPoly]
  | a :: l => by simp [listPoly, listPoly_eval u l, smul_eq_mul]

open Polynomial in
theorem listPoly_degree : ∀ l : List F, (listPoly l).degree < l.length
  | [] => by simp [listPoly]
  | a :: l => by
    refine lt_of_le_of_lt (degree_add_le _ _) (max_lt ?_ ?_)
    · exact lt_of_le_of_lt degree_C_le (by simp only [List.length_cons]; exact_mod_cast Nat.succ_pos _)
    · have := listPoly_degree l
      rw [degree_mul, degree_X]
      by_cases h : listPoly l = 0
      · rw [h, degree_zero]; simp
      · rw [degree_eq_natDegree h] at this ⊢
        simp only [List.length_cons]
        norm_cast at this ⊢
        omega

open Polynomial in
theorem listPoly_zero : ∀ {l : List F}, listPoly l = 0 → ∀ a ∈ l, a = 0
  | [], _ => by simp
  | a :: l, h => by
    have h0 : a = 0 := by
      have := congrArg (Polynomial.coeff · 0) h
      simpa [listPoly] using this
    subst h0
    have h1 : listPoly l = 0 := by
      simpa [listPoly] using h
    intro b hb
    rcases List.mem_cons.1 hb with rfl | hb
    · rfl
    · exact listPoly_zero h1 b hb

/-- If `Σ uⁱ aᵢ` vanishes for at least as many `u` as there are terms, all terms are zero. -/
theorem powSum_all_zero {l : List M} (U : Finset F) (hU : l.length ≤ U.card) (h : ∀ u ∈ U, powSum u l = 0) : ∀ a ∈ l, a = 0 := by
  intro a ha
  rw [← Module.forall_dual_apply_eq_zero_iff F]
  intro f
  have hp : listPoly (l.map f) = 0 := by
    by_contra hne
    have hdeg := listPoly_degree (l.map f)
    rw [Polynomial.degree_eq_natDegree hne, List.length_map] at hdeg
    have hle : U.card ≤ (listPoly (l.map f)).natDegree := by
      classical
      refine (Finset.card_le_card fun u hu => ?_).trans ((Multiset.toFinset_card_le _).trans (Polynomial.card_roots' _))
      rw [Multiset.mem_toFinset, Polynomial.mem_roots hne, Polynomial.IsRoot, listPoly_eval, powSum_map f, h u hu, map_zero]
    have : (listPoly (l.map f)).natDegree < l.length := by exact_mod_cast hdeg
    omega
  exact listPoly_zero hp _ (List.mem_map_of_mem ha)

end Verif.Api
