import Verif.Api.Multiopen
import Mathlib.RingTheory.RootsOfUnity.PrimitiveRoots
import Mathlib.LinearAlgebra.Lagrange
import Mathlib.Tactic.FieldSimp

/-!
# Lagrange values, permutation, lookup and vanishing arguments

`systems/halo2/{lagrange,permutation,lookup,vanish}.rs` in `halo2-snark-aggregator-api/src`.
-/

namespace Verif.Api

/-! ### Model -/

section Model
variable {F G : Type} (c : Chip F G)

/-- `iter().map(f).collect::<Result<Vec<_>, _>>()`. -/
def mapM' {α β : Type} (f : α → c.m β) : List α → c.m (List β)
  | [] => return []
  | a :: l => do
    let b ← f a
    let bs ← mapM' f l
    return b :: bs

/-- lagrange.rs lines 27-30: `wi = ws[i - 1] / omega` for `i` in `1..=l`. -/
def wsLoop (omega : c.S) : ℕ → c.S → c.m (List c.S)
  | 0, _ => return []
  | k + 1, w => do
    let w ← c.div w omega
    let ws ← wsLoop omega k w
    return w :: ws

/-- lagrange.rs lines 17-39. -/
def lagrangeCommits (omega n x xn one : c.S) (l : ℕ) : c.m (List c.S) := do
  let ws ← wsLoop c omega l one
  mapM' c (fun (wi : c.S) => Ast.eval c ((((wi : Ast c.S) / n) * ((xn : Ast c.S) - one)) / ((x : Ast c.S) - wi))) (one :: ws)

/-- permutation.rs lines 9-14. -/
structure PermSet (P S : Type) where
  commitment : P
  eval : S
  next : S
  last : Option S

/-- permutation.rs lines 24-31. -/
structure PermEval (P S : Type) where
  key : String
  blinding : ℕ
  x : S
  sets : List (PermSet P S)
  evals : List S
  chunkLen : ℕ

/-- permutation.rs lines 73-76. -/
def firstExpr (l0 one : c.S) : Option (PermSet c.P c.S) → c.m (List c.S)
  | none => return []
  | some s => do
    let r ← Ast.eval c ((l0 : Ast c.S) * ((one : Ast c.S) - s.eval))
    return [r]

/-- permutation.rs lines 80-83. -/
def lastExpr (llast : c.S) : Option (PermSet c.P c.S) → c.m (List c.S)
  | none => return []
  | some s => do
    let r ← Ast.eval c ((llast : Ast c.S) * (((s.eval : Ast c.S) * s.eval) - s.eval))
    return [r]

/-- permutation.rs lines 87-91, over `sets.skip(1).zip(sets)`. -/
def chainExprs (l0 : c.S) : List (PermSet c.P c.S × PermSet c.P c.S) → c.m (List c.S) :=
  mapM' c fun p => do
    let prevLast ← unwrap c p.2.last
    Ast.eval c (((p.1.eval : Ast c.S) - prevLast) * l0)

/-- permutation.rs lines 119-129. -/
def permInner (delta beta gamma : c.S) : List (c.S × c.S) → c.S → c.S → c.S → c.m (c.S × c.S)
  | [], left, right, _ => return (left, right)
  | (eval, pe) :: l, left, right, d => do
    let t2 ← Ast.eval c ((eval : Ast c.S) + gamma)
    let left ← Ast.eval c (((t2 : Ast c.S) + ((beta : Ast c.S) * pe)) * left)
    let right ← Ast.eval c (((t2 : Ast c.S) + d) * right)
    let d ← Ast.eval c ((delta : Ast c.S) * d)
    permInner delta beta gamma l left right d

/-- `pow_constant` as a call: a loop that does not end is treated like a panic (no guarantee covers it). -/
def powConst (base : c.S) (exponent : ℕ) : c.m c.S :=
  match powConstant c 32 base exponent with
  | some x => x
  | none => c.panic

/-- permutation.rs lines 110-115. -/
def deltaPow (delta one : c.S) (chunkIndex chunkLen : ℕ) : c.m c.S :=
  if chunkIndex = 0 then return one else powConst c delta (chunkIndex * chunkLen % 2 ^ 32)

/-- permutation.rs lines 107-132, one chunk. -/
def permChunk (delta beta gamma one t0 t1 : c.S) (chunkLen chunkIndex : ℕ) (set : PermSet c.P c.S) (evals permEvals : List c.S) :
    c.m c.S := do
  let dp ← deltaPow c delta one chunkIndex chunkLen
  let d ← Ast.eval c ((t0 : Ast c.S) * dp)
  let lr ← permInner c delta beta gamma (evals.zip permEvals) set.next set.eval d
  Ast.eval c (((lr.1 : Ast c.S) - lr.2) * t1)

/-- permutation.rs lines 101-133. -/
def permChunks (delta beta gamma one t0 t1 : c.S) (chunkLen : ℕ) : ℕ → List ((PermSet c.P c.S × List c.S) × List c.S) → c.m (List c.S)
  | _, [] => return []
  | i, x :: l => do
    let r ← permChunk c delta beta gamma one t0 t1 chunkLen i x.1.1 x.1.2 x.2
    let rs ← permChunks delta beta gamma one t0 t1 chunkLen (i + 1) l
    return r :: rs

/-- `chunks(k)` for `k > 0`. -/
def chunks {α : Type} (k : ℕ) (l : List α) : List (List α) :=
  if h : k = 0 ∨ l = [] then [] else l.take k :: chunks k (l.drop k)
termination_by l.length
decreasing_by
  simp only [not_or] at h
  have := List.length_pos_iff.2 h.2
  rw [List.length_drop]
  omega

/-- `chunks(chunk_len)` panics for `chunk_len = 0`. -/
def chunksM {α : Type} (k : ℕ) (l : List α) : c.m (List (List α)) := if k = 0 then c.panic else return chunks k l

/-- permutation.rs lines 54-136. -/
def permExpressions (p : PermEval c.P c.S) (permutationEvals : List c.S) (l0 llast lblind delta beta gamma x one : c.S) :
    c.m (List c.S) := do
  let r1 ← firstExpr c l0 one p.sets.head?
  let r2 ← lastExpr c llast p.sets.getLast?
  let r3 ← chainExprs c l0 ((p.sets.drop 1).zip p.sets)
  let t0 ← Ast.eval c ((beta : Ast c.S) * x)
  let t1 ← Ast.eval c ((one : Ast c.S) - ((llast : Ast c.S) + lblind))
  let ev ← chunksM c p.chunkLen p.evals
  let pe ← chunksM c p.chunkLen permutationEvals
  let r4 ← permChunks c delta beta gamma one t0 t1 p.chunkLen 0 ((p.sets.zip ev).zip pe)
  return r1 ++ r2 ++ r3 ++ r4

/-- lookup.rs lines 8-31. -/
structure LookupEval (P S : Type) where
  key : String
  input : List (Expr S)
  table : List (Expr S)
  permutedInput : P
  permutedTable : P
  product : P
  productEval : S
  productNext : S
  inputEval : S
  inputInv : S
  tableEval : S

/-- lookup.rs lines 34-119. -/
def lookupExpressions (k : LookupEval c.P c.S) (q : QueryEvals c.S) (l0 llast lblind theta beta gamma zero one : c.S) :
    c.m (List c.S) := do
  let zwx := k.productNext
  let zx := k.productEval
  let ax := k.inputEval
  let sx := k.tableEval
  let ainv := k.inputInv
  let left ← Ast.eval c (((zwx : Ast c.S) * ((ax : Ast c.S) + beta)) * ((sx : Ast c.S) + gamma))
  let inputEvals ← mapM' c (chipEvaluate c q zero) k.input
  let inputEval ← mulAddAccumulate c inputEvals theta
  let tableEvals ← mapM' c (chipEvaluate c q zero) k.table
  let tableEval ← mulAddAccumulate c tableEvals theta
  let t0 ← Ast.eval c ((one : Ast c.S) - ((llast : Ast c.S) + lblind))
  let t1 ← Ast.eval c ((ax : Ast c.S) - sx)
  let e1 ← Ast.eval c ((l0 : Ast c.S) * ((one : Ast c.S) - zx))
  let e2 ← Ast.eval c ((llast : Ast c.S) * (((zx : Ast c.S) * zx) - zx))
  let e3 ← Ast.eval c
    (((left : Ast c.S) - (((zx : Ast c.S) * ((inputEval : Ast c.S) + beta)) * ((tableEval : Ast c.S) + gamma))) * t0)
  let e4 ← Ast.eval c ((l0 : Ast c.S) * t1)
  let e5 ← Ast.eval c (((t1 : Ast c.S) * ((ax : Ast c.S) - ainv)) * t0)
  return [e1, e2, e3, e4, e5]

/-- vanish.rs lines 9-15. -/
structure VanishEval where
  key : String
  h : Schema c.P c.S
  expectedEval : c.S
  random : c.P
  randomEval : c.S

/-- `format!("{}_h_commitment{}", key, i)`. -/
def hKey (key : String) (i : ℕ) : String := key ++ "_h_commitment" ++ toString i

/-- vanish.rs lines 18-54. -/
def VanishEval.new (expressions : List c.S) (y xn : c.S) (random : c.P) (randomEval : c.S) (commitments : List c.P) (one : c.S)
    (key : String) : c.m (VanishEval c) := do
  let e ← mulAddAccumulate c expressions y
  let expected ← Ast.eval c ((e : Ast c.S) / ((xn : Ast c.S) - one))
  let h ← unwrap c (reduceLeft c xn (commitments.reverse.mapIdx fun i p => .commitment ⟨hKey key i, some p, none⟩))
  return ⟨key, h, expected, random, randomEval⟩

/-- vanish.rs lines 56-72. -/
def VanishEval.queries (v : VanishEval c) (x : c.S) : List (EvalQuery c) :=
  [⟨x, 0, v.h + .scalar v.expectedEval⟩, EvalQuery.mk' c 0 (v.key ++ "_random_commitment") x v.random v.randomEval]

end Model

/-! ### Specification -/

section Spec
variable {F : Type} [Field F]

/-- A permutation grand product: its value, its value at the next row and, except for the last one, at the last usable row. -/
structure ZVals (F : Type) where
  z : F
  next : F
  last : F

/-- `z(ωX) Π (p_j + β σ_j + γ) - z(X) Π (p_j + β δ^(m i + j) X + γ)`, the step of grand product number `i` with `m` columns each. -/
def permStep (beta gamma delta x : F) (m i : ℕ) (s : ZVals F) (cols : List (F × F)) : F :=
  s.next * (cols.map fun p => p.1 + beta * p.2 + gamma).prod -
    s.z * (cols.mapIdx fun j p => p.1 + beta * delta ^ (m * i + j) * x + gamma).prod

/-- The constraints of the permutation argument: halo2 book, section "Permutation argument". -/
def permSpec (l0 llast lblind beta gamma delta x : F) (m : ℕ) (sets : List (ZVals F)) (cols : List (List (F × F))) : List F :=
  (sets.head?.map fun s => l0 * (1 - s.z)).toList ++
  (sets.getLast?.map fun s => llast * (s.z ^ 2 - s.z)).toList ++
  List.zipWith (fun s prev => (s.z - prev.last) * l0) sets.tail sets ++
  (List.zip sets cols).mapIdx fun i p => permStep beta gamma delta x m i p.1 p.2 * (1 - (llast + lblind))

/-- The constraints of the lookup argument: halo2 book, section "Lookup argument"; `a`, `s` are the compressed input and table. -/
def lookupSpec (l0 llast lblind beta gamma z zNext a' a'prev s' a s : F) : List F :=
  [l0 * (1 - z), llast * (z ^ 2 - z),
   (1 - (llast + lblind)) * (zNext * (a' + beta) * (s' + gamma) - z * (a + beta) * (s + gamma)),
   l0 * (a' - s'), (1 - (llast + lblind)) * ((a' - s') * (a' - a'prev))]

open Polynomial in
/-- `p` is the Lagrange basis polynomial of the `n`-th roots of unity for the root `w`. -/
def IsLagrange (n : ℕ) (w : F) (p : F[X]) : Prop :=
  p.degree < n ∧ p.eval w = 1 ∧ ∀ r : F, r ^ n = 1 → r ≠ w → p.eval r = 0

end Spec

/-! ### Proofs -/

variable {F G : Type} {c : Chip F G} [Field F] [AddCommGroup G] [Module F G] {gen : G}

open Polynomial in
/-- The closed form of the basis polynomial away from its root. -/
theorem IsLagrange.value {n : ℕ} {w omega : F} {p : F[X]} (hp : IsLagrange n w p) (hn : 0 < n) (hw : w ^ n = 1)
    (ho : IsPrimitiveRoot omega n) {x : F} (hx : x ≠ w) : p.eval x = w / n * (x ^ n - 1) / (x - w) := by
  haveI : NeZero n := ⟨hn.ne'⟩
  have hn0 : (n : F) ≠ 0 := ho.neZero'.out
  have hw0 : w ≠ 0 := by rintro rfl; rw [zero_pow hn.ne'] at hw; exact zero_ne_one hw
  obtain ⟨h1, h2, h3⟩ := hp
  let S : F[X] := ∑ i ∈ Finset.range n, X ^ i * C w ^ (n - 1 - i)
  have hS : S * (X - C w) = X ^ n - C w ^ n := Commute.geom_sum₂_mul (Commute.all _ _) n
  let q : F[X] := C (w / n) * S
  have hq : p = q := by
    have hinj : Set.InjOn (fun i : ℕ => omega ^ i) (Finset.range n) := fun i hi j hj h =>
      ho.pow_inj (by simpa using hi) (by simpa using hj) h
    refine Polynomial.eq_of_degrees_lt_of_eval_index_eq (Finset.range n) hinj (by simpa using h1) ?_ ?_
    · rw [Finset.card_range]
      refine lt_of_le_of_lt (degree_mul_le _ _) ?_
      have hc : (C (w / (n : F))).degree = 0 := degree_C (div_ne_zero hw0 hn0)
      rw [hc, zero_add]
      refine lt_of_le_of_lt (degree_sum_le _ _) ?_
      rw [Finset.sup_lt_iff (by exact_mod_cast WithBot.bot_lt_coe n)]
      intro i hi
      refine lt_of_le_of_lt (degree_mul_le _ _) ?_
      rw [← C_pow, degree_C (pow_ne_zero _ hw0), degree_X_pow, add_zero]
      exact_mod_cast Finset.mem_range.1 hi
    · intro i hi
      have hr : (omega ^ i) ^ n = 1 := by rw [← pow_mul, mul_comm, pow_mul, ho.pow_eq_one, one_pow]
      by_cases hiw : omega ^ i = w
      · rw [hiw, h2]
        have : S.eval w = n * w ^ (n - 1) := by
          rw [eval_finset_sum, Finset.sum_congr rfl (g := fun _ => w ^ (n - 1))]
          · rw [Finset.sum_const, Finset.card_range, nsmul_eq_mul]
          · intro j hj
            have := Finset.mem_range.1 hj
            rw [eval_mul, eval_pow, eval_X, ← C_pow, eval_C, ← pow_add]
            congr 1
            omega
        rw [eval_mul, eval_C, this, ← mul_assoc, div_mul_cancel₀ _ hn0, ← pow_succ', Nat.sub_add_cancel hn, hw]
      · rw [h3 _ hr hiw, eval_mul, eval_C]
        have := congrArg (Polynomial.eval (omega ^ i)) hS
        rw [eval_mul, eval_sub, eval_sub, eval_X, eval_C, eval_pow, eval_X, ← C_pow, eval_C, hr, hw, sub_self] at this
        rcases mul_eq_zero.1 this with h | h
        · rw [h, mul_zero]
        · exact absurd (sub_eq_zero.1 h) hiw
  rw [hq, eval_mul, eval_C]
  have := congrArg (Polynomial.eval x) hS
  rw [eval_mul, eval_sub, eval_sub, eval_X, eval_C, eval_pow, eval_X, ← C_pow, eval_C, hw] at this
  rw [← this, mul_div_assoc, mul_div_cancel_right₀ _ (sub_ne_zero.2 hx)]

namespace Logic
variable (L : Logic c gen)

theorem mapM' {α β : Type} {f : α → c.m β} {P : α → β → Prop} : ∀ {l : List α}, (∀ a ∈ l, L.Ens (f a) (P a)) →
    L.Ens (Api.mapM' c f l) fun r => List.Forall₂ P l r
  | [], _ => L.pure .nil
  | a :: l, h => L.bind (h a (by simp)) fun b hb => L.bind (mapM' fun a ha => h a (by simp [ha])) fun bs hbs =>
      L.pure (.cons hb hbs)

theorem wsLoop (omega : c.S) (h0 : L.sv omega ≠ 0) : ∀ (k : ℕ) (w : c.S), L.Ens (Api.wsLoop c omega k w)
    fun r => r.map L.sv = (List.range k).map fun i => L.sv w * (L.sv omega)⁻¹ ^ (i + 1)
  | 0, _ => L.pure rfl
  | k + 1, w => L.bind (L.div w omega h0) fun w' hw' => L.bind (wsLoop omega h0 k w') fun r hr => L.pure (by
      rw [List.map_cons, hr, hw', List.range_succ_eq_map, List.map_cons, List.map_map]
      congr 1
      · rw [zero_add, pow_one, div_eq_mul_inv]
      · apply List.map_congr_left
        intro i _
        simp only [Function.comp]
        rw [div_eq_mul_inv, mul_assoc, ← pow_succ'])

/-- The values the code computes. -/
theorem lagrangeCommits {omega n x xn one : c.S} (l : ℕ) (h1 : L.sv one = 1) (ho : L.sv omega ≠ 0) (hn : L.sv n ≠ 0)
    (hx : ∀ i ≤ l, L.sv x ≠ (L.sv omega)⁻¹ ^ i) : L.Ens (Api.lagrangeCommits c omega n x xn one l) fun r =>
      r.map L.sv = (List.range (l + 1)).map fun i =>
        ((L.sv omega)⁻¹ ^ i / L.sv n) * (L.sv xn - 1) / (L.sv x - (L.sv omega)⁻¹ ^ i) := by
  refine L.bind (L.wsLoop omega ho l one) fun ws hws => ?_
  have hall : (one :: ws).map L.sv = (List.range (l + 1)).map fun i => (L.sv omega)⁻¹ ^ i := by
    rw [List.map_cons, hws, h1, List.range_succ_eq_map, List.map_cons, List.map_map]
    simp only [one_mul, pow_zero]
    rfl
  refine L.mono (L.mapM' (P := fun wi r => L.sv r = (L.sv wi / L.sv n) * (L.sv xn - 1) / (L.sv x - L.sv wi)) fun wi hwi => ?_)
    fun r hr => ?_
  · have hmem : L.sv wi ∈ (one :: ws).map L.sv := List.mem_map_of_mem hwi
    rw [hall, List.mem_map] at hmem
    obtain ⟨i, hi, hiw⟩ := hmem
    have hne : L.sv x ≠ L.sv wi := by
      rw [← hiw]
      exact hx i (by simpa [Nat.lt_succ_iff] using hi)
    refine L.mono (L.ast _ ?_) fun r hr => ?_
    · simp [hn, sub_ne_zero.2 hne]
    · rw [hr]
      simp only [Ast.val_div, Ast.val_mul, Ast.val_sub, Ast.val_value, h1]
  · have : r.map L.sv = ((one :: ws).map L.sv).map fun w => (w / L.sv n) * (L.sv xn - 1) / (L.sv x - w) := by
      clear hall hws
      generalize one :: ws = l at hr
      induction hr with
      | nil => rfl
      | cons h _ ih => rw [List.map_cons, List.map_cons, List.map_cons, ih, h]
    rw [this, hall, List.map_map]
    rfl

/-! ### Permutation -/

theorem firstExpr {l0 one : c.S} (h1 : L.sv one = 1) (s : Option (PermSet c.P c.S)) : L.Ens (Api.firstExpr c l0 one s) fun r =>
    r.map L.sv = (s.map fun s => L.sv l0 * (1 - L.sv s.eval)).toList := by
  cases s with
  | none => exact L.pure rfl
  | some s => exact L.bind (L.ast _ (by simp)) fun r hr => L.pure (by simp [hr, h1])

theorem lastExpr {llast : c.S} (s : Option (PermSet c.P c.S)) : L.Ens (Api.lastExpr c llast s) fun r =>
    r.map L.sv = (s.map fun s => L.sv llast * (L.sv s.eval ^ 2 - L.sv s.eval)).toList := by
  cases s with
  | none => exact L.pure rfl
  | some s => exact L.bind (L.ast _ (by simp)) fun r hr => L.pure (by simp [hr, sq])

/-- The values of a set. -/
def zvals (s : PermSet c.P c.S) : ZVals F := ⟨L.sv s.eval, L.sv s.next, (s.last.map L.sv).getD 0⟩

theorem chainExprs {l0 : c.S} : ∀ {ps : List (PermSet c.P c.S × PermSet c.P c.S)}, (∀ p ∈ ps, p.2.last.isSome) →
    L.Ens (Api.chainExprs c l0 ps) fun r => r.map L.sv = ps.map fun p => ((L.zvals p.1).z - (L.zvals p.2).last) * L.sv l0 := by
  intro ps hps
  refine L.mono (L.mapM' (P := fun p r => L.sv r = ((L.zvals p.1).z - (L.zvals p.2).last) * L.sv l0) fun p hp => ?_) fun r hr => ?_
  · obtain ⟨a, ha⟩ := Option.isSome_iff_exists.1 (hps p hp)
    refine L.bind (L.unwrap ha) fun b hb => L.mono (L.ast _ (by simp)) fun r hr => ?_
    subst hb
    rw [hr]
    simp [zvals, ha]
  · clear hps
    induction hr with
    | nil => rfl
    | cons h _ ih => rw [List.map_cons, List.map_cons, ih, h]

theorem permInner {delta beta gamma : c.S} : ∀ (l : List (c.S × c.S)) (left right d : c.S),
    L.Ens (Api.permInner c delta beta gamma l left right d) fun r =>
      L.sv r.1 = L.sv left * (l.map fun p => L.sv p.1 + L.sv beta * L.sv p.2 + L.sv gamma).prod ∧
      L.sv r.2 = L.sv right * (l.mapIdx fun j p => L.sv p.1 + L.sv d * L.sv delta ^ j + L.sv gamma).prod
  | [], left, right, d => L.pure (by simp)
  | (e, pe) :: l, left, right, d => by
    refine L.bind (L.ast _ (by simp)) fun t2 h2 => L.bind (L.ast _ (by simp)) fun a ha => L.bind (L.ast _ (by simp)) fun b hb => ?_
    refine L.bind (L.ast _ (by simp)) fun d' hd' => L.mono (permInner l a b d') fun r hr => ?_
    simp only [Ast.val_add, Ast.val_mul, Ast.val_value] at h2 ha hb hd'
    refine ⟨?_, ?_⟩
    · rw [hr.1, ha, h2, List.map_cons, List.prod_cons]
      ring
    · rw [hr.2, hb, h2, List.mapIdx_cons, List.prod_cons, hd']
      have : (fun j (p : c.S × c.S) => L.sv p.1 + L.sv delta * L.sv d * L.sv delta ^ j + L.sv gamma) =
          fun j p => L.sv p.1 + L.sv d * L.sv delta ^ (j + 1) + L.sv gamma := by
        funext j p; ring
      rw [this]
      ring

theorem powConst (base : c.S) {e : ℕ} (h1 : 1 ≤ e) (h2 : e < 2 ^ 31) : L.Ens (Api.powConst c base e) fun r => L.sv r = L.sv base ^ e := by
  obtain ⟨x, hx, hens⟩ := L.powConstant base h1 h2 (le_refl 32)
  unfold Api.powConst
  rw [hx]
  exact hens

theorem deltaPow {delta one : c.S} (h1 : L.sv one = 1) {i k : ℕ} (hk : 0 < k) (hlt : i * k < 2 ^ 31) :
    L.Ens (Api.deltaPow c delta one i k) fun r => L.sv r = L.sv delta ^ (k * i) := by
  unfold Api.deltaPow
  split
  · next h => subst h; exact L.pure (by simpa using h1)
  · next h =>
    rw [Nat.mod_eq_of_lt (by omega)]
    refine L.mono (L.powConst delta ?_ hlt) fun r hr => by rw [hr, mul_comm]
    exact Nat.mul_pos (Nat.pos_of_ne_zero h) hk

/-- The columns of one chunk. -/
def cols (evals permEvals : List c.S) : List (F × F) := (evals.zip permEvals).map fun p => (L.sv p.1, L.sv p.2)

theorem permChunk {delta beta gamma one t0 t1 x : c.S} (h1 : L.sv one = 1) (ht0 : L.sv t0 = L.sv beta * L.sv x) {k i : ℕ}
    (hk : 0 < k) (hlt : i * k < 2 ^ 31) (s : PermSet c.P c.S) (ev pe : List c.S) :
    L.Ens (Api.permChunk c delta beta gamma one t0 t1 k i s ev pe) fun r =>
      L.sv r = permStep (L.sv beta) (L.sv gamma) (L.sv delta) (L.sv x) k i (L.zvals s) (L.cols ev pe) * L.sv t1 := by
  refine L.bind (L.deltaPow h1 hk hlt) fun dp hdp => L.bind (L.ast _ (by simp)) fun d hd => ?_
  refine L.bind (L.permInner (ev.zip pe) s.next s.eval d) fun lr hlr => L.mono (L.ast _ (by simp)) fun r hr => ?_
  simp only [Ast.val_sub, Ast.val_mul, Ast.val_value] at hr hd
  rw [hr, hlr.1, hlr.2, permStep, cols, List.map_map]
  congr 4
  apply List.ext_getElem
  · simp
  · intro j h2 h3
    simp only [List.getElem_mapIdx, List.getElem_map, hd, ht0, hdp, pow_add]
    ring

theorem permChunks {delta beta gamma one t0 t1 x : c.S} (h1 : L.sv one = 1) (ht0 : L.sv t0 = L.sv beta * L.sv x) {k : ℕ}
    (hk : 0 < k) : ∀ (l : List ((PermSet c.P c.S × List c.S) × List c.S)) (i : ℕ), (i + l.length) * k ≤ 2 ^ 31 →
    L.Ens (Api.permChunks c delta beta gamma one t0 t1 k i l) fun r =>
      r.map L.sv = l.mapIdx fun j p => permStep (L.sv beta) (L.sv gamma) (L.sv delta) (L.sv x) k (i + j) (L.zvals p.1.1)
        (L.cols p.1.2 p.2) * L.sv t1
  | [], _, _ => L.pure rfl
  | p :: l, i, hlt => by
    have h3 : (i + 1 + l.length) * k ≤ 2 ^ 31 := by
      rw [List.length_cons] at hlt
      rwa [show i + 1 + l.length = i + (l.length + 1) by omega]
    have h2 : i * k < 2 ^ 31 := by
      have := Nat.mul_le_mul_right k (show i + 1 ≤ i + 1 + l.length by omega)
      have h4 : i * k < (i + 1) * k := Nat.mul_lt_mul_of_pos_right (by omega) hk
      omega
    refine L.bind (L.permChunk h1 ht0 hk h2 p.1.1 p.1.2 p.2) fun r hr => L.bind (permChunks h1 ht0 hk l (i + 1) h3) fun rs hrs => L.pure ?_
    rw [List.map_cons, hr, hrs, List.mapIdx_cons]
    congr 2
    funext j p
    rw [show i + 1 + j = i + (j + 1) by omega]

theorem chunksM {α : Type} {k : ℕ} (hk : 0 < k) (l : List α) : L.Ens (Api.chunksM c k l) fun r => r = chunks k l := by
  unfold Api.chunksM
  rw [if_neg (by omega)]
  exact L.pure rfl

/-- The columns of each grand product. -/
def chunkCols (k : ℕ) (evals permEvals : List c.S) : List (List (F × F)) :=
  List.zipWith L.cols (chunks k evals) (chunks k permEvals)

/-- `expressions` of the permutation argument. -/
theorem permExpressions (p : PermEval c.P c.S) (pe : List c.S) {l0 llast lblind delta beta gamma x one : c.S} (h1 : L.sv one = 1)
    (hk : 0 < p.chunkLen) (hlast : ∀ s ∈ p.sets.dropLast, s.last.isSome) (hlen : p.sets.length * p.chunkLen ≤ 2 ^ 31) :
    L.Ens (Api.permExpressions c p pe l0 llast lblind delta beta gamma x one) fun r =>
      r.map L.sv = permSpec (L.sv l0) (L.sv llast) (L.sv lblind) (L.sv beta) (L.sv gamma) (L.sv delta) (L.sv x) p.chunkLen
        (p.sets.map L.zvals) (L.chunkCols p.chunkLen p.evals pe) := by
  refine L.bind (L.firstExpr h1 _) fun r1 hr1 => L.bind (L.lastExpr _) fun r2 hr2 => ?_
  have hmem : ∀ q ∈ (p.sets.drop 1).zip p.sets, q.2.last.isSome := by
    rintro ⟨a, b⟩ hq
    refine hlast b ?_
    rw [List.mem_iff_getElem] at hq
    obtain ⟨i, hi, hq⟩ := hq
    rw [List.length_zip, List.length_drop] at hi
    rw [List.getElem_zip, Prod.mk.injEq] at hq
    rw [List.mem_iff_getElem]
    exact ⟨i, by rw [List.length_dropLast]; omega, by rw [List.getElem_dropLast]; exact hq.2⟩
  refine L.bind (L.chainExprs hmem) fun r3 hr3 => L.bind (L.ast _ (by simp)) fun t0 ht0 => L.bind (L.ast _ (by simp)) fun t1 ht1 => ?_
  refine L.bind (L.chunksM hk _) fun ev hev => L.bind (L.chunksM hk _) fun pes hpe => ?_
  subst hev hpe
  simp only [Ast.val_sub, Ast.val_mul, Ast.val_add, Ast.val_value] at ht0 ht1
  refine L.bind (L.permChunks h1 ht0 hk _ 0 ?_) fun r4 hr4 => L.pure ?_
  · rw [zero_add]
    refine le_trans (Nat.mul_le_mul_right _ ?_) hlen
    rw [List.length_zip, List.length_zip]
    omega
  · rw [List.map_append, List.map_append, List.map_append, hr1, hr2, hr3, hr4, permSpec]
    congr 1
    · congr 1
      · congr 1
        · rw [List.head?_map, Option.map_map]; rfl
        · rw [List.getLast?_map, Option.map_map]; rfl
      · rw [← List.map_tail, List.zipWith_map, List.drop_one, List.zip, List.map_zipWith]
    · apply List.ext_getElem
      · simp [chunkCols, Nat.min_assoc]
      · intro j h2 h3
        simp only [List.getElem_mapIdx, List.getElem_zip, List.getElem_map, chunkCols, List.getElem_zipWith, zero_add, ht1, h1]

/-! ### Lookup -/

/-- The compressed value of a list of expressions. -/
def compress (q : QueryEvals c.S) (theta : F) (es : List (Expr c.S)) : F :=
  combine theta (es.map fun e => (e.map L.sv).value (L.at' q.fixed) (L.at' q.advice) (L.at' q.instance) (L.at' q.challenges))

theorem evalAll {q : QueryEvals c.S} {zero : c.S} (hz : L.sv zero = 0) {es : List (Expr c.S)} (h : ∀ e ∈ es, e.Closed q) :
    L.Ens (Api.mapM' c (Api.chipEvaluate c q zero) es) fun r => r.map L.sv =
      es.map fun e => (e.map L.sv).value (L.at' q.fixed) (L.at' q.advice) (L.at' q.instance) (L.at' q.challenges) :=
  L.mono (L.mapM' fun e he => L.chipEvaluate q zero hz e (h e he)) fun r hr => by
    clear h
    induction hr with
    | nil => rfl
    | cons h _ ih => rw [List.map_cons, List.map_cons, ih, h]

theorem lookupExpressions (k : LookupEval c.P c.S) {q : QueryEvals c.S} {l0 llast lblind theta beta gamma zero one : c.S}
    (h1 : L.sv one = 1) (h0 : L.sv zero = 0) (hi : ∀ e ∈ k.input, e.Closed q) (ht : ∀ e ∈ k.table, e.Closed q) :
    L.Ens (Api.lookupExpressions c k q l0 llast lblind theta beta gamma zero one) fun r =>
      r.map L.sv = lookupSpec (L.sv l0) (L.sv llast) (L.sv lblind) (L.sv beta) (L.sv gamma) (L.sv k.productEval) (L.sv k.productNext)
        (L.sv k.inputEval) (L.sv k.inputInv) (L.sv k.tableEval) (L.compress q (L.sv theta) k.input)
        (L.compress q (L.sv theta) k.table) := by
  unfold Api.lookupExpressions
  dsimp only
  refine L.bind (L.ast _ (by simp)) fun left hleft => ?_
  refine L.bind (L.evalAll h0 hi) fun ies hies => L.bind (L.mulAddAccumulate ies theta) fun ie hie => ?_
  refine L.bind (L.evalAll h0 ht) fun tes htes => L.bind (L.mulAddAccumulate tes theta) fun te hte => ?_
  refine L.bind (L.ast _ (by simp)) fun t0 ht0 => L.bind (L.ast _ (by simp)) fun t1 ht1 => ?_
  refine L.bind (L.ast _ (by simp)) fun e1 he1 => L.bind (L.ast _ (by simp)) fun e2 he2 => L.bind (L.ast _ (by simp)) fun e3 he3 => ?_
  refine L.bind (L.ast _ (by simp)) fun e4 he4 => L.bind (L.ast _ (by simp)) fun e5 he5 => L.pure ?_
  simp only [Ast.val_sub, Ast.val_mul, Ast.val_add, Ast.val_value] at hleft ht0 ht1 he1 he2 he3 he4 he5
  rw [hies] at hie
  rw [htes] at hte
  simp only [List.map_cons, List.map_nil, lookupSpec, he1, he2, he3, he4, he5, hleft, ht0, ht1, hie, hte, h1, compress]
  congr 2
  · ring
  · congr 1
    · ring
    · congr 2
      ring

/-! ### Vanishing -/

variable {K : String → G}

/-- The quotient: its commitment is `Σ (xⁿ)^i h_i`, its expected value is the combination of the expressions over `xⁿ - 1`. -/
theorem vanishNew (es : List c.S) (y xn : c.S) (random : c.P) (re : c.S) {hs : List c.P} {Hs : List G} {one : c.S} (key : String)
    (h1 : L.sv one = 1) (hx : L.sv xn ≠ 1) (hne : hs ≠ []) (hhs : List.Forall₂ L.pv hs Hs)
    (hK : ∀ i H, Hs.reverse[i]? = some H → K (hKey key i) = H) :
    L.Ens (VanishEval.new c es y xn random re hs one key) fun r => r.key = key ∧ r.random = random ∧ r.randomEval = re ∧
      r.h.WF L.pv K ∧ L.den K r.h = (powSum (L.sv xn) Hs, 0) ∧
      L.sv r.expectedEval = combine (L.sv y) (es.map L.sv) / (L.sv xn - 1) := by
  refine L.bind (L.mulAddAccumulate es y) fun e he => ?_
  refine L.bind (L.ast _ ?_) fun ex hex => ?_
  · simp [h1, sub_ne_zero.2 hx]
  · let sch : List (Schema c.P c.S) := hs.reverse.mapIdx fun i p => .commitment ⟨hKey key i, some p, none⟩
    have hkey : ∀ i, hKey key i ≠ "" := fun i h => by
      have := congrArg String.length h
      simp [hKey, String.length_append] at this
    have hget : ∀ i (hi : i < hs.reverse.length), ∃ H, Hs.reverse[i]? = some H ∧ L.pv hs.reverse[i] H := by
      intro i hi
      have h2 := List.rel_reverse hhs
      have hl := h2.length_eq
      refine ⟨Hs.reverse[i], List.getElem?_eq_getElem _, ?_⟩
      exact (List.forall₂_iff_get.1 h2).2 i hi (hl ▸ hi)
    obtain ⟨s, g1, g2, g3⟩ := L.reduceSchemas (K := K) xn (l := sch.reverse) (by simpa [sch] using hne) (by
      intro s hs'
      rw [List.mem_reverse, List.mem_iff_getElem] at hs'
      obtain ⟨i, hi, rfl⟩ := hs'
      rw [List.length_mapIdx] at hi
      rw [List.getElem_mapIdx]
      obtain ⟨H, hH, hpv⟩ := hget i hi
      exact ⟨hkey i, _, rfl, by rw [hK i H hH]; exact hpv⟩)
    unfold Api.reduceSchemas at g1
    rw [List.reverse_reverse] at g1
    refine L.bind (L.unwrap g1) fun s' hs' => L.pure ⟨rfl, rfl, rfl, ?_⟩
    subst hs'
    refine ⟨g2, ?_, ?_⟩
    · rw [g3]
      have : sch.reverse.map (L.den K) = Hs.map fun H => (H, (0 : F)) := by
        rw [List.map_reverse, List.reverse_eq_iff, ← List.map_reverse]
        apply List.ext_getElem
        · simp [sch, hhs.length_eq]
        · intro i h2 h3
          simp only [sch, List.getElem_map, List.getElem_mapIdx]
          rw [List.length_map, List.length_mapIdx] at h2
          obtain ⟨H, hH, -⟩ := hget i h2
          rw [List.getElem?_eq_some_iff] at hH
          obtain ⟨h4, h5⟩ := hH
          rw [h5]
          show (K (hKey key i), (0 : F)) = (H, 0)
          rw [hK i H (by rw [List.getElem?_eq_some_iff]; exact ⟨h4, h5⟩)]
      rw [this]
      exact powSum_map (LinearMap.inl F G F) (L.sv xn) Hs
    · simp only [Ast.val_div, Ast.val_sub, Ast.val_value] at hex
      rw [hex, he, h1]

end Logic

end Verif.Api
