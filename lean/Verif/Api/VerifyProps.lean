import Verif.Api.Total
import Verif.Api.Props

/-!
# Properties of the verifier

C27, C51 and the statements about whole proofs: C61 to C67.
-/

namespace Verif.Api
open Circuit Ecc

section Generic
variable {F G : Type} {c : Chip F G} [Field F] [AddCommGroup G] [Module F G] {gen : G}

/-! ### C27: commitment keys -/

/-- Within one aggregation of proofs that have one instance vector each and different keys: there is a single meaning of the keys for
which every commitment of every query is what its key says. The full statement has no such restriction; it is false, see
`C27_two_instances` and `C27_same_name`. -/
theorem C27_keys_partial (L : Logic c gen) {ps : List (Params c.P c.S × Params G F)}
    (hR : ∀ q ∈ ps, L.ParamsRel q.1 q.2 ∧ q.1.Valid ∧ q.2.Generic)
    (hone : ∀ q ∈ ps, q.2.Keyed ∧ q.2.instanceCommitments.length = 1)
    (hkey : ∀ q ∈ ps, ∃ (name : String) (i : ℕ), q.2.key = name ++ "_p" ++ toString i) (hd : (ps.map fun q => q.2.key).Nodup) :
    ∃ K : String → G, ∀ q ∈ ps, L.Ens (queries c q.1) fun r => (∀ e ∈ r, e.s.WF L.pv K) ∧ r.map (L.claim K) = q.2.claims := by
  obtain ⟨K, hK⟩ := Params.keys_many (vs := ps.map Prod.snd) (by
      intro v hv
      obtain ⟨q, hq, rfl⟩ := List.mem_map.1 hv
      exact hone q hq) (by
      intro v hv
      obtain ⟨q, hq, rfl⟩ := List.mem_map.1 hv
      exact hkey q hq) (by rw [List.map_map]; exact hd)
  refine ⟨K, fun q hq => ?_⟩
  exact L.queries (hR q hq).1 (hR q hq).2.1 (hR q hq).2.2 fun e he => hK q.2 (List.mem_map_of_mem hq) e he

/-- Different commitments of one proof have different keys, and so have commitments of proofs with different circuit name or number. -/
theorem C27_key_injective {n n' : String} {i i' : ℕ} {a a' : Name} (h : proofKey n i ++ a.suffix = proofKey n' i' ++ a'.suffix) :
    n = n' ∧ i = i' ∧ a = a' := key_injective h

/-- Not even obvious: a name can look like the end of another key. -/
example : proofKey "c_p1" 2 ++ (Name.w 3).suffix = "c_p1_p2_w3" := by decide +kernel

/-- A record with two instances, one advice column each, queried at rotations 0 and 1. -/
def twoInstances (p : Params G F) (A B : G) (a₀ a₁ b₀ b₁ : F) : Params G F :=
  { p with
    key := "c", adviceQueries := [(0, 0), (0, 1)], instanceQueries := [], instanceCommitments := [[], []], instanceEvals := [[], []],
    adviceCommitments := [[A], [B]], adviceEvals := [[a₀, a₁], [b₀, b₁]], lookups := [[], []],
    perms := [⟨"c_0", 1, p.x, [], [], 1⟩, ⟨"c_1", 1, p.x, [], [], 1⟩] }

theorem two_queries (gen : G) (p : Params G F) (A B : G) (a₀ a₁ b₀ b₁ : F) :
    proofQueries (mock F gen) (twoInstances p A B a₀ a₁ b₀ b₁) 0 =
      some [EvalQuery.mk' (mock F gen) 0 (adviceKey "c" 0) (0 + p.x * p.omega ^ 0) A a₀,
        EvalQuery.mk' (mock F gen) 1 (adviceKey "c" 0) (0 + p.x * p.omega ^ 1) A a₁] ∧
    proofQueries (mock F gen) (twoInstances p A B a₀ a₁ b₀ b₁) 1 =
      some [EvalQuery.mk' (mock F gen) 0 (adviceKey "c" 0) (0 + p.x * p.omega ^ 0) B b₀,
        EvalQuery.mk' (mock F gen) 1 (adviceKey "c" 0) (0 + p.x * p.omega ^ 1) B b₁] := ⟨rfl, rfl⟩

theorem two_opened (gen : G) (key k l : String) (u v z z' a b a' b' : F) (W W' C D : G) :
    batchMultiOpen (mock F gen) key u v [W, W'] [EvalQuery.mk' (mock F gen) 0 k z C a, EvalQuery.mk' (mock F gen) 1 k z' C b,
      EvalQuery.mk' (mock F gen) 0 l z D a', EvalQuery.mk' (mock F gen) 1 l z' D b'] =
    some ⟨.scalar u * .commitment ⟨wKey key 1, some W', none⟩ + .commitment ⟨wKey key 0, some W, none⟩,
      .scalar u * (.scalar z' * .commitment ⟨wKey key 1, some W', none⟩ +
          (.scalar v * (.commitment ⟨l, some D, some b'⟩ + .eval ⟨l, some D, some b'⟩) +
            (.commitment ⟨k, some C, some b⟩ + .eval ⟨k, some C, some b⟩))) +
        .scalar z * .commitment ⟨wKey key 0, some W, none⟩ +
          (.scalar v * (.commitment ⟨l, some D, some a'⟩ + .eval ⟨l, some D, some a'⟩) +
            (.commitment ⟨k, some C, some a⟩ + .eval ⟨k, some C, some a⟩))⟩ := rfl

/-- The queries of both instances, opened and evaluated. -/
noncomputable def twoPair (gen : G) (p : Params G F) (A B W W' : G) (a₀ a₁ b₀ b₁ : F) : Option (G × G) := do
  let q₀ ← proofQueries (mock F gen) (twoInstances p A B a₀ a₁ b₀ b₁) 0
  let q₁ ← proofQueries (mock F gen) (twoInstances p A B a₀ a₁ b₀ b₁) 1
  let m ← batchMultiOpen (mock F gen) "c" p.u p.v [W, W'] (q₀ ++ q₁)
  evaluateMultiopen (mock F gen) m

/-- A proof with two instances: the advice commitments `A` and `B` of both get the same key, so `B` is used for both. The result does
not depend on `A`. -/
theorem C27_two_instances (gen : G) (p : Params G F) (A B W W' : G) (a₀ a₁ b₀ b₁ : F) :
    twoPair gen p A B W W' a₀ a₁ b₀ b₁ = some (p.u • W' + W,
      (p.u * (p.omega * p.x)) • W' + (p.u * p.v + p.u + (p.v + 1)) • B + p.x • W - (p.u * p.v * b₁ + p.u * a₁ + (p.v * b₀ + a₀)) • gen) := by
  have h : ∀ m, batchMultiOpen (mock F gen) "c" p.u p.v [W, W']
      [EvalQuery.mk' (mock F gen) 0 (adviceKey "c" 0) (0 + p.x * p.omega ^ 0) A a₀,
        EvalQuery.mk' (mock F gen) 1 (adviceKey "c" 0) (0 + p.x * p.omega ^ 1) A a₁,
        EvalQuery.mk' (mock F gen) 0 (adviceKey "c" 0) (0 + p.x * p.omega ^ 0) B b₀,
        EvalQuery.mk' (mock F gen) 1 (adviceKey "c" 0) (0 + p.x * p.omega ^ 1) B b₁] = some m →
      twoPair gen p A B W W' a₀ a₁ b₀ b₁ = evaluateMultiopen (mock F gen) m := by
    intro m hm
    unfold twoPair
    rw [(two_queries gen p A B a₀ a₁ b₀ b₁).1, (two_queries gen p A B a₀ a₁ b₀ b₁).2]
    exact congrArg (fun o => Option.bind o (evaluateMultiopen (mock F gen))) hm
  have k0 : wKey "c" 0 = "c_w0" := by decide +kernel
  have k1 : wKey "c" 1 = "c_w1" := by decide +kernel
  have k2 : adviceKey "c" 0 = "c_advice_commitments0" := by decide +kernel
  rw [h _ (two_opened ..), k0, k1, k2]
  refine Eq.trans (b := some (p.u • W' + W, (p.u * (0 + p.x * p.omega ^ 1)) • W' + (p.u * p.v + p.u + (p.v + 1)) • B +
    (0 + p.x * p.omega ^ 0) • W - (p.u * p.v * b₁ + p.u * a₁ + (p.v * b₀ + a₀)) • gen)) ?_ ?_
  · show some (_, _) = _
    rfl
  · rw [pow_one, pow_zero, mul_one, zero_add, zero_add, mul_comm p.x]

theorem one_opened (gen : G) (key k : String) (u v z z' a b : F) (W W' C : G) :
    batchMultiOpen (mock F gen) key u v [W, W'] [EvalQuery.mk' (mock F gen) 0 k z C a, EvalQuery.mk' (mock F gen) 1 k z' C b] =
    some ⟨.scalar u * .commitment ⟨wKey key 1, some W', none⟩ + .commitment ⟨wKey key 0, some W, none⟩,
      .scalar u * (.scalar z' * .commitment ⟨wKey key 1, some W', none⟩ + (.commitment ⟨k, some C, some b⟩ + .eval ⟨k, some C, some b⟩)) +
        .scalar z * .commitment ⟨wKey key 0, some W, none⟩ + (.commitment ⟨k, some C, some a⟩ + .eval ⟨k, some C, some a⟩)⟩ := rfl

/-- Two proofs under one key, as for two circuits of the same name: the commitments of the first, `W`, `W'`, `C`, are also used for the
second. The result does not depend on the points `V`, `V'`, `D` of the second. -/
theorem C27_same_name (gen : G) (ch u v z z' e₁ e₂ e₃ e₄ : F) (W W' C V V' D : G) :
    (do
      let p₁ ← batchMultiOpen (mock F gen) "c_p0" u v [W, W'] [EvalQuery.mk' (mock F gen) 0 "c_p0_advice_commitments0" z C e₁,
        EvalQuery.mk' (mock F gen) 1 "c_p0_advice_commitments0" z' C e₂]
      let p₂ ← batchMultiOpen (mock F gen) "c_p0" u v [V, V'] [EvalQuery.mk' (mock F gen) 0 "c_p0_advice_commitments0" z D e₃,
        EvalQuery.mk' (mock F gen) 1 "c_p0_advice_commitments0" z' D e₄]
      aggregate (mock F gen) ch [p₁, p₂] : Option (G × G)) =
    some ((ch * u + u) • W' + (ch + 1) • W, (ch * u * z' + u * z') • W' + (ch * u + ch + (u + 1)) • C + (ch * z + z) • W -
      (ch * u * e₂ + ch * e₁ + (u * e₄ + e₃)) • gen) := by
  have k0 : wKey "c_p0" 0 = "c_p0_w0" := by decide +kernel
  have k1 : wKey "c_p0" 1 = "c_p0_w1" := by decide +kernel
  rw [one_opened, one_opened, k0, k1]
  show some (_, _) = _
  rfl

/-! ### C51: instance commitments -/

/-- The points commit to the columns, for any number and length of columns; the scalars handed out are the instances. -/
theorem C51_instance_commitment (L : Logic c gen) {vk : VK F G} (hb : vk.gLagrange.length = vk.n) (instances : List (List (List F)))
    (h : vk.Fits instances ∨ L.Partial) :
    L.Ens (assignInstanceCommitment vk instances) fun r => ∃ as : List (List (List c.S)), r.1 = as.flatten.flatten ∧
      List.Forall₂ (List.Forall₂ (List.Forall₂ L.wit)) as instances ∧ (∀ row ∈ r.2, row.length = vk.numInstance) ∧
      List.Forall₂ (List.Forall₂ L.pv) r.2 (as.map (List.map fun col => vk.commit (col.map L.sv))) :=
  L.assignInstanceCommitment hb instances h

theorem C51_instance_commitment_mock (gen : G) {vk : VK F G} (hb : vk.gLagrange.length = vk.n) {instances : List (List (List F))}
    (hf : vk.Fits instances) : assignInstanceCommitment (c := mock F gen) vk instances =
      some (instances.flatten.flatten, instances.map (List.map vk.commit)) :=
  Mock.instances_total hb hf

theorem C51_instance_commitment_circuit {adv : Advice N} {vk : VK N Pt} (hb : vk.gLagrange.length = vk.n)
    (instances : List (List (List N))) {ctx ctx' : Ctx N} {r : List (AV N) × List (List APt)}
    (hr : (assignInstanceCommitment (c := circuitChip) vk instances).1 ctx = some (r, ctx')) (hsat : Sat tables ctx' adv) :
    ∃ as : List (List (List (AV N))), r.1 = as.flatten.flatten ∧
      List.Forall₂ (List.Forall₂ (Represents adv)) r.2 (as.map (List.map fun col => vk.commit (col.map fun s => s.val adv))) := by
  obtain ⟨as, h1, -, -, h2⟩ := C51_instance_commitment (circuitLogic adv) hb instances (.inr (Logic.circuit_partial adv)) ctx r ctx' hr hsat
  exact ⟨as, h1, h2⟩

/-- Different columns of the same length have different commitments, unless one knows a relation between the bases. -/
theorem C51_binding_partial {vk : VK F G} {a b : List F} (hl : a.length = b.length) (hab : a ≠ b) (hfit : a.length ≤ vk.gLagrange.length)
    (h : vk.commit a = vk.commit b) :
    ∃ r : List F, r.length ≤ vk.gLagrange.length ∧ (∃ k ∈ r, k ≠ 0) ∧ dot r vk.gLagrange = 0 := by
  have key : ∀ (a b : List F) (g : List G), a.length = b.length → dot (List.zipWith (· - ·) a b) g = dot a g - dot b g := by
    intro a
    induction a with
    | nil => intro b g hl; cases b <;> simp_all [dot]
    | cons x a ih =>
      intro b g hl
      cases b with
      | nil => simp at hl
      | cons y b =>
        cases g with
        | nil => simp [dot]
        | cons P g =>
          rw [List.zipWith_cons_cons, Logic.dot_cons, Logic.dot_cons, Logic.dot_cons, ih b g (by simpa using hl), sub_smul]
          abel
  have hne : ∀ (a b : List F), a.length = b.length → a ≠ b → ∃ k ∈ List.zipWith (· - ·) a b, k ≠ 0 := by
    intro a
    induction a with
    | nil => intro b hl hab; cases b <;> simp_all
    | cons x a ih =>
      intro b hl hab
      cases b with
      | nil => simp at hl
      | cons y b =>
        rw [List.zipWith_cons_cons]
        by_cases hxy : x = y
        · subst hxy
          obtain ⟨k, hk, hk0⟩ := ih b (by simpa using hl) (by simpa using hab)
          exact ⟨k, by simp [hk], hk0⟩
        · exact ⟨x - y, by simp, sub_ne_zero.2 hxy⟩
  refine ⟨_, ?_, hne a b hl hab, ?_⟩
  · rw [List.length_zipWith]
    omega
  · rw [key a b _ hl]
    exact sub_eq_zero.2 h

/-- Without the condition on the length this is false: appended zeros do not change the commitment, ... -/
theorem C51_trailing_zero (vk : VK F G) (a : List F) (k : ℕ) : vk.commit (a ++ List.replicate k 0) = vk.commit a := by
  unfold VK.commit
  generalize vk.gLagrange = g
  induction a generalizing g with
  | nil =>
    induction k generalizing g with
    | zero => rfl
    | succ k ih =>
      cases g with
      | nil => simp [dot]
      | cons P g =>
        have := ih g
        rw [List.nil_append] at this ⊢
        rw [List.replicate_succ, Logic.dot_cons, this]
        simp [dot]
  | cons x a ih =>
    cases g with
    | nil => simp [dot]
    | cons P g => rw [List.cons_append, Logic.dot_cons, Logic.dot_cons, ih]

/-- ... so the verifier goes on with the same points for different instances. -/
theorem C51_ambiguous (gen : G) {vk : VK F G} (hb : vk.gLagrange.length = vk.n) {a : List F} (hi : vk.numInstance = 1)
    (hf : a.length + 1 + (vk.blinding + 1) ≤ vk.n) :
    (assignInstanceCommitment (c := mock F gen) vk [[a]]).map Prod.snd = some [[vk.commit a]] ∧
    (assignInstanceCommitment (c := mock F gen) vk [[a ++ [0]]]).map Prod.snd = some [[vk.commit a]] ∧
    (assignInstanceCommitment (c := mock F gen) vk [[a]]).map Prod.fst ≠
      (assignInstanceCommitment (c := mock F gen) vk [[a ++ [0]]]).map Prod.fst := by
  have h1 := C51_instance_commitment_mock gen hb (instances := [[a]]) (by
    intro i hi'
    rw [List.mem_singleton] at hi'
    subst hi'
    exact ⟨hi.symm, by simp; omega⟩)
  have h2 := C51_instance_commitment_mock gen hb (instances := [[a ++ [0]]]) (by
    intro i hi'
    rw [List.mem_singleton] at hi'
    subst hi'
    exact ⟨hi.symm, by simp; omega⟩)
  rw [h1, h2]
  refine ⟨rfl, ?_, ?_⟩
  · show some [[vk.commit (a ++ [0])]] = _
    rw [show a ++ [0] = a ++ List.replicate 1 0 from rfl, C51_trailing_zero]
  · intro h
    have h' : some ([[a]] : List (List (List F))).flatten.flatten = some ([[a ++ [0]]] : List (List (List F))).flatten.flatten := h
    simp at h'

theorem sum_getD {M : Type} [AddCommMonoid M] : ∀ l : List M, l.sum = ∑ i ∈ Finset.range l.length, l.getD i 0
  | [] => by simp
  | a :: l => by
    rw [List.sum_cons, List.length_cons, Finset.sum_range_succ', sum_getD l, add_comm]
    rfl

theorem commit_eval (gen : G) (τ : F) : ∀ (col : List F) (Ls : List (Polynomial F)), dot col (Ls.map fun p => p.eval τ • gen) =
    ((List.zipWith (fun k p => Polynomial.C k * p) col Ls).sum).eval τ • gen
  | [], _ => by simp [dot]
  | _ :: _, [] => by simp [dot]
  | k :: col, p :: Ls => by
    rw [List.map_cons, Logic.dot_cons, List.zipWith_cons_cons, List.sum_cons, Polynomial.eval_add, add_smul, Polynomial.eval_mul,
      Polynomial.eval_C, mul_smul, commit_eval gen τ col Ls]

/-- With the bases of a setup, `Lᵢ(τ) gen` for the Lagrange polynomials `Lᵢ` of points `xᵢ`, the commitment is the one to the
polynomial with the instances as its values at these points. -/
theorem C51_polynomial {vk : VK F G} {τ : F} {xs : List F} (hx : xs.Nodup) {Ls : List (Polynomial F)} (hl : Ls.length = xs.length)
    (hd : ∀ p ∈ Ls, p.degree < xs.length)
    (hL : ∀ (i j : ℕ) (hi : i < Ls.length) (hj : j < xs.length), Ls[i].eval xs[j] = if i = j then 1 else 0)
    (hg : vk.gLagrange = Ls.map fun p => p.eval τ • gen) {col : List F} {q : Polynomial F} (hq : q.degree < xs.length)
    (hc : col.length ≤ xs.length) (hv : ∀ (i : ℕ) (hi : i < xs.length), q.eval xs[i] = col.getD i 0) :
    vk.commit col = q.eval τ • gen := by
  classical
  set S : Polynomial F := (List.zipWith (fun k p => Polynomial.C k * p) col Ls).sum with hS
  have h1 : vk.commit col = S.eval τ • gen := by
    rw [VK.commit, hg, hS, commit_eval]
  have hlen : (List.zipWith (fun k p => Polynomial.C k * p) col Ls).length = col.length := by
    rw [List.length_zipWith]
    omega
  have hget : ∀ i, i < col.length → (List.zipWith (fun k p => Polynomial.C k * p) col Ls).getD i 0 =
      Polynomial.C (col.getD i 0) * Ls.getD i 0 := by
    intro i hi
    rw [List.getD_eq_getElem?_getD, List.getD_eq_getElem?_getD, List.getD_eq_getElem?_getD,
      List.getElem?_eq_getElem (by rw [hlen]; exact hi), List.getElem?_eq_getElem hi, List.getElem?_eq_getElem (by omega),
      List.getElem_zipWith]
    rfl
  have hS' : S = ∑ i ∈ Finset.range col.length, Polynomial.C (col.getD i 0) * Ls.getD i 0 := by
    rw [hS, sum_getD, hlen]
    exact Finset.sum_congr rfl fun i hi => hget i (Finset.mem_range.1 hi)
  have hdeg : S.degree < xs.length := by
    rw [hS']
    rcases Nat.eq_zero_or_pos xs.length with h0 | h0
    · have : col.length = 0 := by omega
      rw [this]
      simp only [Finset.range_zero, Finset.sum_empty, Polynomial.degree_zero]
      exact WithBot.bot_lt_coe _
    · refine (Polynomial.degree_sum_le _ _).trans_lt ?_
      rw [Finset.sup_lt_iff (WithBot.bot_lt_coe _)]
      intro i hi
      rw [Finset.mem_range] at hi
      refine lt_of_le_of_lt (b := (Ls.getD i 0).degree) ?_ ?_
      · rw [Polynomial.degree_mul]
        exact (add_le_add_left Polynomial.degree_C_le _).trans (by rw [zero_add])
      rw [List.getD_eq_getElem?_getD, List.getElem?_eq_getElem (by omega)]
      exact hd _ (List.getElem_mem _)
  have heval : ∀ (j : ℕ) (hj : j < xs.length), S.eval xs[j] = q.eval xs[j] := by
    intro j hj
    rw [hv j hj, hS', Polynomial.eval_finset_sum]
    have : ∀ i ∈ Finset.range col.length, Polynomial.eval xs[j] (Polynomial.C (col.getD i 0) * Ls.getD i 0) =
        if i = j then col.getD j 0 else 0 := by
      intro i hi
      rw [Finset.mem_range] at hi
      rw [Polynomial.eval_mul, Polynomial.eval_C, List.getD_eq_getElem?_getD (l := Ls), List.getElem?_eq_getElem (by omega),
        Option.getD_some, hL i j (by omega) hj]
      split
      · next h => rw [h, mul_one]
      · rw [mul_zero]
    rw [Finset.sum_congr rfl this, Finset.sum_ite_eq']
    split
    · rfl
    · next h =>
      rw [Finset.mem_range, not_lt] at h
      rw [List.getD_eq_getElem?_getD, List.getElem?_eq_none h]
      rfl
  have hSq : S = q := by
    refine Polynomial.eq_of_degrees_lt_of_eval_finset_eq xs.toFinset ?_ ?_ ?_
    · rw [List.toFinset_card_of_nodup hx]; exact hdeg
    · rw [List.toFinset_card_of_nodup hx]; exact hq
    · intro y hy
      obtain ⟨j, hj, rfl⟩ := List.mem_iff_getElem.1 (List.mem_toFinset.1 hy)
      exact heval j hj
  rw [h1, hSq]

open Polynomial in
/-- The points 1 and -1, the values 3 and 5, the polynomial 4 - X. -/
example (vk : VK ℚ ℚ) (τ : ℚ) (hg : vk.gLagrange = [(1 + τ) / 2, (1 - τ) / 2]) : vk.commit [3, 5] = 4 - τ := by
  have := C51_polynomial (gen := (1 : ℚ)) (vk := vk) (τ := τ) (xs := [1, -1]) (by norm_num)
    (Ls := [C (1 / 2) * X + C (1 / 2), C (-1 / 2) * X + C (1 / 2)]) rfl ?_ ?_ ?_ (col := [3, 5]) (q := C (-1) * X + C 4)
    ((degree_linear_le).trans_lt (by exact_mod_cast one_lt_two)) le_rfl ?_
  · rw [this]
    simp
    ring
  · intro p hp
    simp only [List.mem_cons, List.not_mem_nil, or_false] at hp
    rcases hp with rfl | rfl <;> exact (degree_linear_le).trans_lt (by exact_mod_cast one_lt_two)
  · intro i j hi hj
    simp only [List.length_cons, List.length_nil] at hi hj
    interval_cases i <;> interval_cases j <;> norm_num
  · rw [hg]
    simp
    constructor <;> ring
  · intro i hi
    simp only [List.length_cons, List.length_nil] at hi
    interval_cases i <;> norm_num

/-! ### C61: the claims -/

/-- What is opened is what the PLONK verifier has to check for the commitments, values and challenges of the proof: `Params.claims`.
One instance vector; for more the keys are ambiguous (C27). -/
theorem C61_claims (L : Logic c gen) {p : Params c.P c.S} {v : Params G F} (R : L.ParamsRel p v) (hv : p.Valid) (hg : v.Generic)
    (hk : v.Keyed) (h1 : v.instanceCommitments.length = 1) :
    ∃ K : String → G, L.Ens (queries c p) fun r => (∀ e ∈ r, e.s.WF L.pv K) ∧ r.map (L.claim K) = v.claims := by
  obtain ⟨K, hK⟩ := Params.keys_single hk h1
  exact ⟨K, L.queries R hv hg hK⟩

/-! ### C62: the transcript -/

variable {T : Transcript c} {d : Codec F G}

/-- The values read from the bytes go through the transcript in the order of the halo2 verifier (`Params.layout`), each when it is read,
and every challenge is squeezed from the hash of all that came before (`Took`). -/
theorem C62_transcript (L : Logic c gen) (hP : L.Partial) (hT : L.Safe T) (hd : 0 < d.pointLen) {vk : VK F G} (hvk : vk.WF)
    (hdom : vk.Domain) (ics : List (List c.P)) (key : String) (start : Reader T) :
    L.Ens (buildParams d vk ics key start) fun r => ∃ (s : c.S) (evs : List (Event c.P c.S)), L.known s vk.digest ∧
      evs = r.1.layout vk s ∧ r.2.trace = start.trace ++ evs ∧ L.Took d start.bytes start.st evs r.2.bytes r.2.st := by
  refine L.mono (L.buildParams d hT hd hvk (hdom.omega_ne hvk.n.1) ics key 0 start [] (.inr hP)) fun r hr => ?_
  obtain ⟨-, evs, t1, t2, -, -, -, s, h1, h2⟩ := hr
  exact ⟨s, evs, h1, h2, t1, t2⟩

theorem C62_transcript_circuit {adv : Advice N} {T : Transcript circuitChip} {d : Codec N Pt} (hT : (circuitLogic adv).Safe T)
    (hd : 0 < d.pointLen) {vk : VK N Pt} (hvk : vk.WF) (hdom : vk.Domain) (ics : List (List APt)) (key : String) (start : Reader T)
    {ctx ctx' : Ctx N} {p : Params APt (AV N)} {rest : Reader T}
    (hr : (buildParams d vk ics key start).1 ctx = some ((p, rest), ctx')) (hsat : Sat tables ctx' adv) :
    ∃ (s : AV N) (evs : List (Event circuitChip.P circuitChip.S)), s.val adv = vk.digest ∧ evs = p.layout vk s ∧ rest.trace = start.trace ++ evs ∧
      (circuitLogic adv).Took d start.bytes start.st evs rest.bytes rest.st := by
  obtain ⟨s, evs, h1, h2⟩ := C62_transcript (circuitLogic adv) (Logic.circuit_partial adv) hT hd hvk hdom ics key start ctx (p, rest)
    ctx' hr hsat
  exact ⟨s, evs, (circuitLogic adv).known_sv h1, h2⟩

/-- The hash, and with it the next challenge, depends on nothing but the events. -/
theorem C62_challenge {T : Transcript (mock F gen)} (hT : (mockLogic F gen).Safe T) {st : T.St}
    {evs : List (Event (mock F gen).P (mock F gen).S)} {b b' b₁ b₁' : List UInt8} {st₁ st₁' : T.St}
    (h : (mockLogic F gen).Took d b st evs b₁ st₁) (h' : (mockLogic F gen).Took d b' st evs b₁' st₁') : st₁ = st₁' := by
  have det : ∀ {α : Type} {x : Option α} {a a' : α}, (mockLogic F gen).Ens x (fun _ => True) → (mockLogic F gen).Result x a →
      (mockLogic F gen).Result x a' → a = a' := by
    intro α x a a' hx h1 h2
    obtain ⟨y, rfl, -⟩ := hx
    have e1 : a = y := h1 (fun z => z = y) ⟨y, rfl, rfl⟩
    have e2 : a' = y := h2 (fun z => z = y) ⟨y, rfl, rfl⟩
    rw [e1, e2]
  induction h generalizing b' with
  | nil => cases h'; rfl
  | point P b1 st1 h hp ha _ ih =>
    cases h' with
    | point P' b1' st1' h2 hp2 ha2 ht2 => exact ih (det (hT.commonPoint _ _) ha2 ha ▸ ht2)
  | scalar P b1 st1 h hp ha _ ih =>
    cases h' with
    | scalar P' b1' st1' h2 hp2 ha2 ht2 => exact ih (det (hT.commonScalar _ _) ha2 ha ▸ ht2)
  | commonPoint st1 ha _ ih =>
    cases h' with
    | commonPoint st1' ha2 ht2 => exact ih (det (hT.commonPoint _ _) ha2 ha ▸ ht2)
  | commonScalar st1 ha _ ih =>
    cases h' with
    | commonScalar st1' ha2 ht2 => exact ih (det (hT.commonScalar _ _) ha2 ha ▸ ht2)
  | challenge st1 ha _ ih =>
    cases h' with
    | challenge st1' ha2 ht2 => exact ih ((Prod.mk.inj (det (hT.squeeze _) ha2 ha)).2 ▸ ht2)

/-! ### C63: opening points -/

/-- Every polynomial is opened at `ω^r x` for the rotation `r` of its query; so equal rotations mean equal points. -/
theorem C63_points {vk : VK F G} {v : Params G F} (h : v.For vk) {Is : List (List G)} {pre : String} (hs : v.Shape vk Is pre) :
    ∀ q ∈ v.claims, q.z = vk.omega ^ q.rotation * v.x := h.claims_point hs

/-! ### C66: number of opening proofs -/

/-- One opening proof for each different rotation that occurs in the key. -/
theorem C66_groups {vk : VK F G} {v : Params G F} {Is : List (List G)} {pre : String} (hs : v.Shape vk Is pre) (hf : v.For vk) :
    (groupsOf Claim.rotation v.claims).length = (vk.rotations Is.length).toFinset.card := Params.groups_length hs hf

/-- A run of the verifier that returns has read that many opening proofs, if its record is usable. -/
theorem C66_read {L : Logic c gen} {vk : VK F G} {instances : List (List (List F))} (h1 : instances.length = 1) {key : String} {start : Reader T}
    {as : List (List (List c.S))} {p : Params c.P c.S} {r : Verified T} (h : L.Run d vk instances key start as p r) (hu : L.Usable vk p) :
    p.w.length = (vk.rotations 1).toFinset.card := by
  have hsh := Logic.record_shape h.commitments h.shape
  have hl : (as.map (List.map fun col => vk.commit (col.map L.sv))).length = 1 := by rw [List.length_map, h.assigned.length_eq, h1]
  obtain ⟨K, hK⟩ := Params.keys_single hsh.keyed hl
  rw [(h.opened hu K hK).w_length hsh h.values, hl]

/-! ### C64: one proof -/

/-- `verify_single_proof_in_chip`. If the points read from the proof are points and `x` is not in the domain, the returned points are the
two sides of the opening check, `Params.left` and `Params.right`, of the record that belongs to the key and the transcript. -/
theorem C64_single (L : Logic c gen) (hP : L.Partial) (hT : L.Safe T) (hd : 0 < d.pointLen) {circuit : CircuitProof T}
    (hvk : circuit.vk.WF) (hdom : circuit.vk.Domain) (start : Reader T) :
    L.Ens (verifySingle d circuit start) fun r => ∃ pr as p proof, circuit.proofs[0]? = some pr ∧
      L.Run d circuit.vk pr.instances "" start as p ⟨r.1.2.2.1, proof, r.1.2.2.2, r.2⟩ ∧ (L.valueOf circuit.vk as p).For circuit.vk ∧
      (pr.instances.length = 1 → L.Usable circuit.vk p → 2 ≤ (circuit.vk.rotations 1).toFinset.card →
        L.pv r.1.1 (L.valueOf circuit.vk as p).left ∧ L.pv r.1.2.1 ((L.valueOf circuit.vk as p).right gen)) :=
  L.mono (Logic.verifySingle hP hT hd hvk hdom start) fun _ ⟨pr, as, p, proof, h1, h2, h3⟩ =>
    ⟨pr, as, p, proof, h1, h2, Logic.record_for h2.values, h3⟩

/-- On the mock chip the verifier returns for every proof of the right form. -/
theorem C64_single_mock {T : Transcript (mock F gen)} (hT : (mockLogic F gen).Safe T) (hd : 0 < d.pointLen) {circuit : CircuitProof T}
    {pr : ProofData T} (hpr : circuit.proofs[0]? = some pr) {start : Reader T} {p : Params G F} {rest : Reader T}
    (h : Mock.Accepts d circuit.vk ⟨pr.instances, start, ""⟩ p rest) (h2 : 2 ≤ (circuit.vk.rotations 1).toFinset.card) :
    verifySingle (c := mock F gen) d circuit start =
        some ((p.left, p.right gen, pr.instances.flatten.flatten, p.adviceCommitments.getD 0 []), rest) ∧
      p.For circuit.vk ∧ p.instanceCommitments = pr.instances.map (List.map circuit.vk.commit) :=
  ⟨Mock.verifySingle_total hT hd hpr h h2, (h.facts hT hd).2.2.1, (h.facts hT hd).1.instanceCommitments⟩

theorem C64_single_circuit {adv : Advice N} {T : Transcript circuitChip} {d : Codec N Pt} (hT : (circuitLogic adv).Safe T)
    (hd : 0 < d.pointLen) {circuit : CircuitProof T} (hvk : circuit.vk.WF) (hdom : circuit.vk.Domain) (start : Reader T)
    {ctx ctx' : Ctx N} {l r : APt} {is : List (AV N)} {advice : List APt} {rest : Reader T}
    (hr : (verifySingle d circuit start).1 ctx = some (((l, r, is, advice), rest), ctx')) (hsat : Sat tables ctx' adv) :
    ∃ pr as p proof, circuit.proofs[0]? = some pr ∧
      (circuitLogic adv).Run d circuit.vk pr.instances "" start as p ⟨is, proof, advice, rest⟩ ∧
      ((circuitLogic adv).valueOf circuit.vk as p).For circuit.vk ∧
      (pr.instances.length = 1 → (circuitLogic adv).Usable circuit.vk p → 2 ≤ (circuit.vk.rotations 1).toFinset.card →
        Represents adv l ((circuitLogic adv).valueOf circuit.vk as p).left ∧
        Represents adv r (((circuitLogic adv).valueOf circuit.vk as p).right Ecc.gen)) :=
  C64_single (circuitLogic adv) (Logic.circuit_partial adv) hT hd hvk hdom start ctx _ ctx' hr hsat

/-! ### C65: several proofs -/

/-- `verify_aggregation_proofs_in_chip`. Every proof has its own transcript; a challenge from each of them goes into the main transcript,
and the challenge of the main transcript combines the pairs. -/
theorem C65_aggregation (L : Logic c gen) (hP : L.Partial) (hT : L.Safe T) (hd : 0 < d.pointLen) {circuits : List (CircuitProof T)}
    (h : ∀ ci ∈ circuits, ci.vk.WF ∧ ci.vk.Domain) (start : Reader T) :
    L.Ens (verifyAggregation d circuits start) fun r => ∃ (xs : List (Logic.Part T)) (ks : List c.S) (ch : c.S)
      (evs : List (Event c.P c.S)),
      (xs.map fun x => (x.vk, x.data)) = Logic.jobs circuits ∧ (∀ x ∈ xs, x.Ran L d) ∧ xs ≠ [] ∧
      L.Bound (xs.map Logic.Part.result) ks ∧ evs = ks.map .commonScalar ++ [.challenge ch] ∧ r.2.trace = start.trace ++ evs ∧
      L.Took d start.bytes start.st evs r.2.bytes r.2.st ∧
      r.1.2.2.1 = xs.flatMap (fun x => x.scalars.flatten.flatten) ∧ r.1.2.2.2 = xs.map (fun x => x.result.advice) ∧
      (L.Sound xs → L.pv r.1.1 (powSum (L.sv ch) (xs.map fun x => (x.value L).left).reverse) ∧
        L.pv r.1.2.1 (powSum (L.sv ch) (xs.map fun x => (x.value L).right gen).reverse)) :=
  Logic.verifyAggregation hP hT hd h start

theorem C65_aggregation_mock {T : Transcript (mock F gen)} (hT : (mockLogic F gen).Safe T) (hd : 0 < d.pointLen)
    {circuits : List (CircuitProof T)} (h : ∀ ci ∈ circuits, ∀ pr ∈ ci.proofs, ∃ p rest, Mock.Accepts d ci.vk pr p rest)
    (hkey : ∀ j ∈ Logic.jobs circuits, ∃ n i, j.2.key = proofKey n i) (hkeys : ((Logic.jobs circuits).map fun j => j.2.key).Nodup)
    (hne : Logic.jobs circuits ≠ [])
    (hmany : 2 ≤ (Logic.jobs circuits).length ∨ ∀ j ∈ Logic.jobs circuits, 2 ≤ (j.1.rotations 1).toFinset.card) (start : Reader T) :
    ∃ (xs : List (Mock.Item T)) (ch : F) (rest : Reader T), (xs.map fun x => (x.vk, x.data)) = Logic.jobs circuits ∧
      (∀ x ∈ xs, Mock.Accepts d x.vk x.data x.params x.rest) ∧
      verifyAggregation (c := mock F gen) d circuits start = some ((powSum ch (xs.map fun x => x.params.left).reverse,
        powSum ch (xs.map fun x => x.params.right gen).reverse, xs.flatMap (fun x => x.data.instances.flatten.flatten),
        xs.map (fun x => x.params.adviceCommitments.getD 0 [])), rest) :=
  Mock.verifyAggregation_total hT hd h hkey hkeys hne hmany start

theorem C65_aggregation_circuit {adv : Advice N} {T : Transcript circuitChip} {d : Codec N Pt} (hT : (circuitLogic adv).Safe T)
    (hd : 0 < d.pointLen) {circuits : List (CircuitProof T)} (h : ∀ ci ∈ circuits, ci.vk.WF ∧ ci.vk.Domain) (start : Reader T)
    {ctx ctx' : Ctx N} {l r : APt} {is : List (AV N)} {advice : List (List APt)} {rest : Reader T}
    (hr : (verifyAggregation d circuits start).1 ctx = some (((l, r, is, advice), rest), ctx')) (hsat : Sat tables ctx' adv) :
    ∃ (xs : List (Logic.Part T)) (ks : List (AV N)) (ch : AV N) (evs : List (Event circuitChip.P circuitChip.S)),
      (xs.map fun x => (x.vk, x.data)) = Logic.jobs circuits ∧ (∀ x ∈ xs, x.Ran (circuitLogic adv) d) ∧ xs ≠ [] ∧
      (circuitLogic adv).Bound (xs.map Logic.Part.result) ks ∧ evs = ks.map .commonScalar ++ [.challenge ch] ∧
      rest.trace = start.trace ++ evs ∧ (circuitLogic adv).Took d start.bytes start.st evs rest.bytes rest.st ∧
      is = xs.flatMap (fun x => x.scalars.flatten.flatten) ∧ advice = xs.map (fun x => x.result.advice) ∧
      ((circuitLogic adv).Sound xs →
        Represents adv l (powSum (ch.val adv) (xs.map fun x => (x.value (circuitLogic adv)).left).reverse) ∧
        Represents adv r (powSum (ch.val adv) (xs.map fun x => (x.value (circuitLogic adv)).right Ecc.gen).reverse)) :=
  C65_aggregation (circuitLogic adv) (Logic.circuit_partial adv) hT hd h start ctx _ ctx' hr hsat

/-! ### C67: bytes after the proof -/

namespace Mock
variable {T : Transcript (mock F gen)} {α β : Type}

/-- The reader with bytes added at the end. -/
def push (j : List UInt8) (s : Reader T) : Reader T := ⟨s.bytes ++ j, s.st, s.trace⟩

/-- More bytes at the end make no difference, except that they are left over. -/
def Trail (j : List UInt8) (x : Rd T α) : Prop := ∀ s a s', x s = some (a, s') → x (push j s) = some (a, push j s')

/-- ... when all bytes are used. -/
def Tail (j : List UInt8) (x : Rd T α) : Prop := ∀ s a s', x s = some (a, s') → s'.bytes = [] → x (push j s) = some (a, push j s')

/-- The bytes are not used. -/
def Keep (x : Rd T α) : Prop := ∀ s a s', x s = some (a, s') → s'.bytes = s.bytes

theorem opt_bind {x : Option α} {f : α → Option β} {a : α} {r : Option β} (h : x = some a) (h' : f a = r) : x.bind f = r := by
  rw [h]
  exact h'

theorem bind_some {x : Rd T α} {f : α → Rd T β} {s : Reader T} {b : β} {s' : Reader T} (h : (x >>= f) s = some (b, s')) :
    ∃ a s1, x s = some (a, s1) ∧ f a s1 = some (b, s') := by
  have h' : (x s).bind (fun r => f r.1 r.2) = some (b, s') := h
  obtain ⟨⟨a, s1⟩, h1, h2⟩ := Option.bind_eq_some_iff.1 h'
  exact ⟨a, s1, h1, h2⟩

theorem some_bind {x : Rd T α} {f : α → Rd T β} {s s1 s' : Reader T} {a : α} {b : β} (h1 : x s = some (a, s1))
    (h2 : f a s1 = some (b, s')) : (x >>= f) s = some (b, s') := by
  exact opt_bind (x := x s) (f := fun r => f r.1 r.2) h1 h2

namespace Trail
variable {j : List UInt8}

theorem ret (a : α) : Trail j (Pure.pure a : Rd T α) := by
  intro s a' s' h
  have h' : some (a, s) = some (a', s') := h
  rw [Option.some.injEq, Prod.mk.injEq] at h'
  obtain ⟨rfl, rfl⟩ := h'
  rfl

theorem bind {x : Rd T α} {f : α → Rd T β} (hx : Trail j x) (hf : ∀ a, Trail j (f a)) : Trail j (x >>= f) := by
  intro s b s' h
  obtain ⟨a, s1, h1, h2⟩ := bind_some h
  exact some_bind (hx _ _ _ h1) (hf a _ _ _ h2)

theorem lift (x : Option α) : Trail j (Rd.lift (c := mock F gen) x : Rd T α) := by
  intro s a s' h
  have h' : x.bind (fun a => some (a, s)) = some (a, s') := h
  obtain ⟨a1, rfl, h2⟩ := Option.bind_eq_some_iff.1 h'
  rw [Option.some.injEq, Prod.mk.injEq] at h2
  obtain ⟨rfl, rfl⟩ := h2
  rfl

theorem absorbPoint (e) (p : (mock F gen).P) : Trail j (Rd.absorbPoint e p : Rd T Unit) := by
  intro s a s' h
  have h' : (T.commonPoint s.st p).bind (fun st => some ((), (⟨s.bytes, st, s.trace ++ [e p]⟩ : Reader T))) = some (a, s') := h
  obtain ⟨st, h1, h2⟩ := Option.bind_eq_some_iff.1 h'
  rw [Option.some.injEq, Prod.mk.injEq] at h2
  obtain ⟨rfl, rfl⟩ := h2
  exact opt_bind h1 rfl

theorem absorbScalar (e) (p : (mock F gen).S) : Trail j (Rd.absorbScalar e p : Rd T Unit) := by
  intro s a s' h
  have h' : (T.commonScalar s.st p).bind (fun st => some ((), (⟨s.bytes, st, s.trace ++ [e p]⟩ : Reader T))) = some (a, s') := h
  obtain ⟨st, h1, h2⟩ := Option.bind_eq_some_iff.1 h'
  rw [Option.some.injEq, Prod.mk.injEq] at h2
  obtain ⟨rfl, rfl⟩ := h2
  exact opt_bind h1 rfl

theorem squeeze : Trail j (Rd.squeeze : Rd T (mock F gen).S) := by
  intro s a s' h
  have h' : (T.squeeze s.st).bind (fun r => some (r.1, (⟨s.bytes, r.2, s.trace ++ [.challenge r.1]⟩ : Reader T))) = some (a, s') := h
  obtain ⟨st, h1, h2⟩ := Option.bind_eq_some_iff.1 h'
  rw [Option.some.injEq, Prod.mk.injEq] at h2
  obtain ⟨rfl, rfl⟩ := h2
  exact opt_bind h1 rfl

theorem acceptPoint (P : G) : Trail j (Rd.acceptPoint P : Rd T (mock F gen).P) :=
  bind (lift _) fun p => bind (absorbPoint _ p) fun _ => ret p

theorem acceptScalar (P : F) : Trail j (Rd.acceptScalar P : Rd T (mock F gen).S) :=
  bind (lift _) fun p => bind (absorbScalar _ p) fun _ => ret p

theorem _root_.Verif.Api.Codec.readPoint_append {d : Codec F G} {b : List UInt8} {P : G} {rest : List UInt8}
    (h : d.readPoint b = some (P, rest)) (j : List UInt8) : d.readPoint (b ++ j) = some (P, rest ++ j) := by
  unfold Codec.readPoint at h ⊢
  split at h
  · exact absurd h (by simp)
  · next hl =>
    rw [not_lt] at hl
    rw [if_neg (by rw [List.length_append]; omega), List.take_append_of_le_length hl, List.drop_append_of_le_length hl]
    rw [Option.map_eq_some_iff] at h ⊢
    obtain ⟨Q, h1, h2⟩ := h
    rw [Prod.mk.injEq] at h2
    exact ⟨Q, h1, by rw [h2.1, h2.2]⟩

theorem _root_.Verif.Api.Codec.readScalar_append {d : Codec F G} {b : List UInt8} {P : F} {rest : List UInt8}
    (h : d.readScalar b = some (P, rest)) (j : List UInt8) : d.readScalar (b ++ j) = some (P, rest ++ j) := by
  unfold Codec.readScalar at h ⊢
  split at h
  · exact absurd h (by simp)
  · next hl =>
    rw [not_lt] at hl
    rw [if_neg (by rw [List.length_append]; omega), List.take_append_of_le_length hl, List.drop_append_of_le_length hl]
    rw [Option.map_eq_some_iff] at h ⊢
    obtain ⟨Q, h1, h2⟩ := h
    rw [Prod.mk.injEq] at h2
    exact ⟨Q, h1, by rw [h2.1, h2.2]⟩

theorem readPoint : Trail j (Rd.readPoint d : Rd T (mock F gen).P) := by
  intro s a s' h
  obtain ⟨o, s1, h1, h2⟩ := bind_some h
  rw [Rd.nextPoint] at h1
  cases hr : d.readPoint s.bytes with
  | none =>
    rw [hr] at h1
    have h1' : some (none, s) = some (o, s1) := h1
    rw [Option.some.injEq, Prod.mk.injEq] at h1'
    obtain ⟨rfl, rfl⟩ := h1'
    exact nomatch (h2 : (none : Option ((mock F gen).P × Reader T)) = some (a, s'))
  | some Pr =>
    obtain ⟨P, rest⟩ := Pr
    rw [hr] at h1
    have h1' : some (some P, (⟨rest, s.st, s.trace⟩ : Reader T)) = some (o, s1) := h1
    rw [Option.some.injEq, Prod.mk.injEq] at h1'
    obtain ⟨rfl, rfl⟩ := h1'
    refine some_bind (a := some P) (s1 := push j ⟨rest, s.st, s.trace⟩) ?_ (acceptPoint P _ _ _ h2)
    rw [Rd.nextPoint]
    simp only [push, Codec.readPoint_append hr j]
    rfl

theorem readScalar : Trail j (Rd.readScalar d : Rd T (mock F gen).S) := by
  intro s a s' h
  obtain ⟨o, s1, h1, h2⟩ := bind_some h
  rw [Rd.nextScalar] at h1
  cases hr : d.readScalar s.bytes with
  | none =>
    rw [hr] at h1
    have h1' : some (none, s) = some (o, s1) := h1
    rw [Option.some.injEq, Prod.mk.injEq] at h1'
    obtain ⟨rfl, rfl⟩ := h1'
    exact nomatch (h2 : (none : Option ((mock F gen).S × Reader T)) = some (a, s'))
  | some Pr =>
    obtain ⟨P, rest⟩ := Pr
    rw [hr] at h1
    have h1' : some (some P, (⟨rest, s.st, s.trace⟩ : Reader T)) = some (o, s1) := h1
    rw [Option.some.injEq, Prod.mk.injEq] at h1'
    obtain ⟨rfl, rfl⟩ := h1'
    refine some_bind (a := some P) (s1 := push j ⟨rest, s.st, s.trace⟩) ?_ (acceptScalar P _ _ _ h2)
    rw [Rd.nextScalar]
    simp only [push, Codec.readScalar_append hr j]
    rfl

theorem times {x : Rd T α} (hx : Trail j x) : ∀ n, Trail j (Rd.times x n)
  | 0 => ret _
  | n + 1 => bind hx fun _ => bind (times hx n) fun _ => ret _

theorem each {f : α → Rd T β} (hf : ∀ a, Trail j (f a)) : ∀ l, Trail j (Rd.each f l)
  | [] => ret _
  | a :: l => bind (hf a) fun _ => bind (each hf l) fun _ => ret _

theorem adviceRow (cur : ℕ) : ∀ (phs : List ℕ) (row : List (Option (mock F gen).P)), Trail j (Api.adviceRow d cur phs row : Rd T _)
  | ph :: phs, o :: row => by
    rw [Api.adviceRow]
    split
    · exact bind readPoint fun p => bind (adviceRow cur phs row) fun _ => ret _
    · exact bind (adviceRow cur phs row) fun _ => ret _
  | [], [] => ret _
  | [], _ :: _ => ret _
  | _ :: _, [] => ret _

theorem challengeRow (cur : ℕ) : ∀ (phs : List ℕ) (row : List (mock F gen).S), Trail j (Api.challengeRow cur phs row : Rd T _)
  | ph :: phs, o :: row => by
    rw [Api.challengeRow]
    split
    · exact bind squeeze fun p => bind (challengeRow cur phs row) fun _ => ret _
    · exact bind (challengeRow cur phs row) fun _ => ret _
  | [], [] => ret _
  | [], _ :: _ => ret _
  | _ :: _, [] => ret _

theorem phaseLoop (vk : VK F G) : ∀ phs table chs, Trail j (Api.phaseLoop d vk phs table chs : Rd T _)
  | [], _, _ => ret _
  | cur :: phs, _, _ => bind (each (adviceRow cur _) _) fun _ => bind (challengeRow cur _ _) fun _ => phaseLoop vk phs _ _

theorem readSets : ∀ l, Trail j (Api.readSets d l : Rd T _)
  | [] => ret _
  | cm :: rest => bind readScalar fun _ => bind readScalar fun _ => bind (by
      unfold readLast
      split
      · exact bind readScalar fun _ => ret _
      · exact ret _) fun _ => bind (readSets rest) fun _ => ret _

theorem buildPermutation (vk : VK F G) (x co ad ins fi key) : Trail j (Api.buildPermutation d vk x co ad ins fi key : Rd T _) :=
  bind (each readSets _) fun _ => bind (lift _) fun _ => ret _

theorem buildLookup (vk : VK F G) (a b key) : Trail j (Api.buildLookup d vk a b key : Rd T _) :=
  each (fun _ => each (fun _ => bind readScalar fun _ => bind readScalar fun _ => bind readScalar fun _ => bind readScalar fun _ =>
    bind readScalar fun _ => bind (lift _) fun _ => bind (lift _) fun _ => ret _) _) _

end Trail

namespace Keep

theorem ret (a : α) : Keep (Pure.pure a : Rd T α) := by
  intro s a' s' h
  have h' : some (a, s) = some (a', s') := h
  rw [Option.some.injEq, Prod.mk.injEq] at h'
  rw [h'.2]

theorem bind {x : Rd T α} {f : α → Rd T β} (hx : Keep x) (hf : ∀ a, Keep (f a)) : Keep (x >>= f) := by
  intro s b s' h
  obtain ⟨a, s1, h1, h2⟩ := bind_some h
  rw [hf a _ _ _ h2, hx _ _ _ h1]

theorem lift (x : Option α) : Keep (Rd.lift (c := mock F gen) x : Rd T α) := by
  intro s a s' h
  have h' : x.bind (fun a => some (a, s)) = some (a, s') := h
  obtain ⟨a1, rfl, h2⟩ := Option.bind_eq_some_iff.1 h'
  rw [Option.some.injEq, Prod.mk.injEq] at h2
  rw [h2.2]

theorem squeeze : Keep (Rd.squeeze : Rd T (mock F gen).S) := by
  intro s a s' h
  have h' : (T.squeeze s.st).bind (fun r => some (r.1, (⟨s.bytes, r.2, s.trace ++ [.challenge r.1]⟩ : Reader T))) = some (a, s') := h
  obtain ⟨st, h1, h2⟩ := Option.bind_eq_some_iff.1 h'
  rw [Option.some.injEq, Prod.mk.injEq] at h2
  rw [← h2.2]

end Keep

namespace Tail
variable {j : List UInt8}

theorem bind {x : Rd T α} {f : α → Rd T β} (hx : Trail j x) (hf : ∀ a, Tail j (f a)) : Tail j (x >>= f) := by
  intro s b s' h h0
  obtain ⟨a, s1, h1, h2⟩ := bind_some h
  exact some_bind (hx _ _ _ h1) (hf a _ _ _ h2 h0)

theorem bind' {x : Rd T α} {f : α → Rd T β} (hx : Tail j x) (hf : ∀ a, Trail j (f a) ∧ Keep (f a)) : Tail j (x >>= f) := by
  intro s b s' h h0
  obtain ⟨a, s1, h1, h2⟩ := bind_some h
  exact some_bind (hx _ _ _ h1 (by rw [← (hf a).2 _ _ _ h2]; exact h0)) ((hf a).1 _ _ _ h2)

theorem readAll (hj : d.readPoint j = none) (hd : 0 < d.pointLen) : ∀ (n m : ℕ) (s : Reader T) (a : List (mock F gen).P) (s' : Reader T),
    s.bytes.length ≤ n → n ≤ m → Rd.readAll d n s = some (a, s') → s'.bytes = [] → Rd.readAll d m (push j s) = some (a, push j s')
  | 0, m, s, a, s', hn, hm, h, h0 => by
    have h' : some ([], s) = some (a, s') := h
    rw [Option.some.injEq, Prod.mk.injEq] at h'
    obtain ⟨rfl, rfl⟩ := h'
    cases m with
    | zero => rfl
    | succ m =>
      refine some_bind (a := none) (s1 := push j s) ?_ rfl
      rw [Rd.nextPoint]
      simp only [push, h0, List.nil_append, hj]
      rfl
  | n + 1, m, s, a, s', hn, hm, h, h0 => by
    obtain ⟨m, rfl⟩ : ∃ k, m = k + 1 := ⟨m - 1, by omega⟩
    obtain ⟨o, s1, h1, h2⟩ := bind_some h
    rw [Rd.nextPoint] at h1
    cases hr : d.readPoint s.bytes with
    | none =>
      rw [hr] at h1
      have h1' : some (none, s) = some (o, s1) := h1
      rw [Option.some.injEq, Prod.mk.injEq] at h1'
      obtain ⟨rfl, rfl⟩ := h1'
      have h' : some ([], s) = some (a, s') := h2
      rw [Option.some.injEq, Prod.mk.injEq] at h'
      obtain ⟨rfl, rfl⟩ := h'
      refine some_bind (a := none) (s1 := push j s) ?_ rfl
      rw [Rd.nextPoint]
      simp only [push, h0, List.nil_append, hj]
      rfl
    | some Pr =>
      obtain ⟨P, rest⟩ := Pr
      rw [hr] at h1
      have h1' : some (some P, (⟨rest, s.st, s.trace⟩ : Reader T)) = some (o, s1) := h1
      rw [Option.some.injEq, Prod.mk.injEq] at h1'
      obtain ⟨rfl, rfl⟩ := h1'
      obtain ⟨p, s2, h3, h4⟩ := bind_some h2
      obtain ⟨l, s3, h5, h6⟩ := bind_some h4
      have h6' : some (p :: l, s3) = some (a, s') := h6
      rw [Option.some.injEq, Prod.mk.injEq] at h6'
      obtain ⟨rfl, rfl⟩ := h6'
      have hrest : rest.length < s.bytes.length := by
        unfold Codec.readPoint at hr
        split at hr
        · exact absurd hr (by simp)
        · rw [Option.map_eq_some_iff] at hr
          obtain ⟨Q, -, h2⟩ := hr
          rw [Prod.mk.injEq] at h2
          rw [← h2.2, List.length_drop]
          omega
      have hk : Keep (Rd.acceptPoint P : Rd T (mock F gen).P) := Keep.bind (Keep.lift _) fun p => Keep.bind (by
        intro s a s' h
        have h' : (T.commonPoint s.st p).bind (fun st => some ((), (⟨s.bytes, st, s.trace ++ [.point p]⟩ : Reader T))) = some (a, s') := h
        obtain ⟨st, h1, h2⟩ := Option.bind_eq_some_iff.1 h'
        rw [Option.some.injEq, Prod.mk.injEq] at h2
        rw [← h2.2]) fun _ => Keep.ret p
      have hs2 : s2.bytes = rest := hk _ _ _ h3
      refine some_bind (a := some P) (s1 := push j ⟨rest, s.st, s.trace⟩) ?_ (some_bind (Trail.acceptPoint P _ _ _ h3)
        (some_bind (readAll hj hd n m s2 l s3 (by rw [hs2]; omega) (by omega) h5 h0) rfl))
      rw [Rd.nextPoint]
      simp only [push, Codec.readPoint_append hr j]
      rfl

theorem readW (hj : d.readPoint j = none) (hd : 0 < d.pointLen) : Tail j (Api.readW d : Rd T (List (mock F gen).P)) :=
  fun s a s' h h0 => readAll hj hd s.bytes.length _ s a s' le_rfl (by simp [push]) h h0

end Tail

theorem both {j : List UInt8} {x : Rd T α} {f : α → Rd T β} (hx : Trail j x ∧ Keep x) (hf : ∀ a, Trail j (f a) ∧ Keep (f a)) :
    Trail j (x >>= f) ∧ Keep (x >>= f) := ⟨.bind hx.1 fun a => (hf a).1, .bind hx.2 fun a => (hf a).2⟩

theorem bothLift {j : List UInt8} (x : Option α) : Trail j (Rd.lift (c := mock F gen) x : Rd T α) ∧ Keep (Rd.lift (c := mock F gen) x : Rd T α) :=
  ⟨.lift x, .lift x⟩

open Tail in
theorem buildParams_tail {j : List UInt8} (hj : d.readPoint j = none) (hd : 0 < d.pointLen) (vk : VK F G) (ics : List (List G)) (key : String) :
    Tail j (Api.buildParams d vk ics key : Rd T _) := by
  refine bind (.bind (.lift _) fun _ => .absorbScalar _ _) fun _ => ?_
  refine bind (.bind (.each (fun _ => .each (fun _ => .absorbPoint _ _) _) _) fun _ => .ret _) fun _ => ?_
  refine bind (.lift _) fun zero0 => ?_
  refine bind (.phaseLoop vk _ _ _) fun r => ?_
  refine bind (.lift _) fun advice => ?_
  refine bind .squeeze fun theta => ?_
  refine bind (.times (.times (.bind .readPoint fun _ => .bind .readPoint fun _ => .ret _) _) _) fun permuted => ?_
  refine bind .squeeze fun beta => ?_
  refine bind .squeeze fun gamma => ?_
  refine bind (.lift _) fun ch => ?_
  refine bind (.times (.times .readPoint _) _) fun pc => ?_
  refine bind (.each (fun _ => .each (fun _ => .readPoint) _) _) fun lc => ?_
  refine bind .readPoint fun random => ?_
  refine bind .squeeze fun y => ?_
  refine bind (.times .readPoint _) fun h => ?_
  refine bind .squeeze fun x => ?_
  refine bind (.times (.times .readScalar _) _) fun ie => ?_
  refine bind (.times (.times .readScalar _) _) fun ae => ?_
  refine bind (.times .readScalar _) fun fe => ?_
  refine bind .readScalar fun re => ?_
  refine bind (.times .readScalar _) fun pe => ?_
  refine bind (.buildPermutation vk _ _ _ _ _ _) fun perms => ?_
  refine bind (.buildLookup vk _ _ _) fun lookups => ?_
  refine bind (.lift _) fun fc => ?_
  refine bind .squeeze fun v => ?_
  refine bind' (Tail.readW hj hd) fun w => ?_
  refine both ⟨.squeeze, .squeeze⟩ fun u => ?_
  refine both (bothLift _) fun _ => both (bothLift _) fun _ => both (bothLift _) fun _ => both (bothLift _) fun _ => ?_
  refine both (bothLift _) fun _ => both (bothLift _) fun _ => both (bothLift _) fun _ => both (bothLift _) fun _ => ?_
  exact both (bothLift _) fun _ => both (bothLift _) fun _ => both (bothLift _) fun _ => ⟨.ret _, .ret _⟩

theorem verifySingle_tail {j : List UInt8} (hj : d.readPoint j = none) (hd : 0 < d.pointLen) (circuit : CircuitProof T) :
    Tail j (Api.verifySingle d circuit : Rd T _) := by
  refine Tail.bind (.lift _) fun pr => ?_
  refine Tail.bind (.lift _) fun i => ?_
  refine Tail.bind' (Tail.bind' (buildParams_tail hj hd _ _ _) fun p => both (bothLift _) fun _ => both (bothLift _) fun _ =>
    ⟨.ret _, .ret _⟩) fun r => both (bothLift _) fun _ => ⟨.ret _, .ret _⟩

end Mock

/-- It is not true that a verified proof uses all its bytes: `while let Ok(p) = self.load_point()` takes the first bytes that are no
point for the end of the proof. So a proof followed by too few bytes for a point, or by bytes that decode to none, gives the same result. -/
theorem C67_trailing_bytes {T : Transcript (mock F gen)} (hd : 0 < d.pointLen) {circuit : CircuitProof T} {start rest : Reader T}
    {r : G × G × List F × List G} (h : verifySingle (c := mock F gen) d circuit start = some (r, rest)) (hend : rest.bytes = [])
    {j : List UInt8} (hj : d.readPoint j = none) :
    verifySingle (c := mock F gen) d circuit ⟨start.bytes ++ j, start.st, start.trace⟩ = some (r, ⟨j, rest.st, rest.trace⟩) := by
  have := Mock.verifySingle_tail (T := T) hj hd circuit start r rest h hend
  rw [Mock.push, Mock.push, hend] at this
  exact this

/-- What is read is determined by the bytes and, if values have one encoding, the other way round: the part of the bytes that is used can
be recovered from what went through the transcript. What is missing is that this part is everything. -/
theorem C67_used_bytes_partial {T : Transcript (mock F gen)} (hp : ∀ x y P, d.point x = some P → d.point y = some P → x = y)
    (hs : ∀ x y k, d.scalar x = some k → d.scalar y = some k → x = y) {evs : List (Event (mock F gen).P (mock F gen).S)}
    {b b' b₁ b₁' : List UInt8} {st st₁ st' st₁' : T.St}
    (h : (mockLogic F gen).Took d b st evs b₁ st₁) (h' : (mockLogic F gen).Took d b' st' evs b₁' st₁') :
    ∃ u, b = u ++ b₁ ∧ b' = u ++ b₁' := by
  have rp : ∀ {b : List UInt8} {P : G} {r : List UInt8}, d.readPoint b = some (P, r) → ∃ u, b = u ++ r ∧ d.point u = some P := by
    intro b P r h
    unfold Codec.readPoint at h
    split at h
    · exact absurd h (by simp)
    · obtain ⟨Q, h1, h2⟩ := Option.map_eq_some_iff.1 h
      rw [Prod.mk.injEq] at h2
      obtain ⟨rfl, rfl⟩ := h2
      exact ⟨_, (List.take_append_drop _ _).symm, h1⟩
  have rs : ∀ {b : List UInt8} {P : F} {r : List UInt8}, d.readScalar b = some (P, r) → ∃ u, b = u ++ r ∧ d.scalar u = some P := by
    intro b P r h
    unfold Codec.readScalar at h
    split at h
    · exact absurd h (by simp)
    · obtain ⟨Q, h1, h2⟩ := Option.map_eq_some_iff.1 h
      rw [Prod.mk.injEq] at h2
      obtain ⟨rfl, rfl⟩ := h2
      exact ⟨_, (List.take_append_drop _ _).symm, h1⟩
  induction h generalizing b' st' with
  | nil => cases h'; exact ⟨[], rfl, rfl⟩
  | point P b1 st1 h hw ha _ ih =>
    cases h' with
    | point P' b1' st1' h2 hw2 ha2 ht2 =>
      obtain ⟨u, rfl, h3⟩ := rp h
      obtain ⟨u', rfl, h4⟩ := rp h2
      obtain ⟨v, rfl, rfl⟩ := ih ht2
      have hP : P = P' := hw.symm.trans hw2
      subst hP
      obtain rfl := hp _ _ _ h3 h4
      exact ⟨u ++ v, by simp, by simp⟩
  | scalar P b1 st1 h hw ha _ ih =>
    cases h' with
    | scalar P' b1' st1' h2 hw2 ha2 ht2 =>
      obtain ⟨u, rfl, h3⟩ := rs h
      obtain ⟨u', rfl, h4⟩ := rs h2
      obtain ⟨v, rfl, rfl⟩ := ih ht2
      have hP : P = P' := hw.symm.trans hw2
      subst hP
      obtain rfl := hs _ _ _ h3 h4
      exact ⟨u ++ v, by simp, by simp⟩
  | commonPoint st1 ha _ ih =>
    cases h' with
    | commonPoint st1' ha2 ht2 => exact ih ht2
  | commonScalar st1 ha _ ih =>
    cases h' with
    | commonScalar st1' ha2 ht2 => exact ih ht2
  | challenge st1 ha _ ih =>
    cases h' with
    | challenge st1' ha2 ht2 => exact ih ht2

end Generic

/-! ### A concrete verifier -/

namespace Tiny

/-- One advice column, queried at rotations 0 and 1, and one instance column; two rows. -/
def vk : VK ℚ ℚ where
  digest := 7
  omega := -1
  delta := 2
  n := 2
  blinding := 0
  degree := 3
  quotientDegree := 1
  phases := [0]
  advicePhase := [0]
  challengePhase := []
  numInstance := 1
  instanceQueries := [(0, 0)]
  adviceQueries := [(0, 0), (0, 1)]
  fixedQueries := []
  gates := [[.sum (.advice 0) (.negated (.instance 0))]]
  lookups := []
  permColumns := []
  fixedCommitments := []
  permutationCommitments := []
  gLagrange := [5, 6]

/-- One byte per value; 255 is not a point. -/
def codec : Codec ℚ ℚ := ⟨1, 1, fun b => if b.headD 0 = 255 then none else some ((b.headD 0).toNat : ℚ), fun b => some ((b.headD 0).toNat : ℚ)⟩

/-- A "hash" that always answers 3. -/
noncomputable def transcript : Transcript (mock ℚ (1 : ℚ)) where
  St := Unit
  commonPoint _ _ := some ()
  commonScalar _ _ := some ()
  squeeze _ := some ((3 : ℚ), ())

noncomputable def proof (key : String) : ProofData transcript := ⟨[[[4]]], ⟨[1, 2, 3, 4, 5, 6, 7, 8, 9], (), []⟩, key⟩

theorem safe : (mockLogic ℚ (1 : ℚ)).Safe transcript where
  commonPoint _ _ := ⟨(), rfl, trivial⟩
  commonScalar _ _ := ⟨(), rfl, trivial⟩
  squeeze _ := ⟨_, rfl, trivial⟩

theorem wf : vk.WF where
  degree := by decide
  quotientDegree := by decide
  n := by decide
  phases := by decide
  advicePhase := by decide
  instanceQuery := by decide
  adviceQuery := by decide
  fixedQuery := by decide
  permColumns := by decide
  permSize := by simp [vk, chunks]
  gates := by simp [vk, Expr.Closed]
  lookups := by simp [vk]

theorem domain : vk.Domain where
  root := by norm_num [vk]
  n := by norm_num [vk]
  basis := rfl

theorem card : (vk.rotations 1).toFinset.card = 2 := by
  have : vk.rotations 1 = [0, 0, 1, 0, 0] := by simp [VK.rotations, vk, chunks]
  rw [this]
  decide

theorem kinds : vk.kinds 1 2 = [.point, .point, .point, .scalar, .scalar, .scalar, .scalar, .point, .point, .stop] := by
  simp [VK.kinds, vk, chunks, rep, setKinds]

theorem challenges {b b' : List UInt8} {st st' : transcript.St} {evs : List (Event (mock ℚ (1 : ℚ)).P (mock ℚ (1 : ℚ)).S)}
    (h : (mockLogic ℚ (1 : ℚ)).Took codec b st evs b' st') (s : ℚ) (hs : .challenge s ∈ evs) : s = 3 := by
  induction h with
  | nil => simp at hs
  | point P b1 st1 h hp ha _ ih => exact ih (by simpa using hs)
  | scalar P b1 st1 h hp ha _ ih => exact ih (by simpa using hs)
  | commonPoint st1 ha _ ih => exact ih (by simpa using hs)
  | commonScalar st1 ha _ ih => exact ih (by simpa using hs)
  | challenge st1 ha _ ih =>
    rcases List.mem_cons.1 hs with hs | hs
    · have : s = _ := Event.challenge.inj hs
      rw [this]
      exact ha (fun r => r.1 = (3 : ℚ)) ⟨_, rfl, rfl⟩
    · exact ih hs

theorem x_mem {P S : Type} (p : Params P S) (s : S) : .challenge p.x ∈ p.layout vk s := by
  unfold Params.layout
  simp only [List.mem_append, List.mem_singleton, true_or, or_true]

theorem parses : codec.Parses (vk.kinds 1 2) [1, 2, 3, 4, 5, 6, 7, 8, 9] := by
  rw [kinds]
  exact ⟨_, _, rfl, _, _, rfl, _, _, rfl, _, _, rfl, _, _, rfl, _, _, rfl, _, _, rfl, _, _, rfl, _, _, rfl, rfl, rfl⟩

theorem fits : vk.Fits [[[4]]] := by
  intro i hi
  rw [List.mem_singleton] at hi
  subst hi
  exact ⟨rfl, by simp [vk]⟩

theorem built (key : String) {ics : List (List ℚ)} (hi : ics.length = 1) : ∃ (p : Params ℚ ℚ) (rest : Reader transcript),
    buildParams (T := transcript) codec vk ics key ⟨[1, 2, 3, 4, 5, 6, 7, 8, 9], (), []⟩ = some (p, rest) ∧ p.x = 3 := by
  have hb : codec.Parses (vk.kinds ics.length 2) [1, 2, 3, 4, 5, 6, 7, 8, 9] := by
    rw [hi]
    exact parses
  obtain ⟨p, rest, h1, h2, h3, -, evs, h4, -, h5⟩ := Mock.exists_params safe (d := codec) (by decide) wf domain (ics := ics) key
    (start := ⟨[1, 2, 3, 4, 5, 6, 7, 8, 9], (), []⟩) (m := 2) hb
  exact ⟨p, rest, h1, challenges h5 p.x (by rw [h4]; exact x_mem (P := ℚ) (S := ℚ) p _)⟩

theorem accepts (key : String) : ∃ p rest, Mock.Accepts codec vk (proof key) p rest := by
  obtain ⟨p, rest, h1, hx⟩ := built key (ics := [[vk.commit [4]]]) rfl
  refine ⟨p, rest, wf, domain, fits, rfl, by rw [card]; exact parses, h1, ?_⟩
  rw [hx]
  norm_num [vk]

/-- The hypotheses of C64 and C65 can be met. -/
example (start : Reader transcript) : ∃ r, verifySingle codec ⟨vk, [proof ""]⟩ (proof "").reader = some r := by
  obtain ⟨p, rest, h⟩ := accepts ""
  exact ⟨_, (C64_single_mock safe (by decide) (circuit := ⟨vk, [proof ""]⟩) rfl h (by rw [show (CircuitProof.vk _) = vk from rfl, card])).1⟩

example (start : Reader transcript) :
    ∃ r, verifyAggregation codec [⟨vk, [proof (proofKey "a" 0), proof (proofKey "a" 1)]⟩, ⟨vk, [proof (proofKey "b" 0)]⟩] start = some r := by
  obtain ⟨_, _, _, -, -, h⟩ := C65_aggregation_mock safe (d := codec) (by decide)
    (circuits := [⟨vk, [proof (proofKey "a" 0), proof (proofKey "a" 1)]⟩, ⟨vk, [proof (proofKey "b" 0)]⟩])
    (by
      intro ci hci pr hpr
      simp only [List.mem_cons, List.not_mem_nil, or_false] at hci
      rcases hci with rfl | rfl <;> simp only [List.mem_cons, List.not_mem_nil, or_false] at hpr
      · rcases hpr with rfl | rfl <;> exact accepts _
      · subst hpr; exact accepts _)
    (by
      intro j hj
      simp only [Logic.jobs, List.flatMap_cons, List.flatMap_nil, List.map_cons, List.map_nil, List.cons_append, List.nil_append,
        List.append_nil, List.mem_cons, List.not_mem_nil, or_false] at hj
      rcases hj with rfl | rfl | rfl <;> exact ⟨_, _, rfl⟩)
    (by
      show [proofKey "a" 0, proofKey "a" 1, proofKey "b" 0].Nodup
      decide +kernel)
    (by simp [Logic.jobs]) (.inl (by simp [Logic.jobs])) start
  exact ⟨_, h⟩

def Read {P S : Type} : Event P S → Bool
  | .point _ => true
  | .scalar _ => true
  | _ => false

theorem took_length {b b' : List UInt8} {st st' : transcript.St} {evs : List (Event (mock ℚ (1 : ℚ)).P (mock ℚ (1 : ℚ)).S)}
    (h : (mockLogic ℚ (1 : ℚ)).Took codec b st evs b' st') : b.length = evs.countP Read + b'.length := by
  have hp : ∀ {b : List UInt8} {P : ℚ} {b1 : List UInt8}, codec.readPoint b = some (P, b1) → b.length = b1.length + 1 := by
    intro b P b1 h
    unfold Codec.readPoint at h
    split at h
    · exact absurd h (by simp)
    · next hl =>
      obtain ⟨Q, -, h2⟩ := Option.map_eq_some_iff.1 h
      rw [Prod.mk.injEq] at h2
      rw [← h2.2, List.length_drop]
      change ¬ b.length < 1 at hl
      show _ = b.length - 1 + 1
      omega
  have hs : ∀ {b : List UInt8} {P : ℚ} {b1 : List UInt8}, codec.readScalar b = some (P, b1) → b.length = b1.length + 1 := by
    intro b P b1 h
    unfold Codec.readScalar at h
    split at h
    · exact absurd h (by simp)
    · next hl =>
      obtain ⟨Q, -, h2⟩ := Option.map_eq_some_iff.1 h
      rw [Prod.mk.injEq] at h2
      rw [← h2.2, List.length_drop]
      change ¬ b.length < 1 at hl
      show _ = b.length - 1 + 1
      omega
  induction h with
  | nil => simp
  | point P b1 st1 h _ ha _ ih => rw [List.countP_cons_of_pos rfl, hp h, ih]; omega
  | scalar P b1 st1 h _ ha _ ih => rw [List.countP_cons_of_pos rfl, hs h, ih]; omega
  | commonPoint st1 ha _ ih => rw [List.countP_cons_of_neg (by simp [Read]), ih]
  | commonScalar st1 ha _ ih => rw [List.countP_cons_of_neg (by simp [Read]), ih]
  | challenge st1 ha _ ih => rw [List.countP_cons_of_neg (by simp [Read]), ih]

theorem reads_le {P S : Type} {p : Params P S} {ics : List (List P)} {key : String} (g1 : p.Shape vk ics key) (hi : ics.length = 1)
    (hw : p.w.length = 2) (dg : S) : 9 ≤ (p.layout vk dg).countP Read := by
  obtain ⟨ha, hb⟩ := g1.adviceCommitments
  obtain ⟨r, hr⟩ := List.length_eq_one_iff.1 (ha.trans hi)
  obtain ⟨a, rfl⟩ := List.length_eq_one_iff.1 (hb r (by rw [hr]; exact List.mem_singleton_self r))
  obtain ⟨hc, hd⟩ := g1.instanceEvals
  obtain ⟨r2, hr2⟩ := List.length_eq_one_iff.1 (hc.trans hi)
  obtain ⟨b, rfl⟩ := List.length_eq_one_iff.1 (hd r2 (by rw [hr2]; exact List.mem_singleton_self r2))
  obtain ⟨he, hf⟩ := g1.adviceEvals
  obtain ⟨r3, hr3⟩ := List.length_eq_one_iff.1 (he.trans hi)
  obtain ⟨c, e, rfl⟩ := List.length_eq_two.1 (hf r3 (by rw [hr3]; exact List.mem_singleton_self r3))
  obtain ⟨f, hf⟩ := List.length_eq_one_iff.1 g1.vanish
  obtain ⟨w1, w2, hw⟩ := List.length_eq_two.1 hw
  unfold Params.layout
  rw [hr, hr2, hr3, hf, hw]
  simp only [List.countP_append]
  simp [vk, onPhase, Read, List.countP_cons]
  omega

theorem used {key : String} {p : Params ℚ ℚ} {rest : Reader transcript} (h : Mock.Accepts codec vk (proof key) p rest) : rest.bytes = [] := by
  obtain ⟨g1, -, -, -, evs, g2, -, g3⟩ := h.facts safe (by decide)
  have hw := h.w_length safe (by decide)
  rw [card] at hw
  have hl : 9 = evs.countP Read + rest.bytes.length := took_length g3
  have h1 : 9 ≤ evs.countP Read := by
    rw [g2]
    exact reads_le g1 rfl hw _
  exact List.length_eq_zero_iff.1 (by omega)

/-- C67: 255 after the proof changes nothing. -/
example : verifySingle codec ⟨vk, [proof ""]⟩ (T := transcript) ⟨[1, 2, 3, 4, 5, 6, 7, 8, 9, 255, 1, 2, 3], (), []⟩ =
    (verifySingle codec ⟨vk, [proof ""]⟩ (T := transcript) ⟨[1, 2, 3, 4, 5, 6, 7, 8, 9], (), []⟩).map
      fun r => (r.1, ⟨[255, 1, 2, 3], r.2.st, r.2.trace⟩) := by
  obtain ⟨p, rest, h⟩ := accepts ""
  have hs := (C64_single_mock safe (by decide) (circuit := ⟨vk, [proof ""]⟩) rfl h (by rw [show (CircuitProof.vk _) = vk from rfl, card])).1
  have := C67_trailing_bytes (d := codec) (by decide) hs (used h) (j := [255, 1, 2, 3]) rfl
  rw [show verifySingle codec ⟨vk, [proof ""]⟩ (T := transcript) ⟨[1, 2, 3, 4, 5, 6, 7, 8, 9], (), []⟩ = _ from hs]
  exact this

end Tiny
end Verif.Api
