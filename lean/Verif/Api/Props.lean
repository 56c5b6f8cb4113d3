import Verif.Api.Mock
import Verif.Api.CircuitChip
import Verif.Api.Soundness

/-!
# Properties of the generic verifier arithmetic (C23 - C26, C28 - C33)

Each theorem is stated for any chip with a `Logic`, then for the mock chip (the call returns, with this value) and for the circuit (every
satisfying assignment has this value).
-/

namespace Verif.Api

open Verif.Circuit Verif.Ecc

section Generic
variable {F G : Type} {c : Chip F G} [Field F] [AddCommGroup G] [Module F G] {gen : G}

/-! ### C23: `pow_constant` -/

/-- The full statement is for all `1 ≤ e < 2^32`; it is false from `2^31` on, see `C23_pow_constant_diverges`. -/
theorem C23_pow_constant_partial (L : Logic c gen) (base : c.S) {e : ℕ} (h1 : 1 ≤ e) (h2 : e < 2 ^ 31) {fuel : ℕ}
    (hf : 32 ≤ fuel) : ∃ x, powConstant c fuel base e = some x ∧ L.Ens x fun r => L.sv r = L.sv base ^ e :=
  L.powConstant base h1 h2 hf

theorem C23_pow_constant_mock_partial (gen : G) (base : F) {e : ℕ} (h1 : 1 ≤ e) (h2 : e < 2 ^ 31) {fuel : ℕ} (hf : 32 ≤ fuel) :
    powConstant (mock F gen) fuel base e = some (some (base ^ e)) := by
  obtain ⟨x, hx, r, hr, h⟩ := (mockLogic F gen).powConstant base h1 h2 hf
  rw [hx, hr]
  exact congrArg (fun y => some (some y)) h

theorem C23_pow_constant_circuit_partial (base : AV N) {e : ℕ} (h1 : 1 ≤ e) (h2 : e < 2 ^ 31) {fuel : ℕ} (hf : 32 ≤ fuel) :
    ∃ x : Build (AV N), powConstant circuitChip fuel base e = some x ∧ ∀ (adv : Advice N) ctx r ctx', x.1 ctx = some (r, ctx') →
      Sat tables ctx' adv → r.val adv = base.val adv ^ e := by
  obtain ⟨x, hx, -⟩ := (circuitLogic fun _ _ => 0).powConstant base h1 h2 hf
  refine ⟨x, hx, fun adv => ?_⟩
  obtain ⟨y, hy, h⟩ := (circuitLogic adv).powConstant base h1 h2 hf
  rw [hx, Option.some.injEq] at hy
  rw [hy]
  exact h

/-- The exponent zero panics: `assert!(exponent >= 1)`. -/
theorem C23_pow_constant_zero (base : c.S) (fuel : ℕ) : powConstant c fuel base 0 = some c.panic := rfl

/-- From `2^31` on the first loop does not end, for any number of iterations. -/
theorem C23_pow_constant_diverges (base : c.S) {e : ℕ} (h : 2 ^ 31 ≤ e) (fuel : ℕ) : powConstant c fuel base e = none := by
  unfold powConstant
  have := findTop_diverges h fuel 0 (by omega)
  rw [pow_zero] at this
  rw [if_pos (by omega), this]
  rfl

example : powConstant (mock ℚ (0 : ℚ)) 32 (3 : ℚ) 5 = some (some (243 : ℚ)) := by
  have h : (3 : ℚ) ^ 5 = 243 := by norm_num
  rw [C23_pow_constant_mock_partial (0 : ℚ) (3 : ℚ) (by omega) (by omega) le_rfl, h]

/-! ### C24: `mul_add_accumulate` -/

theorem C24_mul_add_accumulate (L : Logic c gen) (l : List c.S) (b : c.S) :
    L.Ens (mulAddAccumulate c l b) fun r =>
      L.sv r = ∑ i : Fin l.length, L.sv l[i] * L.sv b ^ (l.length - 1 - i) :=
  L.mono (L.mulAddAccumulate l b) fun r hr => by
    rw [hr, combine, ← List.sum_ofFn]
    congr 1
    apply List.ext_getElem
    · simp
    · intro i h1 h2
      simp

theorem C24_mul_add_accumulate_mock (gen : G) (l : List F) (b : F) :
    mulAddAccumulate (mock F gen) l b = some (∑ i : Fin l.length, l[i] * b ^ (l.length - 1 - i)) := by
  obtain ⟨r, hr, h⟩ := C24_mul_add_accumulate (mockLogic F gen) l b
  rw [hr]
  exact congrArg some h

theorem C24_mul_add_accumulate_circuit (l : List (AV N)) (b : AV N) {ctx ctx' : Ctx N} {r : AV N}
    (h : (mulAddAccumulate circuitChip l b).1 ctx = some (r, ctx')) {adv : Advice N} (hs : Sat tables ctx' adv) :
    r.val adv = ∑ i : Fin l.length, (l[i]).val adv * b.val adv ^ (l.length - 1 - i) :=
  C24_mul_add_accumulate (circuitLogic adv) l b ctx r ctx' h hs

example : mulAddAccumulate (mock ℚ (0 : ℚ)) [(2 : ℚ), (3 : ℚ), (5 : ℚ)] (10 : ℚ) = some (235 : ℚ) := by
  have h : (∑ i : Fin 3, ([2, 3, 5] : List ℚ)[i] * 10 ^ (3 - 1 - (i : ℕ))) = 235 := by
    simp [Fin.sum_univ_three]
    norm_num
  exact (C24_mul_add_accumulate_mock (0 : ℚ) ([2, 3, 5] : List ℚ) 10).trans (congrArg some h)

/-! ### C25: gate expressions -/

/-- The two steps the verifier takes: convert the constants, then evaluate. -/
theorem C25_chip_evaluate (L : Logic c gen) (q : QueryEvals c.S) {zero : c.S} (hz : L.sv zero = 0) {e : Expr F}
    (he : e.Closed q) : L.Ens (convertExpression c e >>= chipEvaluate c q zero) fun r =>
      L.sv r = e.value (L.at' q.fixed) (L.at' q.advice) (L.at' q.instance) (L.at' q.challenges) :=
  L.bind (L.convertExpression e) fun e' he' => by
    have hc : e'.Closed q := by rw [← Expr.closed_map q L.sv, he']; exact he
    have := L.chipEvaluate q zero hz e' hc
    rw [he'] at this
    exact this

theorem C25_chip_evaluate_mock (gen : G) (q : QueryEvals F) {e : Expr F} (he : e.Closed q) :
    (convertExpression (mock F gen) e >>= chipEvaluate (mock F gen) q (0 : F)) =
      some (e.value (fun i => q.fixed.getD i 0) (fun i => q.advice.getD i 0) (fun i => q.instance.getD i 0)
        (fun i => q.challenges.getD i 0)) := by
  obtain ⟨r, hr, h⟩ := C25_chip_evaluate (mockLogic F gen) q (zero := (0 : F)) rfl he
  rw [hr]
  have hat : ∀ l : List F, (mockLogic F gen).at' l = fun i => l.getD i 0 := fun l => by
    funext i
    rw [List.getD_eq_getElem?_getD]
    show ((l[i]?).map id).getD 0 = _
    rw [Option.map_id]
    rfl
  have h' : r = e.value ((mockLogic F gen).at' q.fixed) ((mockLogic F gen).at' q.advice) ((mockLogic F gen).at' q.instance)
    ((mockLogic F gen).at' q.challenges) := h
  rw [hat, hat, hat, hat] at h'
  exact congrArg some h'

theorem C25_chip_evaluate_circuit (q : QueryEvals (AV N)) {zero : AV N} {e : Expr N} (he : e.Closed q) {ctx ctx' : Ctx N} {r : AV N}
    (h : (convertExpression circuitChip e >>= chipEvaluate circuitChip q zero).1 ctx = some (r, ctx')) {adv : Advice N}
    (hz : zero.val adv = 0) (hs : Sat tables ctx' adv) :
    r.val adv = e.value ((circuitLogic adv).at' q.fixed) ((circuitLogic adv).at' q.advice) ((circuitLogic adv).at' q.instance)
      ((circuitLogic adv).at' q.challenges) :=
  C25_chip_evaluate (circuitLogic adv) q hz he ctx r ctx' h hs

/-- The gate `q · (a · b - 2 c)`. -/
def exampleGate : Expr ℚ :=
  .product (.fixed 0) (.sum (.product (.advice 0) (.advice 1)) (.negated (.scaled (.advice 2) 2)))

example : (convertExpression (mock ℚ (0 : ℚ)) exampleGate >>=
    chipEvaluate (mock ℚ (0 : ℚ)) (⟨[1], [3, 4, 5], [], []⟩ : QueryEvals ℚ) (0 : ℚ)) = some (2 : ℚ) := by
  refine (C25_chip_evaluate_mock (0 : ℚ) ⟨[1], [3, 4, 5], [], []⟩ (e := exampleGate) (by simp [exampleGate, Expr.Closed])).trans ?_
  refine congrArg some ?_
  simp [exampleGate, Expr.value]
  norm_num

/-- A virtual selector that was not compiled away panics. -/
theorem C25_selector_panics (q : QueryEvals c.S) (zero : c.S) (i : ℕ) : chipEvaluate c q zero (.selector i) = c.panic := rfl

/-! ### C26: evaluation-query schemas -/

/-- The full statement has no `Scaled` hypothesis; without it the statement is false, see `C26_unscaled_panics`. `WF` contains the
restriction to products with a scalar and that equal keys mean equal commitments, see `C26_product_panics` and `C26_key_collision`. -/
theorem C26_schema_eval_partial (L : Logic c gen) {K : String → G} {one : c.S} (h1 : L.sv one = 1) {s : Schema c.P c.S}
    (h : s.WF L.pv K) (hs : s.Scaled false) : L.Ens (evalSchema c one s) fun r => L.pv r.1 (s.sem K L.sv).1 ∧
      (r.2.1.map L.sv).getD 0 = (s.sem K L.sv).2 ∧ r.2.2.Nodup :=
  L.evalSchema h1 h hs

theorem C26_schema_eval_mock_partial (gen : G) {K : String → G} {s : Schema G F}
    (h : s.WF (fun p P => p = P) K) (hs : s.Scaled false) : ∃ (e : Option F) (names : List String),
      evalSchema (mock F gen) (1 : F) s = some ((s.sem K id).1, e, names) ∧ e.getD 0 = (s.sem K id).2 ∧ names.Nodup := by
  obtain ⟨⟨p, e, names⟩, h1, h2, h3, h4⟩ := C26_schema_eval_partial (mockLogic F gen) (one := (1 : F)) rfl h hs
  refine ⟨e, names, ?_, ?_, h4⟩
  · rw [h1, show p = (s.sem K id).1 from h2]
    rfl
  · have h3' : (Option.map id (show Option F from e)).getD 0 = (s.sem K id).2 := h3
    rw [Option.map_id] at h3'
    exact h3'

theorem C26_schema_eval_circuit_partial {adv : Advice N} {K : String → Pt} {one : AV N} (h1 : one.val adv = 1) {s : Schema APt (AV N)}
    (h : s.WF (Represents adv) K) (hs : s.Scaled false) {ctx ctx' : Ctx N} {r : APt × Option (AV N) × List String}
    (hr : (evalSchema circuitChip one s).1 ctx = some (r, ctx')) (hsat : Sat tables ctx' adv) :
    Represents adv r.1 (s.sem K fun x => x.val adv).1 ∧ (r.2.1.map fun x => x.val adv).getD 0 = (s.sem K fun x => x.val adv).2 :=
  let h := C26_schema_eval_partial (circuitLogic adv) h1 h hs ctx r ctx' hr hsat
  ⟨h.1, h.2.1⟩

/-- `3·A + 2·(B + 5) + 4·A` with the keys "a", "b". -/
def exampleSchema : Schema ℚ ℚ :=
  .scalar 3 * .commitment ⟨"a", some 7, none⟩ + .scalar 2 * (.commitment ⟨"b", some 11, none⟩ + .eval ⟨"b", none, some 5⟩) +
    .scalar 4 * .commitment ⟨"a", some 7, none⟩

example : ∃ (e : Option ℚ) (names : List String), evalSchema (mock ℚ (1 : ℚ)) (1 : ℚ) exampleSchema = some ((71 : ℚ), e, names) ∧
    e.getD 0 = 10 ∧ names.Nodup := by
  have h := C26_schema_eval_mock_partial (1 : ℚ) (K := fun k => if k = "a" then 7 else 11) (s := exampleSchema) (by
      simp [exampleSchema, Schema.wf_add, Schema.wf_mul, Schema.WF, Schema.hasCommitment]) (by
      simp [exampleSchema, Schema.scaled_add, Schema.scaled_mul, Schema.Scaled])
  have e : exampleSchema.sem (F := ℚ) (G := ℚ) (fun k => if k = "a" then 7 else 11) id = (71, 10) := by
    simp [exampleSchema, Schema.sem]
    norm_num
  rw [e] at h
  exact h

/-- A schema whose commitments all stand alone makes `eval` panic: there is nothing to pass to `multi_exp`. -/
theorem C26_unscaled_panics (gen P : G) (x : F) :
    (Schema.commitment ⟨"a", some P, none⟩ + .scalar x : Schema G F).WF (fun p P => p = P) (fun _ => P) ∧
    evalSchema (mock F gen) (1 : F) (Schema.commitment ⟨"a", some P, none⟩ + .scalar x) = none := by
  exact ⟨by simp [Schema.wf_add, Schema.WF], rfl⟩

/-- The product of two commitments panics. -/
theorem C26_product_panics (gen P Q : G) :
    evalSchema (mock F gen) (1 : F) (Schema.commitment ⟨"a", some P, none⟩ * .commitment ⟨"b", some Q, none⟩) = none := rfl

/-- Two commitments under one key: the second is replaced by the first. -/
theorem C26_key_collision (gen P Q : G) (s t : F) :
    evalSchema (mock F gen) (1 : F) (.scalar s * .commitment ⟨"a", some P, none⟩ + .scalar t * .commitment ⟨"a", some Q, none⟩) =
      some ((s + t) • P, none, ["a"]) := by
  show some _ = _
  rfl

/-! ### C28: multi-opening -/

/-- The pair of schemas built from the queries stands for `Σ u^i W_i` and `Σ u^i (z_i W_i + Σ_j v^j (C_ij - e_ij G))`. -/
theorem C28_pair (L : Logic c gen) {K : String → G} (key : String) (u v : c.S) {qs : List (EvalQuery c)} {ws : List c.P} {Ws : List G}
    (hq : ∀ q ∈ qs, q.s.WF L.pv K) (hws : List.Forall₂ L.pv ws Ws) (hne : ws ≠ [])
    (hlen : ws.length = (groupsOf Claim.rotation (qs.map (L.claim K))).length) (hK : ∀ j W, Ws[j]? = some W → K (wKey key j) = W) :
    L.Ens (batchMultiOpen c key u v ws qs) fun r =>
      (r.wx.sem K L.sv).1 + (r.wx.sem K L.sv).2 • gen = leftSum (L.sv u) Ws ∧
      (r.wg.sem K L.sv).1 - (r.wg.sem K L.sv).2 • gen = rightSum gen (L.sv u) (L.sv v) Ws (qs.map (L.claim K)) :=
  L.mono (L.batchMultiOpen key u v hq hws hne hlen hK) fun r hr => by
    rw [show r.wx.sem K L.sv = _ from hr.1.left, show r.wg.sem K L.sv = _ from hr.1.right, ← Logic.rightPair_value]
    simp

/-- For at least two rotations the evaluated pair is the pair of group elements. With one rotation there is nothing to evaluate,
see `C28_one_rotation_panics`. -/
theorem C28_evaluated_partial (L : Logic c gen) {K : String → G} (key : String) (u v : c.S) {qs : List (EvalQuery c)} {ws : List c.P}
    {Ws : List G} (hq : ∀ q ∈ qs, q.s.WF L.pv K) (hws : List.Forall₂ L.pv ws Ws) (hne : 2 ≤ ws.length)
    (hlen : ws.length = (groupsOf Claim.rotation (qs.map (L.claim K))).length) (hK : ∀ j W, Ws[j]? = some W → K (wKey key j) = W) :
    L.Ens (batchMultiOpen c key u v ws qs >>= evaluateMultiopen c) fun r =>
      L.pv r.1 (leftSum (L.sv u) Ws) ∧ L.pv r.2 (rightSum gen (L.sv u) (L.sv v) Ws (qs.map (L.claim K))) :=
  L.single key u v hq hws hne hlen hK

theorem eval_bare (gen : G) (k : String) (P : G) :
    evalSchema (mock F gen) (1 : F) (.commitment ⟨k, some P, none⟩) = (none : Option _) := by
  have h : evalSchema (mock F gen) (1 : F) (.commitment ⟨k, some P, none⟩) =
      Option.bind (scalarOf (mock F gen) (List.find? (fun b => b.1 = "") [(k, some P, none)])) fun _ => none := rfl
  rw [h]
  exact Option.bind_eq_none_iff.2 fun _ _ => rfl

/-- With a single opening proof the evaluation panics, whatever the queries are. -/
theorem C28_one_rotation_panics (gen : G) (key : String) (u v : F) (qs : List (EvalQuery (mock F gen))) (W : G) :
    (batchMultiOpen (mock F gen) key u v [W] qs >>= evaluateMultiopen (mock F gen)) = none := by
  show Option.bind (batchMultiOpen (mock F gen) key u v [W] qs) _ = none
  refine Option.bind_eq_none_iff.2 fun r hr => ?_
  have hr' : Option.bind (getPointSchemas (mock F gen) v [W] qs) _ = some r := hr
  obtain ⟨ps, h1, h2⟩ := Option.bind_eq_some_iff.1 hr'
  have hps : ∃ p, ps = [p] := by
    unfold getPointSchemas at h1
    dsimp only at h1
    split at h1
    · next hl =>
      obtain ⟨g, hg⟩ := List.length_eq_one_iff.1 hl.symm
      rw [hg] at h1
      have h1' : Option.bind _ _ = some ps := h1
      obtain ⟨s, -, h3⟩ := Option.bind_eq_some_iff.1 h1'
      have h3' : some [(⟨g.2.1, s, W⟩ : EvalProof (mock F gen))] = some ps := h3
      exact ⟨_, (Option.some.inj h3').symm⟩
    · have h1' : (none : Option (List (EvalProof (mock F gen)))) = some ps := h1
      exact absurd h1' (by simp)
  obtain ⟨p, rfl⟩ := hps
  have h4 : r.wx = .commitment ⟨wKey key 0, some p.w, none⟩ := by
    have h2' : some _ = some r := h2
    rw [← Option.some.inj h2']
  have h5 : evalSchema (mock F gen) (1 : F) r.wx = (none : Option _) := by
    rw [h4]
    exact eval_bare gen _ _
  have h6 : evaluateMultiopen (mock F gen) r = Option.bind (evalSchema (mock F gen) (1 : F) r.wx) _ := rfl
  rw [h6, h5]
  rfl

open Polynomial in
/-- Honest openings: if every claim is about a committed polynomial and true, there are openings with which the pairing identity
holds for every `u`. -/
theorem C28_honest {τ v : F} {qs : List (Claim F G)} (poly : Claim F G → F[X])
    (hC : ∀ q ∈ qs, q.C = (poly q).eval τ • gen ∧ q.e = (poly q).eval q.z)
    (hz : ∀ q ∈ qs, ∀ r ∈ qs, q.rotation = r.rotation → q.z = r.z) :
    ∃ Ws : List G, Ws.length = (groupsOf Claim.rotation qs).length ∧ ∀ u, τ • leftSum u Ws = rightSum gen u v Ws qs := by
  have hg : ∀ g ∈ groupsOf Claim.rotation qs, ∃ W, Opens τ gen v W g := by
    intro g hg
    have hmem := groupsOf_mem Claim.rotation qs.length qs le_rfl g hg
    have hpt : ∀ q ∈ g, q.z = groupPoint g := by
      intro q hq
      cases g with
      | nil => cases hq
      | cons q0 g =>
        show q.z = q0.z
        exact hz q (hmem q hq) q0 (hmem q0 (by simp)) (groupsOf_same Claim.rotation qs.length qs le_rfl _ hg q hq q0 (by simp))
    obtain ⟨w, hw⟩ := quotient_exists v (groupPoint g) (g.map poly)
    refine ⟨w.eval τ • gen, opens_honest (ps := g.map poly) ?_ hw⟩
    rw [List.forall₂_map_left_iff]
    refine List.forall₂_same.2 fun q hq => ⟨(hC q (hmem q hq)).1, ?_⟩
    rw [← hpt q hq]
    exact (hC q (hmem q hq)).2
  have hall : ∀ gs : List (List (Claim F G)), (∀ g ∈ gs, ∃ W, Opens τ gen v W g) → ∃ Ws, List.Forall₂ (Opens τ gen v) Ws gs := by
    intro gs
    induction gs with
    | nil => exact fun _ => ⟨[], .nil⟩
    | cons g gs ih =>
      intro h
      obtain ⟨W, hW⟩ := h g (by simp)
      obtain ⟨Ws, hWs⟩ := ih fun g hg => h g (by simp [hg])
      exact ⟨W :: Ws, .cons hW hWs⟩
  obtain ⟨Ws, hWs⟩ := hall _ hg
  exact ⟨Ws, hWs.length_eq, fun u => check_of_opens hWs.length_eq hWs⟩

/-- If the identity holds for as many `u` as there are groups, every group's opening identity holds. -/
theorem C28_sound {τ v : F} {Ws : List G} {qs : List (Claim F G)} (hlen : Ws.length = (groupsOf Claim.rotation qs).length)
    (U : Finset F) (hU : (groupsOf Claim.rotation qs).length - 1 < U.card) (h : ∀ u ∈ U, τ • leftSum u Ws = rightSum gen u v Ws qs) :
    List.Forall₂ (fun W g => (τ - groupPoint g) • W = powSum v (g.map fun q => q.C - q.e • gen)) Ws (groupsOf Claim.rotation qs) :=
  opens_of_check hlen U (by omega) h

open Polynomial in
/-- If a group is opened, as an identity of polynomials, for as many `v` as it has claims, every claim is true. -/
theorem C28_claims_sound {z : F} {ps : List (F[X] × F)} (V : Finset F) (hV : ps.length ≤ V.card)
    (h : ∀ v ∈ V, ∃ w : F[X], (X - C z) * w = powSum v (ps.map fun p => p.1 - C p.2)) : ∀ p ∈ ps, p.1.eval z = p.2 := by
  intro p hp
  have := powSum_all_zero (l := ps.map fun p => p.1.eval z - p.2) V (by simpa using hV) (fun v hv => by
    obtain ⟨w, hw⟩ := h v hv
    have h1 := congrArg (Polynomial.leval z) hw
    rw [← powSum_map, List.map_map] at h1
    simp only [leval_apply, eval_mul, eval_sub, eval_X, eval_C, sub_self, zero_mul] at h1
    rw [h1]
    congr 1
    exact List.map_congr_left fun p _ => by simp) (p.1.eval z - p.2) (List.mem_map_of_mem (f := fun p : F[X] × F => p.1.eval z - p.2) hp)
  exact sub_eq_zero.1 this

/-- Two rotations, three claims, over `ℚ` with `τ = 5`: `X²` at `2` and `3`, `X + 1` at `2`. -/
example : ∃ Ws : List ℚ, Ws.length = 2 ∧ ∀ u : ℚ, (5 : ℚ) • leftSum u Ws =
    rightSum (1 : ℚ) u (7 : ℚ) Ws [⟨0, 2, 25, 4⟩, ⟨1, 3, 25, 9⟩, ⟨0, 2, 6, 3⟩] := by
  have h := C28_honest (F := ℚ) (gen := (1 : ℚ)) (τ := 5) (v := 7) (qs := [⟨0, 2, 25, 4⟩, ⟨1, 3, 25, 9⟩, ⟨0, 2, 6, 3⟩])
    (fun q => if q.C = 25 then Polynomial.X ^ 2 else Polynomial.X + 1) (by simp only [List.mem_cons, List.not_mem_nil, or_false, forall_eq_or_imp, forall_eq]; norm_num) (by simp)
  obtain ⟨Ws, h1, h2⟩ := h
  exact ⟨Ws, by rw [h1]; simp [groupsOf_cons, groupsOf_nil], h2⟩

/-! ### C29: Lagrange values -/

open Polynomial in
/-- The polynomial exists. -/
theorem isLagrange_exists {n : ℕ} {omega w : F} (hn : 0 < n) (ho : IsPrimitiveRoot omega n) (hw : w ^ n = 1) :
    ∃ p : F[X], IsLagrange n w p := by
  classical
  have : NeZero n := ⟨hn.ne'⟩
  obtain ⟨i, hi, rfl⟩ := ho.eq_pow_of_pow_eq_one hw
  have hinj : Set.InjOn (fun i : ℕ => omega ^ i) (Finset.range n : Finset ℕ) := fun i hi j hj h =>
    ho.pow_inj (by simpa using hi) (by simpa using hj) h
  refine ⟨Lagrange.basis (Finset.range n) (fun i : ℕ => omega ^ i) i, ?_, ?_, ?_⟩
  · rw [Lagrange.degree_basis hinj (Finset.mem_range.2 hi), Finset.card_range]
    exact_mod_cast Nat.sub_lt hn one_pos
  · exact Lagrange.eval_basis_self hinj (Finset.mem_range.2 hi)
  · intro r hr hne
    obtain ⟨j, hj, rfl⟩ := ho.eq_pow_of_pow_eq_one hr
    exact Lagrange.eval_basis_of_ne (fun h => hne (by rw [h])) (Finset.mem_range.2 hj)

open Polynomial in
/-- Result number `i` is the value at `x` of the Lagrange polynomial of `ω^(-i)`. -/
theorem C29_lagrange (L : Logic c gen) {omega n x xn one : c.S} (l : ℕ) {N : ℕ} (hN : 0 < N) (h1 : L.sv one = 1)
    (ho : IsPrimitiveRoot (L.sv omega) N) (hn : L.sv n = N) (hxn : L.sv xn = L.sv x ^ N)
    (hx : ∀ i ≤ l, L.sv x ≠ (L.sv omega)⁻¹ ^ i) :
    L.Ens (lagrangeCommits c omega n x xn one l) fun r => r.length = l + 1 ∧
      ∀ i ≤ l, ∀ p : F[X], IsLagrange N ((L.sv omega)⁻¹ ^ i) p → r[i]?.map L.sv = some (p.eval (L.sv x)) := by
  have : NeZero N := ⟨hN.ne'⟩
  have hn0 : L.sv n ≠ 0 := by rw [hn]; exact ho.neZero'.out
  have ho0 : L.sv omega ≠ 0 := ho.ne_zero hN.ne'
  refine L.mono (L.lagrangeCommits l h1 ho0 hn0 hx) fun r hr => ⟨by simpa using congrArg List.length hr, fun i hi p hp => ?_⟩
  rw [← List.getElem?_map, hr, List.getElem?_map, List.getElem?_range (by omega), Option.map_some]
  rw [hp.value hN (by rw [← pow_mul, mul_comm, pow_mul, inv_pow, ho.pow_eq_one, inv_one, one_pow]) ho (hx i hi), hn, hxn]

open Polynomial in
theorem C29_lagrange_mock (gen : G) {omega x : F} (l : ℕ) {N : ℕ} (hN : 0 < N) (ho : IsPrimitiveRoot omega N)
    (hx : ∀ i ≤ l, x ≠ omega⁻¹ ^ i) : ∃ r : List F, lagrangeCommits (mock F gen) omega (N : F) x (x ^ N : F) (1 : F) l = some r ∧
      r.length = l + 1 ∧ ∀ i ≤ l, ∀ p : F[X], IsLagrange N (omega⁻¹ ^ i) p → r[i]? = some (p.eval x) := by
  obtain ⟨r, h1, h2, h3⟩ := C29_lagrange (mockLogic F gen) (omega := omega) (n := (N : F)) (x := x) (xn := (x ^ N : F)) (one := (1 : F)) l hN
    rfl ho rfl rfl hx
  refine ⟨r, h1, h2, fun i hi p hp => ?_⟩
  have := h3 i hi p hp
  have h4 : Option.map id (r[i]?) = some (p.eval x) := this
  rwa [Option.map_id] at h4

/-- The circuit: `n` and `x^n` have these values, and the prover cannot make `x` one of the roots. -/
theorem C29_lagrange_circuit {omega n x xn one : AV N} (l : ℕ) {k : ℕ} (hk : 0 < k) {adv : Advice N} (h1 : one.val adv = 1)
    (ho : IsPrimitiveRoot (omega.val adv) k) (hn : n.val adv = (k : N)) (hxn : xn.val adv = x.val adv ^ k)
    (hx : ∀ i ≤ l, x.val adv ≠ (omega.val adv)⁻¹ ^ i) {ctx ctx' : Ctx N} {r : List (AV N)}
    (h : (lagrangeCommits circuitChip omega n x xn one l).1 ctx = some (r, ctx')) (hs : Sat tables ctx' adv) :
    r.length = l + 1 ∧ ∀ i ≤ l, ∀ p : Polynomial N, IsLagrange k ((omega.val adv)⁻¹ ^ i) p →
      r[i]?.map (fun c => c.val adv) = some (p.eval (x.val adv)) :=
  C29_lagrange (circuitLogic adv) l hk h1 ho hn hxn hx ctx r ctx' h hs

/-- `ω = -1`, `n = 2`, `x = 3`: the polynomials are `(X + 1)/2` and `(1 - X)/2`. -/
example : ∃ r : List ℚ, lagrangeCommits (mock ℚ (0 : ℚ)) (-1 : ℚ) ((2 : ℕ) : ℚ) (3 : ℚ) (3 ^ 2 : ℚ) (1 : ℚ) 1 = some r ∧
    r.length = 1 + 1 ∧ ∀ i ≤ 1, ∀ p : Polynomial ℚ, IsLagrange 2 ((-1 : ℚ)⁻¹ ^ i) p → r[i]? = some (p.eval 3) :=
  C29_lagrange_mock (0 : ℚ) 1 (by omega) (IsPrimitiveRoot.neg_one 0 (by norm_num)) (by
    intro i hi
    interval_cases i <;> norm_num)

/-! ### C30: permutation argument -/

/-- The expressions of the permutation argument are the published constraints on the values queried. -/
theorem C30_expressions (L : Logic c gen) (p : PermEval c.P c.S) (pe : List c.S) {l0 llast lblind delta beta gamma x one : c.S}
    (h1 : L.sv one = 1) (hk : 0 < p.chunkLen) (hlast : ∀ s ∈ p.sets.dropLast, s.last.isSome)
    (hlen : p.sets.length * p.chunkLen ≤ 2 ^ 31) :
    L.Ens (permExpressions c p pe l0 llast lblind delta beta gamma x one) fun r =>
      r.map L.sv = permSpec (L.sv l0) (L.sv llast) (L.sv lblind) (L.sv beta) (L.sv gamma) (L.sv delta) (L.sv x) p.chunkLen
        (p.sets.map L.zvals) (List.zipWith (fun a b => List.zip (a.map L.sv) (b.map L.sv)) (chunks p.chunkLen p.evals) (chunks p.chunkLen pe)) := by
  refine L.mono (L.permExpressions p pe h1 hk hlast hlen) fun r hr => hr.trans ?_
  congr 1
  unfold Logic.chunkCols
  congr 1
  funext a b
  simp only [Logic.cols, List.zip_map]
  rfl

/-- The values of a grand product as the code stores them: the last value is missing for the last one. -/
def mockZ (s : PermSet G F) : ZVals F := ⟨s.eval, s.next, s.last.getD 0⟩

theorem C30_expressions_mock (gen : G) (p : PermEval G F) (pe : List F) (l0 llast lblind delta beta gamma x : F)
    (hk : 0 < p.chunkLen) (hlast : ∀ s ∈ p.sets.dropLast, s.last.isSome) (hlen : p.sets.length * p.chunkLen ≤ 2 ^ 31) :
    permExpressions (mock F gen) p pe l0 llast lblind delta beta gamma x (1 : F) =
      some (permSpec l0 llast lblind beta gamma delta x p.chunkLen (p.sets.map mockZ)
        (List.zipWith List.zip (chunks p.chunkLen p.evals) (chunks p.chunkLen pe))) := by
  obtain ⟨r, h1, h2⟩ := C30_expressions (mockLogic F gen) p pe (l0 := l0) (llast := llast) (lblind := lblind) (delta := delta) (beta := beta)
    (gamma := gamma) (x := x) (one := (1 : F)) rfl hk hlast hlen
  refine h1.trans (congrArg some ?_)
  have h3 : r.map id = _ := h2
  rw [List.map_id] at h3
  rw [h3]
  have e1 : p.sets.map (mockLogic F gen).zvals = p.sets.map mockZ := by
    refine List.map_congr_left fun s _ => ?_
    show (⟨_, _, _⟩ : ZVals F) = ⟨_, _, _⟩
    cases s.last <;> rfl
  have e2 : (fun a b : List F => List.zip (a.map (mockLogic F gen).sv) (b.map (mockLogic F gen).sv)) = List.zip := by
    funext a b
    show List.zip (a.map id) (b.map id) = _
    rw [List.map_id, List.map_id]
  exact congrArg₂ (permSpec l0 llast lblind beta gamma delta x p.chunkLen) e1 (congrArg (fun f => List.zipWith f _ _) e2)

theorem C30_expressions_circuit (p : PermEval APt (AV N)) (pe : List (AV N)) {l0 llast lblind delta beta gamma x one : AV N} {adv : Advice N}
    (h1 : one.val adv = 1) (hk : 0 < p.chunkLen) (hlast : ∀ s ∈ p.sets.dropLast, s.last.isSome)
    (hlen : p.sets.length * p.chunkLen ≤ 2 ^ 31) {ctx ctx' : Ctx N} {r : List (AV N)}
    (h : (permExpressions circuitChip p pe l0 llast lblind delta beta gamma x one).1 ctx = some (r, ctx')) (hs : Sat tables ctx' adv) :
    r.map (fun c => c.val adv) = permSpec (l0.val adv) (llast.val adv) (lblind.val adv) (beta.val adv) (gamma.val adv) (delta.val adv)
      (x.val adv) p.chunkLen (p.sets.map (circuitLogic adv).zvals)
      (List.zipWith (fun a b => List.zip (a.map fun c => c.val adv) (b.map fun c => c.val adv)) (chunks p.chunkLen p.evals)
        (chunks p.chunkLen pe)) :=
  C30_expressions (circuitLogic adv) p pe h1 hk hlast hlen ctx r ctx' h hs

/-- On a whole table, the published constraints vanish on every row exactly if the grand products are as they should be. -/
theorem C30_rows (t : PermTable F) (beta gamma delta : F) (x : ℕ → F) {n : ℕ} (hu : t.u < n) :
    (∀ r < n, ∀ e ∈ t.row beta gamma delta x r, e = 0) ↔
      (0 < t.k → t.z 0 0 = 1) ∧ (0 < t.k → t.z (t.k - 1) t.u = 0 ∨ t.z (t.k - 1) t.u = 1) ∧
      (∀ i, i + 1 < t.k → t.z (i + 1) 0 = t.z i t.u) ∧
      ∀ i < t.k, ∀ r < t.u, t.z i (r + 1) * ((t.cols i r).map fun p => p.1 + beta * p.2 + gamma).prod =
        t.z i r * ((t.cols i r).mapIdx fun j p => p.1 + beta * delta ^ (t.m * i + j) * x r + gamma).prod :=
  (t.vanish_iff beta gamma delta x hu).trans ⟨fun h => ⟨h.first, h.last, h.chain, h.step⟩, fun h => ⟨h.1, h.2.1, h.2.2.1, h.2.2.2⟩⟩

/-- If a cell differs from the cell it is to be copied to, at most `3N|W|` of the `|W|²` pairs of challenges let the constraints vanish. -/
theorem C30_sound {k m u n : ℕ} {cols : ℕ → ℕ → List (F × F)} {delta : F} {x : ℕ → F} (hu : u < n)
    {C : List (Cell F)} (hC : C = PermTable.cells ⟨k, m, u, fun _ _ => 0, cols⟩ delta x)
    (hσ : (C.map Cell.σ).Nodup) {a b : Cell F} (ha : a ∈ C) (hb : b ∈ C) (hab : a.σ = b.own) (hv : a.v ≠ b.v) {W : Finset F}
    {B : Finset (F × F)} (hB : B ⊆ W ×ˢ W)
    (h : ∀ p ∈ B, ∃ z, ∀ r < n, ∀ e ∈ (⟨k, m, u, z, cols⟩ : PermTable F).row p.1 p.2 delta x r, e = 0) : B.card ≤ 3 * C.length * W.card :=
  permutation_sound hC hσ ha hb hab hv hB fun p hp => by
    obtain ⟨z, hz⟩ := h p hp
    exact ⟨z, (PermTable.vanish_iff _ _ _ _ _ hu).1 hz⟩

/-- If the copied cells agree, an honest prover passes, unless the challenges make a denominator vanish. -/
theorem C30_complete (t : PermTable F) {beta gamma delta : F} {x : ℕ → F} {n : ℕ} (hu : t.u < n)
    (h : ((t.cells delta x).map fun c => (c.v, c.own)).Perm ((t.cells delta x).map fun c => (c.v, c.σ)))
    (h0 : ∀ i < t.k, ∀ r < t.u, ∀ p ∈ t.cols i r, p.1 + beta * p.2 + gamma ≠ 0) :
    ∃ z, ∀ r < n, ∀ e ∈ (⟨t.k, t.m, t.u, z, t.cols⟩ : PermTable F).row beta gamma delta x r, e = 0 := by
  obtain ⟨z, hz⟩ := permutation_complete t h h0
  exact ⟨z, (PermTable.vanish_iff ⟨t.k, t.m, t.u, z, t.cols⟩ _ _ _ _ hu).2 hz⟩

/-- Three columns in chunks of two. -/
example : permExpressions (mock ℚ (0 : ℚ)) (⟨"p", 5, 7, [⟨0, 2, 3, some 5⟩, ⟨0, 7, 11, none⟩], [1, 2, 3], 2⟩ : PermEval ℚ ℚ) ([4, 5, 6] : List ℚ)
    (1 : ℚ) (0 : ℚ) (0 : ℚ) (2 : ℚ) (3 : ℚ) (5 : ℚ) (7 : ℚ) (1 : ℚ) =
    some (([-1, 0, 2, 3 * (18 * 22) - 2 * (27 * 49), 11 * 26 - 7 * 92] : List ℚ)) := by
  refine (C30_expressions_mock (0 : ℚ) _ _ _ _ _ _ _ _ _ (by norm_num) (by simp) (by norm_num)).trans (congrArg some ?_)
  simp [permSpec, permStep, mockZ, chunks]
  norm_num

/-- Two equal cells with exchanged labels pass; this table meets the conditions of `C30_complete`. -/
example : ∃ z, ∀ r < 2, ∀ e ∈ (⟨1, 1, 1, z, fun _ _ => [(3, 10), (3, 1)]⟩ : PermTable ℚ).row 1 1 10 (fun _ => 1) r, e = 0 :=
  C30_complete ⟨1, 1, 1, fun _ _ => 0, fun _ _ => [(3, 10), (3, 1)]⟩ (by norm_num) (by
    simpa [PermTable.cells] using List.Perm.swap _ _ []) (by norm_num)

/-- And two different ones meet the conditions of `C30_sound`. -/
example {W : Finset ℚ} {B : Finset (ℚ × ℚ)} (hB : B ⊆ W ×ˢ W)
    (h : ∀ p ∈ B, ∃ z, ∀ r < 2, ∀ e ∈ (⟨1, 1, 1, z, fun _ _ => [(3, 10), (4, 1)]⟩ : PermTable ℚ).row p.1 p.2 10 (fun _ => 1) r, e = 0) :
    B.card ≤ 6 * W.card := by
  have := C30_sound (k := 1) (m := 1) (u := 1) (n := 2) (cols := fun _ _ => [((3 : ℚ), (10 : ℚ)), (4, 1)]) (delta := 10) (x := fun _ => 1) (by norm_num)
    (C := [⟨3, 10, 1⟩, ⟨4, 1, 10⟩]) (by simp [PermTable.cells]) (by simp) (a := ⟨3, 10, 1⟩) (b := ⟨4, 1, 10⟩) (by simp) (by simp) rfl
    (by norm_num) hB h
  simpa using this

/-! ### C31: lookup argument -/

/-- The value of a list of expressions compressed with `θ`, first expression with the highest power. -/
def compressed {S : Type} (sv : S → F) (q : QueryEvals S) (theta : F) (es : List (Expr S)) : F :=
  combine theta (es.map fun e => (e.map sv).value (fun i => (q.fixed[i]?.map sv).getD 0) (fun i => (q.advice[i]?.map sv).getD 0)
    (fun i => (q.instance[i]?.map sv).getD 0) (fun i => (q.challenges[i]?.map sv).getD 0))

theorem C31_expressions (L : Logic c gen) (k : LookupEval c.P c.S) {q : QueryEvals c.S} {l0 llast lblind theta beta gamma zero one : c.S}
    (h1 : L.sv one = 1) (h0 : L.sv zero = 0) (hi : ∀ e ∈ k.input, e.Closed q) (ht : ∀ e ∈ k.table, e.Closed q) :
    L.Ens (lookupExpressions c k q l0 llast lblind theta beta gamma zero one) fun r =>
      r.map L.sv = lookupSpec (L.sv l0) (L.sv llast) (L.sv lblind) (L.sv beta) (L.sv gamma) (L.sv k.productEval) (L.sv k.productNext)
        (L.sv k.inputEval) (L.sv k.inputInv) (L.sv k.tableEval) (compressed L.sv q (L.sv theta) k.input)
        (compressed L.sv q (L.sv theta) k.table) :=
  L.lookupExpressions k h1 h0 hi ht

theorem C31_expressions_mock (gen : G) (k : LookupEval G F) {q : QueryEvals F} (l0 llast lblind theta beta gamma : F)
    (hi : ∀ e ∈ k.input, e.Closed q) (ht : ∀ e ∈ k.table, e.Closed q) :
    lookupExpressions (mock F gen) k q l0 llast lblind theta beta gamma (0 : F) (1 : F) =
      some (lookupSpec l0 llast lblind beta gamma k.productEval k.productNext k.inputEval k.inputInv k.tableEval
        (compressed id q theta k.input) (compressed id q theta k.table)) := by
  obtain ⟨r, h1, h2⟩ := C31_expressions (mockLogic F gen) k (q := q) (l0 := l0) (llast := llast) (lblind := lblind) (theta := theta)
    (beta := beta) (gamma := gamma) (zero := (0 : F)) (one := (1 : F)) rfl rfl hi ht
  have h3 : r.map id = _ := h2
  rw [List.map_id] at h3
  rw [h1, h3]
  rfl

theorem C31_expressions_circuit (k : LookupEval APt (AV N)) {q : QueryEvals (AV N)} {l0 llast lblind theta beta gamma zero one : AV N}
    {adv : Advice N} (h1 : one.val adv = 1) (h0 : zero.val adv = 0) (hi : ∀ e ∈ k.input, e.Closed q) (ht : ∀ e ∈ k.table, e.Closed q)
    {ctx ctx' : Ctx N} {r : List (AV N)}
    (h : (lookupExpressions circuitChip k q l0 llast lblind theta beta gamma zero one).1 ctx = some (r, ctx')) (hs : Sat tables ctx' adv) :
    r.map (fun c => c.val adv) = lookupSpec (l0.val adv) (llast.val adv) (lblind.val adv) (beta.val adv) (gamma.val adv)
      (k.productEval.val adv) (k.productNext.val adv) (k.inputEval.val adv) (k.inputInv.val adv) (k.tableEval.val adv)
      (compressed (fun c => c.val adv) q (theta.val adv) k.input) (compressed (fun c => c.val adv) q (theta.val adv) k.table) :=
  C31_expressions (circuitLogic adv) k h1 h0 hi ht ctx r ctx' h hs

/-- On a whole table the five constraints vanish on every row exactly if the check holds. -/
theorem C31_rows (t : LookupTable F) (beta gamma : F) {n : ℕ} (hu : t.u < n) :
    (∀ r < n, ∀ e ∈ t.row beta gamma n r, e = 0) ↔
      t.z 0 = 1 ∧ (t.z t.u = 0 ∨ t.z t.u = 1) ∧
      (∀ r < t.u, t.z (r + 1) * (t.a' r + beta) * (t.s' r + gamma) = t.z r * (t.a r + beta) * (t.s r + gamma)) ∧
      t.a' 0 = t.s' 0 ∧ ∀ r < t.u, 0 < r → t.a' r = t.s' r ∨ t.a' r = t.a' (r - 1) :=
  (t.vanish_iff beta gamma hu).trans
    ⟨fun h => ⟨h.first, h.last, h.step, h.start, h.sorted⟩, fun h => ⟨h.1, h.2.1, h.2.2.1, h.2.2.2.1, h.2.2.2.2⟩⟩

/-- If some input is not in the table, at most `3u|W|` of the `|W|²` pairs of challenges let the constraints vanish. -/
theorem C31_sound {u n : ℕ} (hu : u < n) {a a' s s' : ℕ → F} (hbad : ∃ r < u, ∀ j < u, a r ≠ s j) {W : Finset F} {B : Finset (F × F)}
    (hB : B ⊆ W ×ˢ W) (h : ∀ p ∈ B, ∃ z, ∀ r < n, ∀ e ∈ (⟨u, z, a', s', a, s⟩ : LookupTable F).row p.1 p.2 n r, e = 0) :
    B.card ≤ 3 * u * W.card :=
  lookup_sound hbad hB fun p hp => by
    obtain ⟨z, hz⟩ := h p hp
    exact ⟨z, (LookupTable.vanish_iff _ _ _ hu).1 hz⟩

/-- If every input is in the table an honest prover passes: the input and the table can be permuted, without knowing the challenges, so
that there is a grand product for all challenges that make no denominator vanish. -/
theorem C31_complete {u n : ℕ} (h1 : 0 < u) (hu : u < n) {a s : ℕ → F} (h : ∀ r < u, ∃ j < u, a r = s j) :
    ∃ a' s' : ℕ → F, ∀ beta gamma : F, (∀ r < u, a r + beta ≠ 0 ∧ s r + gamma ≠ 0) →
      ∃ z, ∀ r < n, ∀ e ∈ (⟨u, z, a', s', a, s⟩ : LookupTable F).row beta gamma n r, e = 0 := by
  obtain ⟨a', s', ha, hs, start, sorted⟩ := permuted_exists h1 h
  refine ⟨a', s', fun beta gamma h0 => ?_⟩
  have hp : ∀ (f g : ℕ → F) (y : F), ((List.range u).map f).Perm ((List.range u).map g) →
      ∏ r ∈ Finset.range u, (f r + y) = ∏ r ∈ Finset.range u, (g r + y) := by
    intro f g y h
    have := (h.map fun v => v + y).prod_eq
    rw [List.map_map, List.map_map, prod_map_range, prod_map_range] at this
    exact this
  have hmem : ∀ (f g : ℕ → F), ((List.range u).map f).Perm ((List.range u).map g) → ∀ r < u, ∃ j < u, g r = f j := by
    intro f g h r hr
    obtain ⟨j, hj, he⟩ := List.mem_map.1 (h.mem_iff.2 (List.mem_map.2 ⟨r, List.mem_range.2 hr, rfl⟩))
    exact ⟨j, List.mem_range.1 hj, he.symm⟩
  refine ⟨_, (LookupTable.vanish_iff _ _ _ hu).2 (LookupTable.complete ⟨u, fun _ => 0, a', s', a, s⟩ (fun r hr => ?_)
    (by dsimp only; rw [Finset.prod_mul_distrib, Finset.prod_mul_distrib, hp _ _ _ ha, hp _ _ _ hs]) start sorted)⟩
  obtain ⟨i, hi, ei⟩ := hmem _ _ ha r hr
  obtain ⟨j, hj, ej⟩ := hmem _ _ hs r hr
  dsimp only
  rw [ei, ej]
  exact mul_ne_zero (h0 i hi).1 (h0 j hj).2

/-- Two input expressions, compressed with `θ = 10`. -/
example : lookupExpressions (mock ℚ (0 : ℚ)) (⟨"l", [.advice 0, .scaled (.advice 1) 2], [.fixed 0, .fixed 1], 0, 0, 0, 2, 3, 5, 7, 11⟩ : LookupEval ℚ ℚ)
    (⟨[1, 2], [3, 4], [], []⟩ : QueryEvals ℚ) (1 : ℚ) (0 : ℚ) (0 : ℚ) (10 : ℚ) (1 : ℚ) (2 : ℚ) (0 : ℚ) (1 : ℚ) =
    some ([-1, 0, 3 * 6 * 13 - 2 * 39 * 14, -6, 12] : List ℚ) := by
  refine (C31_expressions_mock (0 : ℚ) _ _ _ _ _ _ _ (by simp [Expr.Closed]) (by simp [Expr.Closed])).trans (congrArg some ?_)
  simp [lookupSpec, compressed, combine, Expr.value, Expr.map]
  norm_num

/-- Input `2, 2` in the table `1, 2` meets the conditions of `C31_complete`. -/
example : ∃ a' s' : ℕ → ℚ, ∀ beta gamma : ℚ, (∀ r < 2, (fun _ => 2) r + beta ≠ 0 ∧ (fun r : ℕ => (r + 1 : ℚ)) r + gamma ≠ 0) →
    ∃ z, ∀ r < 3, ∀ e ∈ (⟨2, z, a', s', fun _ => 2, fun r => r + 1⟩ : LookupTable ℚ).row beta gamma 3 r, e = 0 :=
  C31_complete (by norm_num) (by norm_num) fun _ _ => ⟨1, by norm_num, by norm_num⟩

/-- And input `3` in the same table those of `C31_sound`. -/
example {W : Finset ℚ} {B : Finset (ℚ × ℚ)} (hB : B ⊆ W ×ˢ W)
    (h : ∀ p ∈ B, ∃ z, ∀ r < 3, ∀ e ∈ (⟨2, z, fun _ => 1, fun r => r + 1, fun _ => 3, fun r => r + 1⟩ : LookupTable ℚ).row p.1 p.2 3 r, e = 0) :
    B.card ≤ 6 * W.card :=
  C31_sound (by norm_num) ⟨0, by norm_num, by intro j hj; interval_cases j <;> norm_num⟩ hB h

/-! ### C32: vanishing argument -/

/-- The expected value is `(Σ y^(k-i) e_i)/(xⁿ - 1)`; the commitment is `Σ (xⁿ)^i h_i`. -/
theorem C32_quotient (L : Logic c gen) {K : String → G} (es : List c.S) (y xn : c.S) (random : c.P) (re : c.S) {hs : List c.P} {Hs : List G}
    {one : c.S} (key : String) (h1 : L.sv one = 1) (hx : L.sv xn ≠ 1) (hne : hs ≠ []) (hhs : List.Forall₂ L.pv hs Hs)
    (hK : ∀ i H, Hs.reverse[i]? = some H → K (hKey key i) = H) :
    L.Ens (VanishEval.new c es y xn random re hs one key) fun r => r.random = random ∧ r.randomEval = re ∧
      r.h.WF L.pv K ∧ L.den K r.h = (∑ i ∈ Finset.range Hs.length, (L.sv xn) ^ i • Hs.getD i 0, 0) ∧
      L.sv r.expectedEval = combine (L.sv y) (es.map L.sv) / (L.sv xn - 1) := by
  have hp : ∀ (t : F) (l : List G), powSum t l = ∑ i ∈ Finset.range l.length, t ^ i • l.getD i 0 := by
    intro t l
    induction l with
    | nil => simp
    | cons a l ih =>
      rw [powSum_cons, ih, List.length_cons, Finset.sum_range_succ', Finset.smul_sum, add_comm]
      simp [pow_succ', mul_smul]
  exact L.mono (L.vanishNew es y xn random re key h1 hx hne hhs hK) fun r hr =>
    ⟨hr.2.1, hr.2.2.1, hr.2.2.2.1, by rw [hr.2.2.2.2.1, hp], hr.2.2.2.2.2⟩

/-- Keys and points such that the conditions of `C32_quotient` hold: two pieces. -/
example : (mockLogic ℚ (0 : ℚ)).Ens (VanishEval.new (mock ℚ (0 : ℚ)) ([3, 4] : List ℚ) (10 : ℚ) (5 : ℚ) (0 : ℚ) (0 : ℚ) ([7, 8] : List ℚ) (1 : ℚ) "v")
    fun r => r.random = (0 : ℚ) ∧ r.randomEval = (0 : ℚ) ∧ r.h.WF (mockLogic ℚ (0 : ℚ)).pv (fun k => if k = "v_h_commitment0" then (8 : ℚ) else 7) ∧
      (mockLogic ℚ (0 : ℚ)).den (fun k => if k = "v_h_commitment0" then (8 : ℚ) else 7) r.h = (47, 0) ∧ r.expectedEval = (34 / 4 : ℚ) := by
  refine (mockLogic ℚ (0 : ℚ)).mono (C32_quotient (mockLogic ℚ (0 : ℚ)) (K := fun k => if k = "v_h_commitment0" then (8 : ℚ) else 7)
    ([3, 4] : List ℚ) (10 : ℚ) (5 : ℚ) (0 : ℚ) (0 : ℚ) (hs := ([7, 8] : List ℚ)) (Hs := [7, 8]) (one := (1 : ℚ)) "v" rfl ?_ ?_ ?_ ?_) ?_
  · show (5 : ℚ) ≠ 1
    norm_num
  · exact List.cons_ne_nil _ _
  · exact .cons rfl (.cons rfl .nil)
  · intro i H h
    match i, h with
    | 0, h => simp at h; rw [← h]; exact if_pos rfl
    | 1, h => simp at h; rw [← h]; exact if_neg (by decide +kernel)
    | i + 2, h => simp at h
  · rintro r ⟨h1, h2, h3, h4, h5⟩
    refine ⟨h1, h2, h3, h4.trans ?_, ?_⟩
    · show ((∑ i ∈ Finset.range 2, (5 : ℚ) ^ i • ([7, 8] : List ℚ).getD i 0 : ℚ), (0 : ℚ)) = _
      norm_num [Finset.sum_range_succ]
    · have h5' : r.expectedEval = combine (10 : ℚ) [3, 4] / ((5 : ℚ) - 1) := h5
      rw [h5']
      show combine (10 : ℚ) [3, 4] / ((5 : ℚ) - 1) = (34 / 4 : ℚ)
      norm_num [combine]

open Polynomial in
/-- If some constraint does not vanish on the domain then, except for fewer values of `y` than there are constraints, a quotient of
degree at most `D` passes at no more than `max (D + n) d` points. -/
theorem C32_sound {n : ℕ} {es : List F[X]} {d D : ℕ} (hd : ∀ e ∈ es, e.natDegree ≤ d) (hbad : ∃ e ∈ es, ¬ (X ^ n - 1 : F[X]) ∣ e)
    (W : Finset F) : ∃ Bad ⊆ W, Bad.card < es.length ∧ ∀ y ∈ W, y ∉ Bad → ∀ h : F[X], h.natDegree ≤ D → ∀ S : Finset F,
      (∀ x ∈ S, x ^ n ≠ 1 ∧ h.eval x = combine y (es.map fun e => e.eval x) / (x ^ n - 1)) → S.card ≤ max (D + n) d := by
  obtain ⟨Bad, h1, h2, h3⟩ := vanish_sound (D := D) hd hbad W
  refine ⟨Bad, h1, h2, fun y hy hb h hD S hS => h3 y hy hb h hD S fun x hx => ?_⟩
  rw [(hS x hx).2, div_mul_cancel₀ _ (sub_ne_zero.2 (hS x hx).1)]

open Polynomial in
/-- If all constraints vanish on the domain, the quotient passes at every point outside it. -/
theorem C32_complete {n : ℕ} {es : List F[X]} (h : ∀ e ∈ es, (X ^ n - 1 : F[X]) ∣ e) (y : F) :
    ∃ q : F[X], ∀ x, x ^ n ≠ 1 → q.eval x = combine y (es.map fun e => e.eval x) / (x ^ n - 1) := by
  obtain ⟨q, hq⟩ := vanish_complete h y
  exact ⟨q, fun x hx => by rw [← hq x, mul_div_cancel_right₀ _ (sub_ne_zero.2 hx)]⟩

open Polynomial in
/-- `X` does not vanish on `{1, -1}`. -/
example : ∃ e ∈ [(X ^ 2 - 1 : ℚ[X]), X], ¬ (X ^ 2 - 1 : ℚ[X]) ∣ e := by
  refine ⟨X, by simp, fun h => ?_⟩
  obtain ⟨q, hq⟩ := h
  have := congrArg (Polynomial.eval 1) hq
  simp at this

/-! ### C33: aggregation -/

/-- The aggregated pair is the combination of the pairs with powers of the challenge, the last proof having coefficient one. -/
theorem C33_aggregate (L : Logic c gen) {K : String → G} (ch : c.S) {ps : List (MultiOpen c)} {xs : List ((G × F) × (G × F))}
    (hps : List.Forall₂ (fun p x => L.Pair (K := K) p x.1 x.2) ps xs) (hall : ∀ p ∈ ps, p.wx.hasCommitment = true)
    (hg : ∀ p ∈ ps, p.wg.Scaled false) (hne : ps ≠ []) (hl : (∀ p ∈ ps, p.wx.Scaled false) ∨ 2 ≤ ps.length) :
    L.Ens (aggregate c ch ps) fun x =>
      L.pv x.1 (powSum (L.sv ch) ((xs.map fun x => x.1.1 + x.1.2 • gen).reverse)) ∧
      L.pv x.2 (powSum (L.sv ch) ((xs.map fun x => x.2.1 - x.2.2 • gen).reverse)) :=
  L.aggregate ch hps hall hg hne hl

/-- If every proof satisfies its identity, so does the aggregate. -/
theorem C33_complete {τ ch : F} {xs : List (G × G)} (h : ∀ x ∈ xs, τ • x.1 = x.2) :
    τ • powSum ch (xs.map Prod.fst).reverse = powSum ch (xs.map Prod.snd).reverse :=
  aggregate_of_all h

/-- If some proof fails its identity, the aggregate passes for fewer challenges than there are proofs. -/
theorem C33_sound {τ : F} {xs : List (G × G)} (hbad : ∃ x ∈ xs, τ • x.1 ≠ x.2) (U : Finset F)
    (h : ∀ ch ∈ U, τ • powSum ch (xs.map Prod.fst).reverse = powSum ch (xs.map Prod.snd).reverse) : U.card < xs.length :=
  aggregate_sound hbad U h

/-- The bound is sharp: two failing proofs that cancel for one challenge. -/
example : (2 : ℚ) • powSum (1 : ℚ) ([((1 : ℚ), (3 : ℚ)), (1, 1)].map Prod.fst).reverse =
    powSum (1 : ℚ) ([((1 : ℚ), (3 : ℚ)), (1, 1)].map Prod.snd).reverse := by
  norm_num [powSum]

/-- No proofs: `unwrap` of nothing. -/
theorem C33_empty_panics (ch : F) : aggregate (mock F gen) ch [] = (none : Option (G × G)) := rfl

end Generic
end Verif.Api
