import Verif.Api.BuildSpec

/-!
# The record a proof stands for

`build_params` returns a record of assigned points and scalars. This file goes from there to a record of group elements and field
elements: the indices are in range (`Valid`), the keys are the ones of `Verif.Api.Keys`, and if every point read from the proof
stands for a group element then the whole record stands for one (`exists_rel`), which belongs to the verifying key (`For`).
-/

namespace Verif.Api

section Spec
variable {F G P S : Type}

/-- The points a proof brings. -/
def Params.points (p : Params P S) : List P :=
  p.adviceCommitments.flatten ++
  (p.lookups.flatten.flatMap fun k => [k.permutedInput, k.permutedTable, k.product]) ++
  (p.perms.flatMap fun q => q.sets.map PermSet.commitment) ++
  p.vanishCommitments ++ [p.randomCommitment] ++ p.w

/-- The constants of the record are those of the key, and the points at which polynomials are opened are `ωʲ x`. -/
structure Params.For [Field F] (vk : VK F G) (v : Params G F) : Prop where
  gates : v.gates = vk.gates
  lookups : ∀ ks ∈ v.lookups, List.Forall₂ (fun a k => k.input = a.1 ∧ k.table = a.2) vk.lookups ks
  fixedCommitments : v.fixedCommitments = vk.fixedCommitments
  permutationCommitments : v.permutationCommitments = vk.permutationCommitments
  delta : v.delta = vk.delta
  omega : v.omega = vk.omega
  n : v.n = vk.n
  xNext : v.xNext = vk.omega * v.x
  xLast : v.xLast = vk.omega⁻¹ ^ v.l * v.x
  xInv : v.xInv = vk.omega⁻¹ * v.x
  xn : v.xn = v.x ^ vk.n

end Spec

/-! ### Maps -/

section Map
variable {P S P' S' : Type} (f : P → P') (g : S → S')

def PermSet.map (s : PermSet P S) : PermSet P' S' := ⟨f s.commitment, g s.eval, g s.next, s.last.map g⟩

def PermEval.map (q : PermEval P S) : PermEval P' S' :=
  ⟨q.key, q.blinding, g q.x, q.sets.map (PermSet.map f g), q.evals.map g, q.chunkLen⟩

def LookupEval.map (k : LookupEval P S) : LookupEval P' S' where
  key := k.key
  input := k.input.map (Expr.map g)
  table := k.table.map (Expr.map g)
  permutedInput := f k.permutedInput
  permutedTable := f k.permutedTable
  product := f k.product
  productEval := g k.productEval
  productNext := g k.productNext
  inputEval := g k.inputEval
  inputInv := g k.inputInv
  tableEval := g k.tableEval

def Params.map (p : Params P S) : Params P' S' where
  key := p.key
  gates := p.gates.map (List.map (Expr.map g))
  l := p.l
  lookups := p.lookups.map (List.map (LookupEval.map f g))
  perms := p.perms.map (PermEval.map f g)
  instanceCommitments := p.instanceCommitments.map (List.map f)
  instanceEvals := p.instanceEvals.map (List.map g)
  instanceQueries := p.instanceQueries
  challenges := p.challenges.map g
  adviceCommitments := p.adviceCommitments.map (List.map f)
  adviceEvals := p.adviceEvals.map (List.map g)
  adviceQueries := p.adviceQueries
  fixedCommitments := p.fixedCommitments.map f
  fixedEvals := p.fixedEvals.map g
  fixedQueries := p.fixedQueries
  permutationCommitments := p.permutationCommitments.map f
  permutationEvals := p.permutationEvals.map g
  vanishCommitments := p.vanishCommitments.map f
  randomCommitment := f p.randomCommitment
  w := p.w.map f
  randomEval := g p.randomEval
  beta := g p.beta
  gamma := g p.gamma
  theta := g p.theta
  delta := g p.delta
  x := g p.x
  xNext := g p.xNext
  xLast := g p.xLast
  xInv := g p.xInv
  xn := g p.xn
  y := g p.y
  u := g p.u
  v := g p.v
  omega := g p.omega
  zero := g p.zero
  one := g p.one
  n := g p.n

theorem Params.evalsOf_map (p : Params P S) (i : ℕ) (k : ColKind) : (p.map f g).evalsOf i k = (p.evalsOf i k).map g := by
  cases k
  · show (p.adviceEvals.map (List.map g)).getD i [] = (p.adviceEvals.getD i []).map g
    rw [List.getD_eq_getElem?_getD, List.getD_eq_getElem?_getD, List.getElem?_map]
    cases p.adviceEvals[i]? <;> rfl
  · rfl
  · show (p.instanceEvals.map (List.map g)).getD i [] = (p.instanceEvals.getD i []).map g
    rw [List.getD_eq_getElem?_getD, List.getD_eq_getElem?_getD, List.getElem?_map]
    cases p.instanceEvals[i]? <;> rfl

theorem Params.Shape.map {F G : Type} {vk : VK F G} {ics : List (List P)} {pre : String} {p : Params P S} (h : p.Shape vk ics pre) :
    (p.map f g).Shape vk (ics.map (List.map f)) pre where
  key := h.key
  l := h.l
  instanceCommitments := congrArg (List.map (List.map f)) h.instanceCommitments
  instanceQueries := h.instanceQueries
  adviceQueries := h.adviceQueries
  fixedQueries := h.fixedQueries
  challenges := by simpa [Params.map] using h.challenges
  adviceCommitments := by simpa [Params.map] using h.adviceCommitments
  instanceEvals := by simpa [Params.map] using h.instanceEvals
  adviceEvals := by simpa [Params.map] using h.adviceEvals
  fixedEvals := by simpa [Params.map] using h.fixedEvals
  permutationEvals := by simpa [Params.map] using h.permutationEvals
  vanish := by simpa [Params.map] using h.vanish
  permsLen := by simpa [Params.map] using h.permsLen
  perms := by
    intro i q hq
    have hq' : (p.perms.map (PermEval.map f g))[i]? = some q := hq
    rw [List.getElem?_map, Option.map_eq_some_iff] at hq'
    obtain ⟨q, h1, rfl⟩ := hq'
    obtain ⟨g1, g2, g3, g4, g5, g6, g7, g8⟩ := h.perms i q h1
    refine ⟨g1, g2, congrArg g g3, g4, by simpa [PermEval.map] using g5, ?_, ?_, ?_⟩
    · show ∀ s ∈ (q.sets.map (PermSet.map f g)).dropLast, s.last.isSome
      rw [← List.map_dropLast]
      intro s hs
      obtain ⟨s, hs', rfl⟩ := List.mem_map.1 hs
      simpa [PermSet.map] using g6 s hs'
    · show ∀ s ∈ (q.sets.map (PermSet.map f g)).getLast?, s.last = none
      rw [List.getLast?_map]
      intro s hs
      obtain ⟨s, hs', rfl⟩ := Option.map_eq_some_iff.1 hs
      simpa [PermSet.map] using g7 s hs'
    · show List.Forall₂ _ vk.permColumns (q.evals.map g)
      rw [List.forall₂_map_right_iff]
      refine g8.imp fun col e ⟨t, ht1, ht2⟩ => ⟨t, ht1, ?_⟩
      rw [evalsOf_map, List.getElem?_map, ht2]
      rfl
  lookupsLen := by simpa [Params.map] using h.lookupsLen
  lookups := by
    intro i ks hks
    have hks' : (p.lookups.map (List.map (LookupEval.map f g)))[i]? = some ks := hks
    rw [List.getElem?_map, Option.map_eq_some_iff] at hks'
    obtain ⟨ks, h1, rfl⟩ := hks'
    obtain ⟨g1, g2⟩ := h.lookups i ks h1
    refine ⟨by simpa using g1, fun j k hk => ?_⟩
    rw [List.getElem?_map, Option.map_eq_some_iff] at hk
    obtain ⟨k, hk, rfl⟩ := hk
    exact g2 j k hk

end Map

/-! ### Keys -/

theorem Params.Shape.keyed {F G P S : Type} {vk : VK F G} {ics : List (List P)} {pre : String} {p : Params P S} (h : p.Shape vk ics pre) :
    p.Keyed where
  perms k q hq := by rw [h.key]; exact (h.perms k q hq).1
  lookups k j q hq := by
    rw [List.getD_eq_getElem?_getD] at hq
    cases hk : p.lookups[k]? with
    | none => rw [hk] at hq; simp at hq
    | some ks =>
      rw [hk] at hq
      rw [h.key]
      exact (h.lookups k ks hk).2 j q hq

/-! ### Indices -/

theorem Expr.Closed.of_length {S T U : Type} {q : QueryEvals T} {q' : QueryEvals U} (h1 : q'.fixed.length = q.fixed.length)
    (h2 : q'.advice.length = q.advice.length) (h3 : q'.instance.length = q.instance.length)
    (h4 : q'.challenges.length = q.challenges.length) : ∀ {e : Expr S}, e.Closed q → e.Closed q'
  | .constant _, _ => trivial
  | .selector _, h => h.elim
  | .fixed i, h => show i < _ from h1 ▸ h
  | .advice i, h => show i < _ from h2 ▸ h
  | .instance i, h => show i < _ from h3 ▸ h
  | .challenge i, h => show i < _ from h4 ▸ h
  | .negated e, h => of_length h1 h2 h3 h4 (e := e) h
  | .sum _ _, h => ⟨of_length h1 h2 h3 h4 h.1, of_length h1 h2 h3 h4 h.2⟩
  | .product _ _, h => ⟨of_length h1 h2 h3 h4 h.1, of_length h1 h2 h3 h4 h.2⟩
  | .scaled e _, h => of_length h1 h2 h3 h4 (e := e) h

variable {F G : Type} {c : Chip F G} [Field F] [AddCommGroup G] [Module F G] {gen : G}

theorem getD_mem {α : Type} {l : List (List α)} {k : ℕ} (h : k < l.length) : l.getD k [] ∈ l := by
  rw [List.getD_eq_getElem?_getD, List.getElem?_eq_getElem h]
  exact List.getElem_mem h

theorem Logic.Values.valid {L : Logic c gen} {vk : VK F G} {ics : List (List c.P)} {pre : String} {p : Params c.P c.S} (hvk : vk.WF)
    (hics : ∀ r ∈ ics, r.length = vk.numInstance) (h : p.Shape vk ics pre) (hv : L.Values vk p) : p.Valid where
  l := by rw [h.l]; omega
  instanceEvals := by rw [h.instanceEvals.1, h.instanceCommitments]
  adviceCommitments := by rw [h.adviceCommitments.1, h.instanceCommitments]
  adviceEvals := by rw [h.adviceEvals.1, h.instanceCommitments]
  perms := by rw [h.permsLen, h.instanceCommitments]
  lookups := by rw [h.lookupsLen, h.instanceCommitments]
  instanceQuery k hk q hq := by
    rw [h.instanceCommitments] at hk ⊢
    rw [hics _ (getD_mem hk)]
    exact hvk.instanceQuery q (h.instanceQueries ▸ hq)
  instanceEval k hk := by
    rw [h.instanceCommitments, ← h.instanceEvals.1] at hk
    rw [h.instanceEvals.2 _ (getD_mem hk), h.instanceQueries]
  adviceQuery k hk q hq := by
    rw [h.instanceCommitments, ← h.adviceCommitments.1] at hk
    rw [h.adviceCommitments.2 _ (getD_mem hk)]
    exact hvk.adviceQuery q (h.adviceQueries ▸ hq)
  adviceEval k hk := by
    rw [h.instanceCommitments, ← h.adviceEvals.1] at hk
    rw [h.adviceEvals.2 _ (getD_mem hk), h.adviceQueries]
  fixedQuery q hq := by
    rw [hv.fixedCommitments.length_eq]
    exact hvk.fixedQuery q (h.fixedQueries ▸ hq)
  fixedEval := by rw [h.fixedEvals, h.fixedQueries]
  gates k hk e he := by
    rw [h.instanceCommitments] at hk
    have h1 : e.map L.sv ∈ vk.gates.flatten := by
      rw [← hv.gates, ← List.map_flatten]
      exact List.mem_map_of_mem he
    refine Expr.Closed.of_length h.fixedEvals ?_ ?_ ?_ ((Expr.closed_map _ L.sv e).1 (hvk.gates _ h1))
    · exact h.adviceEvals.2 _ (getD_mem (h.adviceEvals.1 ▸ hk))
    · exact h.instanceEvals.2 _ (getD_mem (h.instanceEvals.1 ▸ hk))
    · rw [List.length_map]; exact h.challenges
  lookup k hk q hq e he := by
    rw [h.instanceCommitments] at hk
    have h1 := hv.lookups _ (getD_mem (h.lookupsLen ▸ hk))
    obtain ⟨j, hj, rfl⟩ := List.mem_iff_getElem.1 hq
    have hj' : j < vk.lookups.length := h1.length_eq ▸ hj
    have h2 := (List.forall₂_iff_get.1 h1).2 j hj' hj
    have h3 : e.map L.sv ∈ vk.lookups[j].1 ++ vk.lookups[j].2 := by
      have h2' := h2
      simp only [List.get_eq_getElem] at h2'
      rw [← h2'.1, ← h2'.2, ← List.map_append]
      exact List.mem_map_of_mem he
    refine Expr.Closed.of_length h.fixedEvals ?_ ?_ ?_ ((Expr.closed_map _ L.sv e).1 (hvk.lookups _ (List.getElem_mem _) _ h3))
    · exact h.adviceEvals.2 _ (getD_mem (h.adviceEvals.1 ▸ hk))
    · exact h.instanceEvals.2 _ (getD_mem (h.instanceEvals.1 ▸ hk))
    · rw [List.length_map]; exact h.challenges
  perm q hq := by
    obtain ⟨i, hi, rfl⟩ := List.mem_iff_getElem.1 hq
    obtain ⟨g1, g2, g3, g4, g5, g6, g7, g8⟩ := h.perms i _ (List.getElem?_eq_getElem hi)
    refine ⟨by rw [g4]; have := hvk.degree; omega, g6, ?_⟩
    rw [g5, g4]
    exact hvk.permSize
  vanish hn := by
    have := h.vanish
    rw [hn] at this
    have h2 := hvk.quotientDegree
    simp at this
    omega

/-! ### The record of values -/

namespace Logic
variable (L : Logic c gen)

open Classical in
/-- The group element a point stands for, if any. -/
noncomputable def ptOf (p : c.P) : G := if h : ∃ P, L.pv p P then h.choose else 0

theorem pv_ptOf {p : c.P} (h : ∃ P, L.pv p P) : L.pv p (L.ptOf p) := by
  unfold ptOf
  rw [dif_pos h]
  exact h.choose_spec

theorem forall₂_ptOf {l : List c.P} (h : ∀ p ∈ l, ∃ P, L.pv p P) : List.Forall₂ L.pv l (l.map L.ptOf) := by
  induction l with
  | nil => exact .nil
  | cons p l ih => exact .cons (L.pv_ptOf (h p (by simp))) (ih fun q hq => h q (by simp [hq]))

theorem forall₂_map {α β : Type} {R : α → β → Prop} {f : α → β} {l : List α} (h : ∀ a ∈ l, R a (f a)) : List.Forall₂ R l (l.map f) := by
  induction l with
  | nil => exact .nil
  | cons a l ih => exact .cons (h a (by simp)) (ih fun b hb => h b (by simp [hb]))

/-- The record of values: points through `ptOf`, constants from the key. -/
noncomputable def record (vk : VK F G) (Is : List (List G)) (p : Params c.P c.S) : Params G F :=
  { p.map L.ptOf L.sv with
    instanceCommitments := Is
    fixedCommitments := vk.fixedCommitments
    permutationCommitments := vk.permutationCommitments }

variable {L}

theorem record_shape {vk : VK F G} {ics : List (List c.P)} {Is : List (List G)} (hI : List.Forall₂ (List.Forall₂ L.pv) ics Is)
    {pre : String} {p : Params c.P c.S} (h : p.Shape vk ics pre) : (L.record vk Is p).Shape vk Is pre := by
  have h1 := h.map L.ptOf L.sv
  have hl : (ics.map (List.map L.ptOf)).length = Is.length := by rw [List.length_map]; exact hI.length_eq
  exact ⟨h1.key, h1.l, rfl, h1.instanceQueries, h1.adviceQueries, h1.fixedQueries, h1.challenges, hl ▸ h1.adviceCommitments,
    hl ▸ h1.instanceEvals, hl ▸ h1.adviceEvals, h1.fixedEvals, h1.permutationEvals, h1.vanish, hl ▸ h1.permsLen, h1.perms,
    hl ▸ h1.lookupsLen, h1.lookups⟩

theorem record_for {vk : VK F G} {Is : List (List G)} {p : Params c.P c.S} (h : L.Values vk p) : (L.record vk Is p).For vk where
  gates := h.gates
  lookups ks hks := by
    obtain ⟨ks, h1, rfl⟩ := List.mem_map.1 hks
    rw [List.forall₂_map_right_iff]
    exact h.lookups ks h1
  fixedCommitments := rfl
  permutationCommitments := rfl
  delta := h.delta
  omega := L.known_sv h.omega
  n := h.n
  xNext := h.xNext
  xLast := h.xLast
  xInv := h.xInv
  xn := h.xn

theorem record_rel {vk : VK F G} {ics : List (List c.P)} {Is : List (List G)} (hI : List.Forall₂ (List.Forall₂ L.pv) ics Is)
    {pre : String} {p : Params c.P c.S} (h : p.Shape vk ics pre) (hv : L.Values vk p) (hp : ∀ q ∈ p.points, ∃ P, L.pv q P) :
    L.ParamsRel p (L.record vk Is p) where
  key := rfl
  gates := rfl
  l := rfl
  lookups := forall₂_map fun ks hks => forall₂_map fun k hk => by
    have hm : ∀ q ∈ [k.permutedInput, k.permutedTable, k.product], ∃ P, L.pv q P := fun q hq => hp q (by
      unfold Params.points
      simp only [List.mem_append, List.mem_flatMap]
      exact .inl (.inl (.inl (.inl (.inr ⟨k, List.mem_flatten.2 ⟨ks, hks, hk⟩, hq⟩)))))
    exact ⟨rfl, rfl, rfl, L.pv_ptOf (hm _ (by simp)), L.pv_ptOf (hm _ (by simp)), L.pv_ptOf (hm _ (by simp)), rfl, rfl, rfl, rfl, rfl⟩
  perms := forall₂_map fun q hq => by
    refine ⟨rfl, rfl, rfl, forall₂_map fun s hs => ?_, rfl, rfl⟩
    refine ⟨L.pv_ptOf (hp _ ?_), rfl, rfl, rfl⟩
    unfold Params.points
    simp only [List.mem_append, List.mem_flatMap]
    exact .inl (.inl (.inl (.inr ⟨q, hq, List.mem_map_of_mem hs⟩)))
  instanceCommitments := by rw [h.instanceCommitments]; exact hI
  instanceEvals := rfl
  instanceQueries := rfl
  challenges := rfl
  adviceCommitments := forall₂_map fun row hrow => L.forall₂_ptOf fun q hq => hp q (by
    unfold Params.points
    simp only [List.mem_append, List.mem_flatten]
    exact .inl (.inl (.inl (.inl (.inl ⟨row, hrow, hq⟩)))))
  adviceEvals := rfl
  adviceQueries := rfl
  fixedCommitments := hv.fixedCommitments
  fixedEvals := rfl
  fixedQueries := rfl
  permutationCommitments := hv.permutationCommitments
  permutationEvals := rfl
  vanishCommitments := L.forall₂_ptOf fun q hq => hp q (by
    unfold Params.points
    simp only [List.mem_append]
    exact .inl (.inl (.inr hq)))
  randomCommitment := L.pv_ptOf (hp _ (by
    unfold Params.points
    simp))
  w := L.forall₂_ptOf fun q hq => hp q (by
    unfold Params.points
    simp only [List.mem_append]
    exact .inr hq)
  randomEval := rfl
  beta := rfl
  gamma := rfl
  theta := rfl
  delta := rfl
  x := rfl
  xNext := rfl
  xLast := rfl
  xInv := rfl
  xn := rfl
  y := rfl
  u := rfl
  v' := rfl
  omega := by
    show L.known p.omega (L.sv p.omega)
    rw [L.known_sv hv.omega]
    exact hv.omega
  zero := hv.zero
  one := hv.one
  n := rfl

end Logic

/-! ### Facts about the record -/

namespace Params

/-- The challenge is generic as soon as it is not an `n`-th root of unity. -/
theorem For.generic {vk : VK F G} {v : Params G F} (h : v.For vk) (hroot : vk.omega ^ vk.n = 1) (hn : (vk.n : F) ≠ 0) (h0 : 1 ≤ vk.n)
    (hx : v.x ^ vk.n ≠ 1) : v.Generic where
  omega := by
    rw [h.omega]
    rintro ho
    rw [ho, zero_pow (by omega)] at hroot
    exact zero_ne_one hroot
  n := by rw [h.n]; exact hn
  x i _ he := hx (by
    rw [he, h.omega, ← pow_mul, mul_comm, pow_mul, inv_pow, hroot, inv_one, one_pow])
  xn := by rw [h.xn]; exact hx

/-- All claims of one rotation are about the same point, `ωʳ x`. -/
theorem For.claims_point {vk : VK F G} {v : Params G F} (h : v.For vk) {Is : List (List G)} {pre : String} (hs : v.Shape vk Is pre) :
    ∀ q ∈ v.claims, q.z = vk.omega ^ q.rotation * v.x := by
  have h0 : ∀ (C : G) (e : F), ∀ q ∈ [(⟨0, v.x, C, e⟩ : Claim F G)], q.z = vk.omega ^ q.rotation * v.x := by
    intro C e q hq
    rw [List.mem_singleton] at hq
    subst hq
    simp
  have hcol : ∀ (qs : List (ℕ × ℤ)) (cs : List G) (es : List F), ∀ q ∈ v.columnClaims qs cs es, q.z = vk.omega ^ q.rotation * v.x := by
    intro qs cs es q hq
    obtain ⟨i, a, -, rfl⟩ := mem_mapIdx' hq
    simp only [h.omega]
  intro q hq
  unfold claims at hq
  simp only [List.mem_append, List.mem_flatMap, List.mem_cons, List.not_mem_nil, or_false] at hq
  rcases hq with ((⟨i, hi, hq⟩ | hq) | hq) | hq | hq
  · unfold proofClaims at hq
    simp only [List.mem_append, List.mem_flatMap] at hq
    rcases hq with ((hq | hq) | hq) | ⟨k, hk, hq⟩
    · exact hcol _ _ _ _ hq
    · exact hcol _ _ _ _ hq
    · cases hp : v.perms[i]? with
      | none => rw [hp] at hq; simp at hq
      | some p =>
        rw [hp] at hq
        obtain ⟨-, g2, g3, -⟩ := hs.perms i p hp
        have hq : q ∈ p.claims v := hq
        unfold PermEval.claims at hq
        simp only [List.mem_append, List.mem_flatMap, List.mem_map, List.mem_cons, List.not_mem_nil, or_false] at hq
        rcases hq with ⟨s, -, rfl | rfl⟩ | ⟨s, -, rfl⟩
        · simp [g3]
        · simp [h.xNext]
        · show v.xLast = _
          rw [h.xLast, hs.l, g2, zpow_neg, zpow_natCast, inv_pow]
    · unfold LookupEval.claims at hq
      simp only [List.mem_cons, List.not_mem_nil, or_false] at hq
      rcases hq with rfl | rfl | rfl | rfl | rfl
      · simp
      · simp
      · simp
      · simp [h.xInv]
      · simp [h.xNext]
  · exact hcol _ _ _ _ hq
  · obtain ⟨i, hi, rfl⟩ := List.mem_iff_getElem.1 hq
    rw [List.getElem_zipWith]
    simp
  · subst hq
    simp [quotientClaim]
  · subst hq
    simp

end Params
end Verif.Api
