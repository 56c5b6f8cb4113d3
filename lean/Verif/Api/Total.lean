import Verif.Api.Verify

/-!
# The verifier does not get stuck

On the mock chip: if the bytes of the proof decode to as many points and scalars as the key asks for, with one opening proof per
rotation, and the challenge `x` is not in the evaluation domain, then the verifier returns, with the pair the record stands for.
-/

namespace Verif.Api

variable {F G : Type} [Field F] [AddCommGroup G] [Module F G]

/-! ### The mock chip -/

theorem Expr.map_id {S : Type} : ∀ e : Expr S, e.map id = e
  | .constant k => rfl
  | .fixed i => rfl
  | .selector i => rfl
  | .advice i => rfl
  | .instance i => rfl
  | .challenge i => rfl
  | .negated e => by rw [Expr.map, Expr.map_id e]
  | .sum a b => by rw [Expr.map, Expr.map_id a, Expr.map_id b]
  | .product a b => by rw [Expr.map, Expr.map_id a, Expr.map_id b]
  | .scaled e k => by rw [Expr.map, Expr.map_id e]; rfl

theorem list_map_id {α : Type} {f : α → α} (h : ∀ a, f a = a) (l : List α) : l.map f = l := by
  rw [show f = id from funext h, List.map_id]

theorem Params.map_id {P S : Type} (p : Params P S) : p.map id id = p := by
  have hE : ∀ e : Expr S, e.map id = e := Expr.map_id
  have hL : ∀ k : LookupEval P S, k.map id id = k := fun k => by
    cases k
    simp only [LookupEval.map, list_map_id hE, id]
  have hS : ∀ s : PermSet P S, s.map id id = s := fun s => by
    cases s
    simp only [PermSet.map, Option.map_id, id]
  have hQ : ∀ q : PermEval P S, q.map id id = q := fun q => by
    cases q
    simp only [PermEval.map, list_map_id hS, List.map_id, id]
  cases p
  simp only [Params.map, list_map_id hQ, list_map_id (list_map_id hL), list_map_id (list_map_id hE), List.map_id,
    list_map_id (f := List.map id) List.map_id, id]


namespace Mock
variable {gen : G} {T : Transcript (mock F gen)} {d : Codec F G}

theorem ptOf_eq (P : G) : (mockLogic F gen).ptOf P = P := by
  have h : ∃ Q, (mockLogic F gen).pv P Q := ⟨P, rfl⟩
  exact ((mockLogic F gen).pv_ptOf h).symm

theorem record_eq {vk : VK F G} {ics : List (List G)} {pre : String} {p : Params G F} (hs : p.Shape vk ics pre)
    (hv : (mockLogic F gen).Values vk p) : (mockLogic F gen).record vk ics p = p := by
  have h1 : ((mockLogic F gen).ptOf : G → G) = id := funext fun P => ptOf_eq (G := G) (gen := gen) P
  have h2 : ((mockLogic F gen).sv : F → F) = id := rfl
  have h3 : vk.fixedCommitments = p.fixedCommitments := (List.forall₂_eq_eq_eq ▸ hv.fixedCommitments :).symm
  have h4 : vk.permutationCommitments = p.permutationCommitments := (List.forall₂_eq_eq_eq ▸ hv.permutationCommitments :).symm
  have h5 : Params.map (mockLogic F gen).ptOf (mockLogic F gen).sv p = p := by
    have e : ∀ (f : G → G) (g : F → F), f = id → g = id → Params.map f g p = p := by
      rintro _ _ rfl rfl
      exact Params.map_id p
    exact e _ _ h1 h2
  unfold Logic.record
  rw [h5, h3, h4, ← hs.instanceCommitments]

/-- A proof the verifier can deal with, and the record it is read into. -/
structure Accepts (d : Codec F G) (vk : VK F G) (pr : ProofData T) (p : Params G F) (rest : Reader T) : Prop where
  wf : vk.WF
  domain : vk.Domain
  fits : vk.Fits pr.instances
  one : pr.instances.length = 1
  parses : d.Parses (vk.kinds 1 (vk.rotations 1).toFinset.card) pr.reader.bytes
  built : Api.buildParams d vk (pr.instances.map (List.map vk.commit)) pr.key pr.reader = some (p, rest)
  x : p.x ^ vk.n ≠ 1

variable (hT : (mockLogic F gen).Safe T) (hd : 0 < d.pointLen)
include hT hd

/-- The bytes determine a record. -/
theorem exists_params {vk : VK F G} (hwf : vk.WF) (hdom : vk.Domain) {ics : List (List G)} (key : String) {start : Reader T} {m : ℕ}
    (hb : d.Parses (vk.kinds ics.length m) start.bytes) : ∃ (p : Params G F) (rest : Reader T),
      Api.buildParams d vk ics key start = some (p, rest) ∧ p.Shape vk ics key ∧ (mockLogic F gen).Values vk p ∧ p.w.length = m ∧
      ∃ evs : List (Event (mock F gen).P (mock F gen).S), evs = p.layout vk vk.digest ∧ rest.trace = start.trace ++ evs ∧
        (mockLogic F gen).Took d start.bytes start.st evs rest.bytes rest.st := by
  obtain ⟨⟨p, rest⟩, h1, -, evs, t1, t2, g1, g2, g3, s, g4, g5⟩ :=
    (mockLogic F gen).buildParams d hT hd hwf (hdom.omega_ne hwf.n.1) ics key m start [] (.inl (by rw [List.append_nil]; exact hb))
  refine ⟨p, rest, h1, g1, g2, g3.resolve_right fun hP => ?_, evs, ?_, t1, t2⟩
  · obtain ⟨r, hr, -⟩ := hP.panic (α := Unit) fun _ => True
    exact absurd hr (by simp [mock])
  · have g4' : s = vk.digest := g4
    subst g4'
    exact g5

theorem Accepts.facts {vk : VK F G} {pr : ProofData T} {p : Params G F} {rest : Reader T} (h : Accepts d vk pr p rest) :
    p.Shape vk (pr.instances.map (List.map vk.commit)) pr.key ∧ (mockLogic F gen).Values vk p ∧ p.For vk ∧
    p.w.length = (groupsOf Claim.rotation p.claims).length ∧ ∃ evs : List (Event (mock F gen).P (mock F gen).S), evs = p.layout vk vk.digest ∧ rest.trace = pr.reader.trace ++ evs ∧
      (mockLogic F gen).Took d pr.reader.bytes pr.reader.st evs rest.bytes rest.st := by
  have hlen : (pr.instances.map (List.map vk.commit)).length = 1 := by rw [List.length_map, h.one]
  obtain ⟨p', rest', h1, h2, h3, h4, h5⟩ := exists_params hT hd h.wf h.domain (ics := pr.instances.map (List.map vk.commit)) pr.key
    (start := pr.reader) (m := (vk.rotations 1).toFinset.card) (by rw [hlen]; exact h.parses)
  have h0 : some (p', rest') = some (p, rest) := h1.symm.trans h.built
  rw [Option.some.injEq, Prod.mk.injEq] at h0
  obtain ⟨rfl, rfl⟩ := h0
  have hf : p'.For vk := by
    have := Logic.record_for (Is := pr.instances.map (List.map vk.commit)) h3
    rwa [record_eq h2 h3] at this
  exact ⟨h2, h3, hf, by rw [Params.groups_length h2 hf, hlen, h4], h5⟩

theorem Accepts.w_length {vk : VK F G} {pr : ProofData T} {p : Params G F} {rest : Reader T} (h : Accepts d vk pr p rest) :
    p.w.length = (vk.rotations 1).toFinset.card := by
  obtain ⟨g1, -, g3, g4, -⟩ := h.facts hT hd
  rw [g4, Params.groups_length g1 g3, List.length_map, h.one]

theorem openParams_total {vk : VK F G} {pr : ProofData T} {p : Params G F} {rest : Reader T} (h : Accepts d vk pr p rest) :
    ∃ proof, Api.openParams (c := mock F gen) p = some proof ∧ ∀ K : String → G, (∀ e ∈ p.keyTable, K e.1 = e.2) →
      (mockLogic F gen).Opened K proof p := by
  obtain ⟨h1, h2, h3, h4, -⟩ := h.facts hT hd
  have hrow : ∀ r ∈ pr.instances.map (List.map vk.commit), r.length = vk.numInstance := by
    intro r hr
    obtain ⟨i, hi, rfl⟩ := List.mem_map.1 hr
    rw [List.length_map]
    exact (h.fits i hi).1
  have hI : List.Forall₂ (List.Forall₂ (mockLogic F gen).pv) (pr.instances.map (List.map vk.commit))
      (pr.instances.map (List.map vk.commit)) := List.forall₂_same.2 fun _ _ => List.forall₂_same.2 fun _ _ => rfl
  have hR := Logic.record_rel hI h1 h2 fun q _ => ⟨q, rfl⟩
  rw [record_eq h1 h2] at hR
  have hg : p.Generic := h3.generic h.domain.root h.domain.n h.wf.n.1 h.x
  have hone : p.instanceCommitments.length = 1 := by
    rw [h1.instanceCommitments, List.length_map]
    exact h.one
  obtain ⟨K0, hK0⟩ := Params.keys_single h1.keyed hone
  haveI : Nonempty { K : String → G // ∀ e ∈ p.keyTable, K e.1 = e.2 } := ⟨⟨K0, hK0⟩⟩
  obtain ⟨r, hr, ho⟩ := (mockLogic F gen).all (ι := { K : String → G // ∀ e ∈ p.keyTable, K e.1 = e.2 })
    (Q := fun K r => (mockLogic F gen).Opened K.1 r p) fun K => (mockLogic F gen).mono
      (Logic.openParams hR (h2.valid h.wf hrow h1) hg K.2 (.inl h4)) fun r hr => hr.1
  exact ⟨r, hr, fun K hK => ho ⟨K, hK⟩⟩

omit hT hd in
theorem instances_total {vk : VK F G} (hb : vk.gLagrange.length = vk.n) {instances : List (List (List F))} (hf : vk.Fits instances) :
    Api.assignInstanceCommitment (c := mock F gen) vk instances = some (instances.flatten.flatten, instances.map (List.map vk.commit)) := by
  obtain ⟨⟨r1, r2⟩, h1, as, h2, h3, -, h4⟩ := (mockLogic F gen).assignInstanceCommitment hb instances (.inl hf)
  have e1 : as = instances := by
    have : List.Forall₂ (List.Forall₂ (List.Forall₂ (fun a b : F => a = b))) as instances := h3
    rwa [List.forall₂_eq_eq_eq, List.forall₂_eq_eq_eq, List.forall₂_eq_eq_eq] at this
  subst e1
  have e2 : r2 = as.map (List.map vk.commit) := by
    have : List.Forall₂ (List.Forall₂ (fun a b : G => a = b)) r2 (as.map (List.map fun col => vk.commit (col.map id))) := h4
    rw [List.forall₂_eq_eq_eq, List.forall₂_eq_eq_eq] at this
    have e3 : ∀ l : List (List (List F)), l.map (List.map fun col => vk.commit (col.map id)) = l.map (List.map vk.commit) := by simp
    exact this.trans (e3 _)
  rw [h1]
  exact congrArg some (Prod.ext h2 e2)

theorem verifyNoEval_total {vk : VK F G} {pr : ProofData T} {p : Params G F} {rest : Reader T} (h : Accepts d vk pr p rest) :
    ∃ proof, Api.verifyNoEval (c := mock F gen) d vk (pr.instances.map (List.map vk.commit)) pr.key pr.reader =
        some ((proof, p.adviceCommitments.getD 0 []), rest) ∧
      ∀ K : String → G, (∀ e ∈ p.keyTable, K e.1 = e.2) → (mockLogic F gen).Opened K proof p := by
  obtain ⟨proof, h1, h2⟩ := openParams_total hT hd h
  refine ⟨proof, ?_, h2⟩
  have h3 : Api.index (mock F gen) p.adviceCommitments 0 = some (p.adviceCommitments.getD 0 []) := by
    have hl : 0 < p.adviceCommitments.length := by
      rw [(h.facts hT hd).1.adviceCommitments.1, List.length_map, h.one]
      omega
    unfold Api.index
    rw [List.getD_eq_getElem?_getD, List.getElem?_eq_getElem hl]
    rfl
  show Option.bind (Api.buildParams d vk (pr.instances.map (List.map vk.commit)) pr.key pr.reader) _ = _
  rw [h.built]
  show Option.bind (Option.bind (Api.openParams (c := mock F gen) p) _) _ = _
  rw [h1]
  show Option.bind (Option.bind (Api.index (mock F gen) p.adviceCommitments 0) _) _ = _
  rw [h3]
  rfl

theorem verifyProof_total {vk : VK F G} {pr : ProofData T} {p : Params G F} {rest : Reader T} (h : Accepts d vk pr p rest) :
    ∃ proof, Api.verifyProof (c := mock F gen) d vk pr =
        some ⟨pr.instances.flatten.flatten, proof, p.adviceCommitments.getD 0 [], rest⟩ ∧
      ∀ K : String → G, (∀ e ∈ p.keyTable, K e.1 = e.2) → (mockLogic F gen).Opened K proof p := by
  obtain ⟨proof, h1, h2⟩ := verifyNoEval_total hT hd h
  refine ⟨proof, ?_, h2⟩
  show Option.bind (Api.assignInstanceCommitment (c := mock F gen) vk pr.instances) _ = _
  rw [instances_total h.domain.basis h.fits]
  show Option.bind (Api.verifyNoEval (c := mock F gen) d vk (pr.instances.map (List.map vk.commit)) pr.key pr.reader) _ = _
  rw [h1]
  rfl

/-- `verify_single_proof_in_chip` on a proof of the right form returns the pair of the record. -/
theorem verifySingle_total {circuit : CircuitProof T} {pr : ProofData T} (hpr : circuit.proofs[0]? = some pr) {start : Reader T}
    {p : Params G F} {rest : Reader T} (h : Accepts d circuit.vk ⟨pr.instances, start, ""⟩ p rest)
    (h2 : 2 ≤ (circuit.vk.rotations 1).toFinset.card) :
    Api.verifySingle (c := mock F gen) d circuit start =
      some ((p.left, p.right gen, pr.instances.flatten.flatten, p.adviceCommitments.getD 0 []), rest) := by
  obtain ⟨proof, h1, h3⟩ := verifyNoEval_total hT hd h
  obtain ⟨g1, g2, g3, g4, -⟩ := h.facts hT hd
  have hone : p.instanceCommitments.length = 1 := by
    rw [g1.instanceCommitments, List.length_map]
    exact h.one
  obtain ⟨K, hK⟩ := Params.keys_single g1.keyed hone
  have ho := h3 K hK
  have hwl : 2 ≤ p.w.length := by
    rw [h.w_length hT hd]
    exact h2
  obtain ⟨⟨a, b⟩, e1, e2, e3⟩ := (mockLogic F gen).evaluateMultiopen ho.pair (ho.wx hwl) ho.wg
  have e2' : a = p.left := by
    have : a = p.left + (0 : F) • gen := e2
    rwa [zero_smul, add_zero] at this
  have e3' : b = p.right gen := by
    have : b = (Logic.rightPair p.u p.v p.w p.claims).1 - (Logic.rightPair p.u p.v p.w p.claims).2 • gen := e3
    rwa [Logic.rightPair_value] at this
  subst e2' e3'
  show Option.bind (Option.bind (Api.index (mock F gen) circuit.proofs 0) _) _ = _
  have h0 : Api.index (mock F gen) circuit.proofs 0 = some pr := by
    unfold Api.index
    rw [hpr]
    rfl
  rw [h0]
  show Option.bind (Option.bind (Api.assignInstanceCommitment (c := mock F gen) circuit.vk pr.instances) _) _ = _
  rw [instances_total h.domain.basis h.fits]
  show Option.bind (Api.verifyNoEval (c := mock F gen) d circuit.vk (pr.instances.map (List.map circuit.vk.commit)) "" start) _ = _
  rw [h1]
  show Option.bind (Option.bind (Api.evaluateMultiopen (mock F gen) proof) _) _ = _
  rw [e1]
  rfl

/-! ### Several proofs -/

/-- One of the aggregated proofs: key, proof, record, transcript afterwards. -/
structure Item (T : Transcript (mock F gen)) where
  vk : VK F G
  data : ProofData T
  params : Params G F
  rest : Reader T

variable (d) in
omit hT hd in
/-- What the verification of one proof returns. -/
structure Item.Result (x : Item T) (r : Verified T) : Prop where
  accepts : Accepts d x.vk x.data x.params x.rest
  instances : r.instances = x.data.instances.flatten.flatten
  advice : r.advice = x.params.adviceCommitments.getD 0 []
  reader : r.reader = x.rest
  opened : ∀ K : String → G, (∀ e ∈ x.params.keyTable, K e.1 = e.2) → (mockLogic F gen).Opened K r.proof x.params

theorem verifyProofs_total {vk : VK F G} : ∀ {prs : List (ProofData T)}, (∀ pr ∈ prs, ∃ p rest, Accepts d vk pr p rest) →
    (mockLogic F gen).Ens (Api.mapM' (mock F gen) (Api.verifyProof d vk) prs) fun rs => ∃ xs : List (Item T),
      (xs.map fun x => (x.vk, x.data)) = prs.map (fun pr => (vk, pr)) ∧ List.Forall₂ (Item.Result d) xs rs
  | [], _ => ⟨[], rfl, [], rfl, .nil⟩
  | pr :: prs, h => by
    obtain ⟨p, rest, ha⟩ := h pr (by simp)
    obtain ⟨proof, h1, h2⟩ := verifyProof_total hT hd ha
    refine (mockLogic F gen).bind ⟨_, h1, rfl⟩ fun r hr => (mockLogic F gen).bind
      (verifyProofs_total fun pr' h' => h pr' (by simp [h'])) fun rs hrs => ?_
    obtain ⟨xs, h3, h4⟩ := hrs
    subst hr
    exact (mockLogic F gen).pure ⟨⟨vk, pr, p, rest⟩ :: xs, by simp [h3], .cons ⟨ha, rfl, rfl, rfl, h2⟩ h4⟩

theorem verifyCircuits_total : ∀ {circuits : List (CircuitProof T)},
    (∀ ci ∈ circuits, ∀ pr ∈ ci.proofs, ∃ p rest, Accepts d ci.vk pr p rest) →
    (mockLogic F gen).Reads (T := T) d [] (Rd.each (Api.verifyCircuit d) circuits) fun rs _ => ∃ xs : List (Item T),
      (xs.map fun x => (x.vk, x.data)) = Logic.jobs circuits ∧ List.Forall₂ (Item.Result d) xs rs.flatten
  | [], _ => Logic.Reads.ret ⟨[], rfl, .nil⟩
  | ci :: circuits, h => by
    have h1 : (mockLogic F gen).Reads (T := T) d [] (Api.verifyCircuit d ci) fun rs _ => ∃ xs : List (Item T),
        (xs.map fun x => (x.vk, x.data)) = ci.proofs.map (fun pr => (ci.vk, pr)) ∧ List.Forall₂ (Item.Result d) xs rs :=
      Logic.Reads.bind0 (Logic.Reads.lift (verifyProofs_total hT hd (h ci (by simp)))) fun rs e0 h0 =>
        Logic.Reads.bind0 (Logic.bindProofs hT rs) fun _ _ _ => Logic.Reads.ret h0.1
    refine Logic.Reads.bind0 h1 fun rs _ h1 => Logic.Reads.bind0 (verifyCircuits_total fun ci' h' => h ci' (by simp [h'])) fun rss _ h2 => ?_
    obtain ⟨xs, a1, a2⟩ := h1
    obtain ⟨xs', b1, b2⟩ := h2
    exact Logic.Reads.ret ⟨xs ++ xs', by simp [Logic.jobs, a1, b1], by
      rw [List.flatten_cons]
      exact List.rel_append a2 b2⟩

omit hT hd in
theorem Item.results_instances {xs : List (Item T)} {l : List (Verified T)} (h : List.Forall₂ (Item.Result d) xs l) :
    l.flatMap Verified.instances = xs.flatMap fun x => x.data.instances.flatten.flatten := by
  induction h with
  | nil => rfl
  | cons h _ ih => 
    rw [List.flatMap_cons, List.flatMap_cons, ih, h.instances]
    rfl

omit hT hd in
theorem Item.results_advice {xs : List (Item T)} {l : List (Verified T)} (h : List.Forall₂ (Item.Result d) xs l) :
    l.map Verified.advice = xs.map fun x => x.params.adviceCommitments.getD 0 [] := by
  induction h with
  | nil => rfl
  | cons h _ ih => 
    rw [List.map_cons, List.map_cons, ih, h.advice]
    rfl

omit hT hd in
theorem pairs_values (ch : F) (xs : List (Item T)) {e : G × G}
    (h : e.1 = powSum ch ((xs.map fun x => ((x.params.left, (0 : F)),
        Logic.rightPair x.params.u x.params.v x.params.w x.params.claims)).map fun x => x.1.1 + x.1.2 • gen).reverse ∧
      e.2 = powSum ch ((xs.map fun x => ((x.params.left, (0 : F)),
        Logic.rightPair x.params.u x.params.v x.params.w x.params.claims)).map fun x => x.2.1 - x.2.2 • gen).reverse) :
    e = (powSum ch (xs.map fun x => x.params.left).reverse, powSum ch (xs.map fun x => x.params.right gen).reverse) := by
  obtain ⟨e1, e2⟩ := h
  rw [List.map_map] at e1 e2
  refine Prod.ext (e1.trans ?_) (e2.trans ?_)
  · show powSum ch _ = powSum ch _
    congr 2
    refine List.map_congr_left fun x _ => ?_
    show x.params.left + (0 : F) • gen = _
    rw [zero_smul, add_zero]
  · show powSum ch _ = powSum ch _
    congr 2
    exact List.map_congr_left fun x _ => Logic.rightPair_value ..

variable {circuits : List (CircuitProof T)}
  (h : ∀ ci ∈ circuits, ∀ pr ∈ ci.proofs, ∃ p rest, Accepts d ci.vk pr p rest)
  (hkey : ∀ j ∈ Logic.jobs circuits, ∃ n i, j.2.key = proofKey n i) (hkeys : ((Logic.jobs circuits).map fun j => j.2.key).Nodup)
  (hne : Logic.jobs circuits ≠ [])
  (hmany : 2 ≤ (Logic.jobs circuits).length ∨ ∀ j ∈ Logic.jobs circuits, 2 ≤ (j.1.rotations 1).toFinset.card)

include hkey hkeys hne hmany in
theorem aggregate_total {xs : List (Item T)} {rs : List (Verified T)} (h1 : (xs.map fun x => (x.vk, x.data)) = Logic.jobs circuits)
    (h2 : List.Forall₂ (Item.Result d) xs rs) (hacc : ∀ x ∈ xs, Accepts d x.vk x.data x.params x.rest) (ch : F) :
    (mockLogic F gen).Ens (Api.aggregate (mock F gen) ch (rs.map Verified.proof)) fun e =>
      e = (powSum ch (xs.map fun x => x.params.left).reverse, powSum ch (xs.map fun x => x.params.right gen).reverse) := by
  have hmem : ∀ x ∈ xs, (x.vk, x.data) ∈ Logic.jobs circuits := fun x hx => by
    rw [← h1]
    exact List.mem_map_of_mem hx
  have hf := fun x hx => (hacc x hx).facts hT hd
  obtain ⟨K, hK⟩ := Params.keys_many (vs := xs.map Item.params) (by
      intro v hv
      obtain ⟨x, hx, rfl⟩ := List.mem_map.1 hv
      refine ⟨(hf x hx).1.keyed, ?_⟩
      rw [(hf x hx).1.instanceCommitments, List.length_map]
      exact (hacc x hx).one) (by
      intro v hv
      obtain ⟨x, hx, rfl⟩ := List.mem_map.1 hv
      rw [(hf x hx).1.key]
      exact hkey _ (hmem x hx)) (by
      have : (xs.map Item.params).map Params.key = (Logic.jobs circuits).map fun j => j.2.key := by
        rw [← h1, List.map_map, List.map_map]
        exact List.map_congr_left fun x hx => (hf x hx).1.key
      rw [this]
      exact hkeys)
  have ho : List.Forall₂ (fun x (r : Verified T) => (mockLogic F gen).Opened K r.proof x.params) xs rs := by
    rw [List.forall₂_iff_get] at h2 ⊢
    exact ⟨h2.1, fun i a b => (h2.2 i a b).opened K fun e he => hK _ (List.mem_map_of_mem (List.getElem_mem _)) e he⟩
  have hpairs : List.Forall₂ (fun p y => (mockLogic F gen).Pair (K := K) p y.1 y.2) (rs.map Verified.proof)
      (xs.map fun x => ((x.params.left, (0 : F)), Logic.rightPair x.params.u x.params.v x.params.w x.params.claims)) := by
    rw [List.forall₂_map_left_iff, List.forall₂_map_right_iff]
    exact (ho.imp fun _ _ h => h.pair).flip
  have hall : ∀ p ∈ rs.map Verified.proof, ∃ x ∈ xs, (mockLogic F gen).Opened K p x.params := by
    intro p hp
    obtain ⟨r, hr, rfl⟩ := List.mem_map.1 hp
    obtain ⟨i, hi, rfl⟩ := List.mem_iff_getElem.1 hr
    have hi' : i < xs.length := h2.length_eq ▸ hi
    exact ⟨xs[i], List.getElem_mem _, (List.forall₂_iff_get.1 ho).2 i hi' hi⟩
  have hlen : (rs.map Verified.proof).length = (Logic.jobs circuits).length := by
    rw [List.length_map, ← h2.length_eq, ← h1, List.length_map]
  refine (mockLogic F gen).mono ((mockLogic F gen).aggregate ch hpairs ?_ ?_ ?_ ?_) fun e he =>
    pairs_values (F := F) (G := G) (gen := gen) ch xs he
  · intro p hp
    obtain ⟨x, -, hx⟩ := hall p hp
    exact hx.has
  · intro p hp
    obtain ⟨x, -, hx⟩ := hall p hp
    exact hx.wg
  · intro he
    rw [he] at hlen
    exact hne (List.eq_nil_of_length_eq_zero hlen.symm)
  · refine hmany.symm.imp (fun h p hp => ?_) (fun h => hlen ▸ h)
    obtain ⟨x, hx, ho⟩ := hall p hp
    refine ho.wx ?_
    have hw := h (x.vk, x.data) (hmem x hx)
    rw [← (hacc x hx).w_length hT hd] at hw
    exact hw

include h hkey hkeys hne hmany in
/-- `verify_aggregation_proofs_in_chip` on proofs of the right form returns the combination of the pairs of the proofs. -/
theorem verifyAggregation_total (start : Reader T) :
    ∃ (xs : List (Item T)) (ch : F) (rest : Reader T), (xs.map fun x => (x.vk, x.data)) = Logic.jobs circuits ∧
      (∀ x ∈ xs, Accepts d x.vk x.data x.params x.rest) ∧
      Api.verifyAggregation (c := mock F gen) d circuits start = some ((powSum ch (xs.map fun x => x.params.left).reverse,
        powSum ch (xs.map fun x => x.params.right gen).reverse, xs.flatMap (fun x => x.data.instances.flatten.flatten),
        xs.map (fun x => x.params.adviceCommitments.getD 0 [])), rest) := by
  obtain ⟨⟨rs, s1⟩, e1, -, -, -, -, xs, h1, h2⟩ := verifyCircuits_total hT hd h start [] (.inl trivial)
  obtain ⟨⟨ch, s2⟩, e2, -⟩ := Logic.Reads.squeeze (L := mockLogic F gen) (d := d) hT s1 [] (.inl trivial)
  have hacc : ∀ x ∈ xs, Accepts d x.vk x.data x.params x.rest := by
    intro x hx
    obtain ⟨i, hi, rfl⟩ := List.mem_iff_getElem.1 hx
    have hi' : i < rs.flatten.length := h2.length_eq ▸ hi
    have := (List.forall₂_iff_get.1 h2).2 i hi hi'
    exact this.accepts
  obtain ⟨e, e3, e4⟩ := aggregate_total hT hd hkey hkeys hne hmany h1 h2 hacc ch
  refine ⟨xs, ch, s2, h1, hacc, ?_⟩
  have i1 := Item.results_instances h2
  have i2 := Item.results_advice h2
  show Option.bind (Rd.each (Api.verifyCircuit d) circuits start) _ = _
  rw [e1]
  show Option.bind (Rd.squeeze s1) _ = _
  rw [e2]
  show Option.bind (Option.bind (Api.aggregate (mock F gen) ch (rs.flatten.map Verified.proof)) _) _ = _
  rw [e3]
  show some ((e.1, e.2, rs.flatten.flatMap Verified.instances, rs.flatten.map Verified.advice), s2) = _
  rw [e4]
  have i3 : (rs.flatten.flatMap Verified.instances, rs.flatten.map Verified.advice) =
      (xs.flatMap (fun x => x.data.instances.flatten.flatten), xs.map fun x => x.params.adviceCommitments.getD 0 []) := Prod.ext i1 i2
  rw [i3]
  rfl

end Mock

end Verif.Api
