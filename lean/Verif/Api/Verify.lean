import Verif.Api.Rotations

/-!
# Verifying a proof and aggregating proofs

The entry points of `halo2-snark-aggregator-api/src/systems/halo2/verify.rs`.
-/

namespace Verif.Api

/-! ### Model -/

section Model
variable {F G : Type} [Field F] [AddCommGroup G] {c : Chip F G} {T : Transcript c}

open Rd

/-- verify.rs lines 601-615: the scalars of one instance column. `params.n() as usize - (blinding_factors + 1)` panics when it
underflows. -/
def assignColumn (vk : VK F G) (column : List F) : c.m (List c.S) :=
  if column.length + (vk.blinding + 1) ≤ vk.n then mapM' c c.assignVar column else c.panic

/-- verify.rs lines 628-638, from index `i` on. -/
def columnAcc (vk : VK F G) : ℕ → List c.S → Option c.P → c.m (Option c.P)
  | _, [], acc => return acc
  | i, s :: l, acc => do
    let g ← index c vk.gLagrange i
    let ls ← c.scalarMulConstant s g
    match acc with
    | none => columnAcc vk (i + 1) l (some ls)
    | some a => do
      let a ← c.pAdd a ls
      columnAcc vk (i + 1) l (some a)

/-- verify.rs lines 624-645. -/
def columnCommitment (vk : VK F G) (column : List c.S) : c.m c.P := do
  match ← columnAcc vk 0 column none with
  | none => c.pAssignConst 0
  | some acc => c.normalize acc

/-- verify.rs lines 574-649. -/
def assignInstanceCommitment (vk : VK F G) (instances : List (List (List F))) : c.m (List c.S × List (List c.P)) :=
  if instances.all fun i => i.length = vk.numInstance then do
    let as ← mapM' c (mapM' c (assignColumn vk)) instances
    let cs ← mapM' c (mapM' c (columnCommitment vk)) as
    return (as.flatten.flatten, cs)
  else c.panic

/-- `batch_multi_open_proofs`, multiopen.rs lines 71-102. -/
noncomputable def openParams (p : Params c.P c.S) : c.m (MultiOpen c) := do
  let qs ← queries c p
  batchMultiOpen c p.key p.u p.v p.w qs

/-- verify.rs lines 651-688. -/
noncomputable def verifyNoEval (d : Codec F G) (vk : VK F G) (ics : List (List c.P)) (key : String) : Rd T (MultiOpen c × List c.P) := do
  let p ← buildParams d vk ics key
  let r ← lift (openParams p)
  let a ← lift (index c p.adviceCommitments 0)
  return (r, a)

/-- verify.rs lines 747-761; the transcript of the proof is its reader. -/
structure ProofData (T : Transcript c) where
  instances : List (List (List F))
  reader : Reader T
  key : String

/-- verify.rs lines 763-777; `vk` stands for `vk` and `params`. `name` is only printed. -/
structure CircuitProof (T : Transcript c) where
  vk : VK F G
  proofs : List (ProofData T)

/-- verify.rs lines 779-833: `(w_x, w_g, instances, advice commitments)`. -/
noncomputable def verifySingle (d : Codec F G) (circuit : CircuitProof T) : Rd T (c.P × c.P × List c.S × List c.P) := do
  let pr ← lift (index c circuit.proofs 0)
  let i ← lift (assignInstanceCommitment circuit.vk pr.instances)
  let r ← verifyNoEval d circuit.vk i.2 ""
  let e ← lift (evaluateMultiopen c r.1)
  return (e.1, e.2, i.1, r.2)

/-- What the aggregation keeps of one proof. -/
structure Verified (T : Transcript c) where
  instances : List c.S
  proof : MultiOpen c
  advice : List c.P
  reader : Reader T

/-- verify.rs lines 866-904: one proof, with its own transcript. -/
noncomputable def verifyProof (d : Codec F G) (vk : VK F G) (pr : ProofData T) : c.m (Verified T) := do
  let i ← assignInstanceCommitment vk pr.instances
  let r ← verifyNoEval d vk i.2 pr.key pr.reader
  return ⟨i.1, r.1.1, r.1.2, r.2⟩

/-- verify.rs lines 907-910: squeeze from the transcript of the proof, absorb into the main transcript. -/
def bindProof (r : Verified T) : Rd T Unit := do
  let k ← lift (squeeze r.reader)
  commonScalar k.1

/-- verify.rs lines 862-914: one circuit. The first failing proof fails the whole call in the end, whatever happens in between. -/
noncomputable def verifyCircuit (d : Codec F G) (circuit : CircuitProof T) : Rd T (List (Verified T)) := do
  let rs ← lift (mapM' c (verifyProof d circuit.vk) circuit.proofs)
  let _ ← each bindProof rs
  return rs

/-- verify.rs lines 835-942. `circuits[0].params` is only used for the pairing that is printed. -/
noncomputable def verifyAggregation (d : Codec F G) (circuits : List (CircuitProof T)) :
    Rd T (c.P × c.P × List c.S × List (List c.P)) := do
  let rs ← each (verifyCircuit d) circuits
  let ch ← squeeze
  let e ← lift (aggregate c ch (rs.flatten.map Verified.proof))
  return (e.1, e.2, rs.flatten.flatMap Verified.instances, rs.flatten.map Verified.advice)

end Model

/-! ### Specification -/

section Spec
variable {F G : Type} [Field F] [AddCommGroup G] [Module F G]

/-- The commitment to an instance column: `Σ aᵢ Lᵢ` over the Lagrange basis of the parameters. -/
def VK.commit (vk : VK F G) (column : List F) : G := dot column vk.gLagrange

/-- The instances have as many columns as the key says, and the columns fit. -/
def VK.Fits (vk : VK F G) (instances : List (List (List F))) : Prop :=
  ∀ i ∈ instances, i.length = vk.numInstance ∧ ∀ col ∈ i, col.length + (vk.blinding + 1) ≤ vk.n

/-- The evaluation domain: `ω` is an `n`-th root of unity, `n` is invertible, and the parameters have `n` basis points. -/
structure VK.Domain (vk : VK F G) : Prop where
  root : vk.omega ^ vk.n = 1
  n : (vk.n : F) ≠ 0
  basis : vk.gLagrange.length = vk.n

/-- The pair `(l, r)` the proof is reduced to: the proof opens if `τ l = r` for the secret `τ` of the setup. -/
def Params.left (v : Params G F) : G := leftSum v.u v.w
def Params.right (gen : G) (v : Params G F) : G := rightSum gen v.u v.v v.w v.claims

end Spec

/-! ### Proofs -/

variable {F G : Type} {c : Chip F G} [Field F] [AddCommGroup G] [Module F G] {gen : G}

theorem VK.Domain.omega_ne {vk : VK F G} (h : vk.Domain) (hn : 1 ≤ vk.n) : vk.omega ≠ 0 := fun ho => by
  have := h.root
  rw [ho, zero_pow (by omega)] at this
  exact zero_ne_one this

namespace Logic
variable (L : Logic c gen) {T : Transcript c}

theorem assignColumn {vk : VK F G} (column : List F) (h : column.length + (vk.blinding + 1) ≤ vk.n ∨ L.Partial) :
    L.Ens (Api.assignColumn vk column) fun r => List.Forall₂ L.wit r column ∧ r.length + (vk.blinding + 1) ≤ vk.n := by
  unfold Api.assignColumn
  split
  · next hl =>
    refine L.mono (L.mapM' (P := fun k s => L.wit s k) fun k _ => L.assignVar k) fun r hr => ⟨hr.flip, ?_⟩
    rw [← hr.length_eq]
    exact hl
  · next hl => exact (h.resolve_left hl).panic _

theorem dot_cons (s : F) (ss : List F) (P : G) (Ps : List G) : dot (s :: ss) (P :: Ps) = s • P + dot ss Ps := by
  simp [dot]

theorem columnAcc (vk : VK F G) : ∀ (l : List c.S) (i : ℕ) (acc : Option c.P), i + l.length ≤ vk.gLagrange.length →
    ∀ A : Option G, (acc = none ∧ A = none ∨ ∃ a P, acc = some a ∧ A = some P ∧ L.pv a P) →
    L.Ens (Api.columnAcc vk i l acc) fun r => (l = [] ∧ r = acc) ∨
      ∃ a, r = some a ∧ L.pv a (A.getD 0 + dot (l.map L.sv) (vk.gLagrange.drop i))
  | [], i, acc, _, A, h => L.pure (.inl ⟨rfl, rfl⟩)
  | s :: l, i, acc, hl, A, h => by
    rw [List.length_cons] at hl
    have hi : i < vk.gLagrange.length := by omega
    refine L.bind (L.index hi) fun g hg => L.bind (L.scalarMulConstant s g) fun ls hls => ?_
    have hdot : dot ((s :: l).map L.sv) (vk.gLagrange.drop i) = L.sv s • g + dot (l.map L.sv) (vk.gLagrange.drop (i + 1)) := by
      rw [List.drop_eq_getElem_cons hi, List.map_cons, dot_cons, hg]
    rw [hdot]
    have fin : ∀ (a : c.P) (P : G), L.pv a P → A.getD 0 + L.sv s • g = P → L.Ens (Api.columnAcc vk (i + 1) l (some a)) fun r =>
        (s :: l = [] ∧ r = acc) ∨ ∃ a, r = some a ∧ L.pv a (A.getD 0 + (L.sv s • g + dot (l.map L.sv) (vk.gLagrange.drop (i + 1)))) := by
      intro a P ha hP
      refine L.mono (columnAcc vk l (i + 1) (some a) (by omega) (some P) (.inr ⟨a, P, rfl, rfl, ha⟩)) fun r hr => .inr ?_
      rw [← add_assoc, hP]
      rcases hr with ⟨rfl, rfl⟩ | ⟨b, rfl, hb⟩
      · exact ⟨a, rfl, by simpa [dot] using ha⟩
      · exact ⟨b, rfl, hb⟩
    rcases h with ⟨rfl, rfl⟩ | ⟨a, P, rfl, rfl, ha⟩
    · exact fin ls _ hls (by simp)
    · exact L.bind (L.pAdd ha hls) fun a' ha' => fin a' _ ha' rfl

theorem columnCommitment (vk : VK F G) (l : List c.S) (hl : l.length ≤ vk.gLagrange.length) :
    L.Ens (Api.columnCommitment vk l) fun r => L.pv r (vk.commit (l.map L.sv)) := by
  refine L.bind (L.columnAcc vk l 0 none (by omega) none (.inl ⟨rfl, rfl⟩)) fun r hr => ?_
  rcases hr with ⟨rfl, rfl⟩ | ⟨a, rfl, ha⟩
  · refine L.mono (L.pAssignConst 0) fun r hr => ?_
    simpa [VK.commit, dot] using hr
  · rw [List.drop_zero, Option.getD_none, zero_add] at ha
    exact L.normalize ha

/-- `assign_instance_commitment`: the returned scalars are the instances in order, the points commit to the columns. -/
theorem assignInstanceCommitment {vk : VK F G} (hb : vk.gLagrange.length = vk.n) (instances : List (List (List F)))
    (h : vk.Fits instances ∨ L.Partial) :
    L.Ens (Api.assignInstanceCommitment vk instances) fun r => ∃ as : List (List (List c.S)), r.1 = as.flatten.flatten ∧
      List.Forall₂ (List.Forall₂ (List.Forall₂ L.wit)) as instances ∧ (∀ row ∈ r.2, row.length = vk.numInstance) ∧
      List.Forall₂ (List.Forall₂ L.pv) r.2 (as.map (List.map fun col => vk.commit (col.map L.sv))) := by
  unfold Api.assignInstanceCommitment
  split
  · next hall =>
    have hall : ∀ i ∈ instances, i.length = vk.numInstance := by simpa using hall
    have h1 : L.Ens (Api.mapM' c (Api.mapM' c (Api.assignColumn vk)) instances) fun as => List.Forall₂ (fun i a =>
        List.Forall₂ (fun col b => List.Forall₂ L.wit b col ∧ b.length + (vk.blinding + 1) ≤ vk.n) i a) instances as :=
      L.mapM' fun i hi => L.mapM' fun col hcol => L.assignColumn col (h.imp (fun h => (h i hi).2 col hcol) id)
    refine L.bind h1 fun as has => ?_
    have has1 : List.Forall₂ (List.Forall₂ (List.Forall₂ L.wit)) as instances :=
      (has.imp fun _ _ h => (h.imp fun _ _ h => h.1).flip).flip
    have has2 : ∀ a ∈ as, a.length = vk.numInstance ∧ ∀ b ∈ a, b.length ≤ vk.gLagrange.length := by
      intro a ha
      obtain ⟨j, hj, rfl⟩ := List.mem_iff_getElem.1 ha
      have hj' : j < instances.length := has.length_eq ▸ hj
      have h2 := (List.forall₂_iff_get.1 has).2 j hj' hj
      simp only [List.get_eq_getElem] at h2
      refine ⟨by rw [← h2.length_eq, hall _ (List.getElem_mem _)], fun b hb' => ?_⟩
      obtain ⟨k, hk, rfl⟩ := List.mem_iff_getElem.1 hb'
      have hk' : k < instances[j].length := h2.length_eq ▸ hk
      have h3 := (List.forall₂_iff_get.1 h2).2 k hk' hk
      simp only [List.get_eq_getElem] at h3
      omega
    have h2 : L.Ens (Api.mapM' c (Api.mapM' c (Api.columnCommitment vk)) as) fun cs => List.Forall₂ (fun a r =>
        List.Forall₂ (fun b C => L.pv C (vk.commit (b.map L.sv))) a r) as cs :=
      L.mapM' fun a ha => L.mapM' fun b hb' => L.columnCommitment vk b ((has2 a ha).2 b hb')
    refine L.bind h2 fun cs hcs => L.pure ⟨as, rfl, has1, ?_, ?_⟩
    · intro row hrow
      obtain ⟨j, hj, rfl⟩ := List.mem_iff_getElem.1 hrow
      have hj' : j < as.length := hcs.length_eq ▸ hj
      have h3 := (List.forall₂_iff_get.1 hcs).2 j hj' hj
      simp only [List.get_eq_getElem] at h3
      rw [← h3.length_eq]
      exact (has2 _ (List.getElem_mem _)).1
    · rw [List.forall₂_map_right_iff]
      refine (hcs.imp fun a r h => ?_).flip
      show List.Forall₂ L.pv r (a.map _)
      rw [List.forall₂_map_right_iff]
      exact h.flip
  · next hall =>
    refine (h.resolve_left fun h => hall ?_).panic _
    simpa using fun i hi => (h i hi).1

/-! ### One proof -/

variable {K : String → G}

/-- The two schemas stand for the pair the record is reduced to. -/
structure Opened (K : String → G) (r : MultiOpen c) (v : Params G F) : Prop where
  pair : L.Pair (K := K) r (v.left, 0) (rightPair v.u v.v v.w v.claims)
  wg : r.wg.Scaled false
  wx : 2 ≤ v.w.length → r.wx.Scaled false
  has : r.wx.hasCommitment = true
  count : v.w.length = (groupsOf Claim.rotation v.claims).length

variable {L}

theorem openParams {p : Params c.P c.S} {v : Params G F} (R : L.ParamsRel p v) (hv : p.Valid) (hg : v.Generic)
    (hK : ∀ e ∈ v.keyTable, K e.1 = e.2) (hlen : v.w.length = (groupsOf Claim.rotation v.claims).length ∨ L.Partial) :
    L.Ens (Api.openParams p) fun r => L.Opened K r v ∧ v.w.length = (groupsOf Claim.rotation v.claims).length := by
  refine L.bind (L.queries R hv hg hK) fun qs hqs => ?_
  have hw := R.w.length_eq
  by_cases hl : v.w.length = (groupsOf Claim.rotation v.claims).length
  · have hne : p.w ≠ [] := by
      intro he
      rw [he, List.length_nil] at hw
      rw [← hw] at hl
      have hc : v.claims ≠ [] := by simp [Params.claims]
      obtain ⟨q, qs', hq⟩ := List.exists_cons_of_ne_nil hc
      rw [hq, groupsOf_cons] at hl
      simp at hl
    refine L.mono (L.batchMultiOpen (K := K) p.key p.u p.v hqs.1 R.w hne (by rw [hqs.2, hw, hl]) fun j W hj => ?_) fun r hr => ?_
    · refine hK (wKey p.key j, W) ?_
      unfold Params.keyTable
      rw [List.mem_append]
      right
      rw [List.mem_mapIdx]
      obtain ⟨hj', rfl⟩ := List.getElem?_eq_some_iff.1 hj
      exact ⟨j, hj', by rw [R.key]⟩
    · refine ⟨⟨?_, hr.2.1, fun h => hr.2.2.1 (hw ▸ h), hr.2.2.2, hl⟩, hl⟩
      rw [hqs.2] at hr
      rw [Params.left, R.u, R.v']
      exact hr.1
  · have hP := hlen.resolve_left hl
    refine L.bind (Q := fun _ => False) ?_ fun _ h => h.elim
    unfold Api.getPointSchemas
    rw [if_neg]
    · exact hP.panic _
    · rw [groupQueries_eq, filterMap_toGroup_length (groupsOf_ne_nil _ _ _ le_rfl), hw]
      have h1 : (groupsOf Claim.rotation v.claims).length = (groupsOf EvalQuery.rotation qs).length := by
        rw [← hqs.2, groupsOf_map (L.claim K) Claim.rotation qs.length qs le_rfl, List.length_map]
        rfl
      rw [← h1]
      exact hl


variable (L) in
/-- What has to hold of a record for the verification to mean anything: the points read from the proof are points, and the challenge
`x` is not in the evaluation domain. -/
structure Usable (vk : VK F G) (p : Params c.P c.S) : Prop where
  points : ∀ q ∈ p.points, ∃ P, L.pv q P
  x : L.sv p.x ^ vk.n ≠ 1

theorem Usable.generic {vk : VK F G} (hvk : vk.WF) (hdom : vk.Domain) {p : Params c.P c.S} (hv : L.Values vk p) (hu : L.Usable vk p)
    (Is : List (List G)) : (L.record vk Is p).Generic :=
  (record_for (Is := Is) hv).generic hdom.root hdom.n hvk.n.1 hu.x

theorem openParams_partial (hP : L.Partial) {vk : VK F G} (hvk : vk.WF) (hdom : vk.Domain) {ics : List (List c.P)} {Is : List (List G)}
    (hI : List.Forall₂ (List.Forall₂ L.pv) ics Is) (hrow : ∀ r ∈ ics, r.length = vk.numInstance) {key : String} {p : Params c.P c.S}
    (hs : p.Shape vk ics key) (hv : L.Values vk p) :
    L.Ens (Api.openParams p) fun r => L.Usable vk p → ∀ K : String → G, (∀ e ∈ (L.record vk Is p).keyTable, K e.1 = e.2) →
      L.Opened K r (L.record vk Is p) := by
  by_cases hu : L.Usable vk p
  · by_cases hn : ∃ K : String → G, ∀ e ∈ (L.record vk Is p).keyTable, K e.1 = e.2
    · haveI : Nonempty { K : String → G // ∀ e ∈ (L.record vk Is p).keyTable, K e.1 = e.2 } := ⟨⟨hn.choose, hn.choose_spec⟩⟩
      refine L.mono (L.all (ι := { K : String → G // ∀ e ∈ (L.record vk Is p).keyTable, K e.1 = e.2 })
        (Q := fun K r => L.Opened K.1 r (L.record vk Is p)) fun K => ?_) fun r hr _ K hK => hr ⟨K, hK⟩
      exact L.mono (openParams (record_rel hI hs hv hu.points) (hv.valid hvk hrow hs) (hu.generic hvk hdom hv Is) K.2 (.inr hP))
        fun r hr => hr.1
    · exact L.mono (hP.triv _) fun r _ _ K hK => absurd ⟨K, hK⟩ hn
  · exact L.mono (hP.triv _) fun r _ h => absurd h hu

variable {d : Codec F G}

/-- `verify_single_proof_no_eval`. -/
theorem verifyNoEval (hP : L.Partial) (hT : L.Safe T) (hd : 0 < d.pointLen) {vk : VK F G} (hvk : vk.WF) (hdom : vk.Domain)
    {ics : List (List c.P)} {Is : List (List G)} (hI : List.Forall₂ (List.Forall₂ L.pv) ics Is)
    (hrow : ∀ r ∈ ics, r.length = vk.numInstance) (key : String) (m : ℕ) :
    L.Reads (T := T) d (vk.kinds ics.length m) (Api.verifyNoEval d vk ics key) fun r evs => ∃ p : Params c.P c.S,
      p.Shape vk ics key ∧ L.Values vk p ∧ (∃ s, L.known s vk.digest ∧ evs = p.layout vk s) ∧ p.adviceCommitments[0]? = some r.2 ∧
      (L.Usable vk p → ∀ K : String → G, (∀ e ∈ (L.record vk Is p).keyTable, K e.1 = e.2) → L.Opened K r.1 (L.record vk Is p)) := by
  refine Reads.bind0 (L.buildParams d hT hd hvk (hdom.omega_ne hvk.n.1) ics key m) fun p evs hp => ?_
  obtain ⟨hs, hv, -, s, hs1, hs2⟩ := hp
  refine Reads.bind0' (Reads.lift (openParams_partial hP hvk hdom hI hrow hs hv)) fun r e1 hr => ?_
  refine Reads.bind0' (Reads.lift (x := Api.index c p.adviceCommitments 0) (post := fun a => p.adviceCommitments[0]? = some a) ?_)
    fun a e2 ha => Reads.ret ⟨p, hs, hv, ⟨s, hs1, ?_⟩, ha.1, hr.1⟩
  · by_cases h0 : 0 < p.adviceCommitments.length
    · exact L.mono (L.index h0) fun a ha => by rw [ha, List.getElem?_eq_getElem h0]
    · unfold Api.index
      rw [List.getElem?_eq_none (by omega)]
      exact hP.panic _
  · rw [hs2, hr.2, ha.2, List.append_nil, List.append_nil, List.append_nil]

variable (L d) in
/-- What is known of the verification of one proof: the instance scalars `as`, the record `p` and the outcome. -/
structure Run (vk : VK F G) (instances : List (List (List F))) (key : String) (start : Reader T) (as : List (List (List c.S)))
    (p : Params c.P c.S) (r : Verified T) : Prop where
  /-- The instances are assigned as given, and handed out in order. -/
  assigned : List.Forall₂ (List.Forall₂ (List.Forall₂ L.wit)) as instances
  instances : r.instances = as.flatten.flatten
  /-- Their commitments are absorbed and used. -/
  commitments : List.Forall₂ (List.Forall₂ L.pv) p.instanceCommitments (as.map (List.map fun col => vk.commit (col.map L.sv)))
  shape : p.Shape vk p.instanceCommitments key
  values : L.Values vk p
  /-- The transcript went through the verifier's layout, with the values taken from the proof bytes. -/
  trace : ∃ s evs, L.known s vk.digest ∧ evs = p.layout vk s ∧ r.reader.trace = start.trace ++ evs ∧
    L.Took d start.bytes start.st evs r.reader.bytes r.reader.st
  advice : p.adviceCommitments[0]? = some r.advice
  opened : L.Usable vk p → ∀ K : String → G,
    (∀ e ∈ (L.record vk (as.map (List.map fun col => vk.commit (col.map L.sv))) p).keyTable, K e.1 = e.2) →
    L.Opened K r.proof (L.record vk (as.map (List.map fun col => vk.commit (col.map L.sv))) p)

theorem Run.of {vk : VK F G} {instances : List (List (List F))} {key : String} {start : Reader T} {as : List (List (List c.S))}
    {ics : List (List c.P)} {p : Params c.P c.S} {ss : List c.S} {proof : MultiOpen c} {a : List c.P} {reader : Reader T}
    {evs : List (Event c.P c.S)}
    (h1 : ss = as.flatten.flatten) (h2 : List.Forall₂ (List.Forall₂ (List.Forall₂ L.wit)) as instances)
    (h4 : List.Forall₂ (List.Forall₂ L.pv) ics (as.map (List.map fun col => vk.commit (col.map L.sv))))
    (t1 : reader.trace = start.trace ++ evs) (t2 : L.Took d start.bytes start.st evs reader.bytes reader.st)
    (h : p.Shape vk ics key ∧ L.Values vk p ∧ (∃ s, L.known s vk.digest ∧ evs = p.layout vk s) ∧ p.adviceCommitments[0]? = some a ∧
      (L.Usable vk p → ∀ K : String → G, (∀ e ∈ (L.record vk (as.map (List.map fun col => vk.commit (col.map L.sv))) p).keyTable,
        K e.1 = e.2) → L.Opened K proof (L.record vk (as.map (List.map fun col => vk.commit (col.map L.sv))) p))) :
    L.Run d vk instances key start as p ⟨ss, proof, a, reader⟩ := by
  obtain ⟨g1, g2, ⟨s, g3, g4⟩, g5, g6⟩ := h
  have hic := g1.instanceCommitments
  constructor
  · exact h2
  · exact h1
  · rw [hic]; exact h4
  · rw [hic]; exact g1
  · exact g2
  · exact ⟨s, evs, g3, g4, t1, t2⟩
  · exact g5
  · exact g6

theorem verifyProof (hP : L.Partial) (hT : L.Safe T) (hd : 0 < d.pointLen) {vk : VK F G} (hvk : vk.WF) (hdom : vk.Domain)
    (pr : ProofData T) : L.Ens (Api.verifyProof d vk pr) fun r => ∃ as p, L.Run d vk pr.instances pr.key pr.reader as p r := by
  refine L.bind (L.assignInstanceCommitment hdom.basis pr.instances (.inr hP)) fun i hi => ?_
  obtain ⟨as, h1, h2, h3, h4⟩ := hi
  refine L.bind (verifyNoEval hP hT hd hvk hdom h4 h3 pr.key 0 pr.reader [] (.inr hP)) fun r hr => ?_
  obtain ⟨-, evs, t1, t2, p, hp⟩ := hr
  exact L.pure ⟨as, p, Run.of h1 h2 h4 t1 t2 hp⟩

/-- The record one proof stands for. -/
noncomputable def valueOf (L : Logic c gen) (vk : VK F G) (as : List (List (List c.S))) (p : Params c.P c.S) : Params G F :=
  L.record vk (as.map (List.map fun col => vk.commit (col.map L.sv))) p

/-- A record that is opened has one opening proof per rotation. -/
theorem Opened.w_length {r : MultiOpen c} {vk : VK F G} {Is : List (List G)} {p : Params c.P c.S} {pre : String} (h : L.Opened K r (L.record vk Is p))
    (hs : (L.record vk Is p).Shape vk Is pre) (hv : L.Values vk p) : p.w.length = (vk.rotations Is.length).toFinset.card := by
  have := h.count
  rw [Params.groups_length hs (record_for hv)] at this
  rw [← this]
  exact (List.length_map _).symm

/-- `verify_single_proof_in_chip`: if the points read from the proof are points and `x` is not in the domain, the two returned
points are the pair the proof is reduced to. The record they are computed from is the one the transcript determines. -/
theorem verifySingle (hP : L.Partial) (hT : L.Safe T) (hd : 0 < d.pointLen) {circuit : CircuitProof T} (hvk : circuit.vk.WF)
    (hdom : circuit.vk.Domain) (start : Reader T) :
    L.Ens (Api.verifySingle d circuit start) fun r => ∃ pr as p proof, circuit.proofs[0]? = some pr ∧
      L.Run d circuit.vk pr.instances "" start as p ⟨r.1.2.2.1, proof, r.1.2.2.2, r.2⟩ ∧
      (pr.instances.length = 1 → L.Usable circuit.vk p → 2 ≤ (circuit.vk.rotations 1).toFinset.card →
        L.pv r.1.1 (L.valueOf circuit.vk as p).left ∧ L.pv r.1.2.1 ((L.valueOf circuit.vk as p).right gen)) := by
  refine L.bind (Q := fun x => x.2 = start ∧ circuit.proofs[0]? = some x.1) ?_ fun x hx => ?_
  · refine L.bind (Q := fun a => circuit.proofs[0]? = some a) ?_ fun a ha => L.pure ⟨rfl, ha⟩
    by_cases h0 : 0 < circuit.proofs.length
    · exact L.mono (L.index h0) fun a ha => by rw [ha, List.getElem?_eq_getElem h0]
    · unfold Api.index
      rw [List.getElem?_eq_none (by omega)]
      exact hP.panic _
  obtain ⟨pr, s0⟩ := x
  obtain ⟨rfl, hpr⟩ := hx
  refine L.bind (Q := fun x => x.2 = s0 ∧ ∃ as : List (List (List c.S)), x.1.1 = as.flatten.flatten ∧
      List.Forall₂ (List.Forall₂ (List.Forall₂ L.wit)) as pr.instances ∧ (∀ row ∈ x.1.2, row.length = circuit.vk.numInstance) ∧
      List.Forall₂ (List.Forall₂ L.pv) x.1.2 (as.map (List.map fun col => circuit.vk.commit (col.map L.sv)))) ?_ fun x hx => ?_
  · exact L.bind (L.assignInstanceCommitment hdom.basis pr.instances (.inr hP)) fun i hi => L.pure ⟨rfl, hi⟩
  obtain ⟨i, s1⟩ := x
  obtain ⟨rfl, as, h1, h2, h3, h4⟩ := hx
  refine L.bind (verifyNoEval hP hT hd hvk hdom h4 h3 "" 0 s1 [] (.inr hP)) fun r hr => ?_
  obtain ⟨-, evs, t1, t2, p, hp⟩ := hr
  refine L.bind (Q := fun x => x.2 = r.2 ∧ (pr.instances.length = 1 → L.Usable circuit.vk p → 2 ≤ (circuit.vk.rotations 1).toFinset.card →
    L.pv x.1.1 (L.valueOf circuit.vk as p).left ∧ L.pv x.1.2 ((L.valueOf circuit.vk as p).right gen))) ?_ fun e he => L.pure ?_
  · refine L.bind (Q := fun x => pr.instances.length = 1 → L.Usable circuit.vk p → 2 ≤ (circuit.vk.rotations 1).toFinset.card →
      L.pv x.1 (L.valueOf circuit.vk as p).left ∧ L.pv x.2 ((L.valueOf circuit.vk as p).right gen)) ?_ fun e he => L.pure ⟨rfl, he⟩
    by_cases hc : pr.instances.length = 1 ∧ L.Usable circuit.vk p ∧ 2 ≤ (circuit.vk.rotations 1).toFinset.card
    · obtain ⟨c1, c2, c3⟩ := hc
      obtain ⟨g1, g2, -, -, g5⟩ := hp
      have hsh : (L.valueOf circuit.vk as p).Shape circuit.vk _ "" := record_shape h4 g1
      obtain ⟨K, hK⟩ := Params.keys_single hsh.keyed (show (as.map _).length = 1 by rw [List.length_map, h2.length_eq, c1])
      have ho := g5 c2 K hK
      have hwl : 2 ≤ (L.valueOf circuit.vk as p).w.length := by
        show 2 ≤ (p.w.map _).length
        rw [List.length_map, ho.w_length hsh g2, List.length_map, h2.length_eq, c1]
        exact c3
      refine L.mono (L.evaluateMultiopen ho.pair (ho.wx hwl) ho.wg) fun x hx _ _ _ => ?_
      rw [rightPair_value] at hx
      refine ⟨?_, hx.2⟩
      have hx1 := hx.1
      rw [show ((L.record circuit.vk (as.map (List.map fun col => circuit.vk.commit (col.map L.sv))) p).left, (0 : F)).2 = 0 from rfl,
        zero_smul, add_zero] at hx1
      exact hx1
    · exact L.mono (hP.triv _) fun x _ c1 c2 c3 => absurd ⟨c1, c2, c3⟩ hc
  · obtain ⟨e, s2⟩ := e
    obtain ⟨rfl, he⟩ := he
    exact ⟨pr, as, p, r.1.1, hpr, Run.of h1 h2 h4 t1 t2 hp, he⟩

/-! ### Several proofs -/

/-- Everything about one of the aggregated proofs. -/
structure Part (T : Transcript c) where
  vk : VK F G
  data : ProofData T
  scalars : List (List (List c.S))
  params : Params c.P c.S
  result : Verified T

variable (L d) in
/-- The part is what the code computed. -/
def Part.Ran (x : Part T) : Prop := L.Run d x.vk x.data.instances x.data.key x.data.reader x.scalars x.params x.result

variable (L) in
/-- The record the part stands for. -/
noncomputable def Part.value (x : Part T) : Params G F := L.valueOf x.vk x.scalars x.params

/-- The proofs of the circuits, in the order in which they are verified. -/
def jobs (circuits : List (CircuitProof T)) : List (VK F G × ProofData T) :=
  circuits.flatMap fun ci => ci.proofs.map fun pr => (ci.vk, pr)

theorem exists_parts {vk : VK F G} : ∀ {prs : List (ProofData T)} {rs : List (Verified T)},
    List.Forall₂ (fun pr r => ∃ as p, L.Run d vk pr.instances pr.key pr.reader as p r) prs rs →
    ∃ xs : List (Part T), (xs.map fun x => (x.vk, x.data)) = prs.map (fun pr => (vk, pr)) ∧ xs.map Part.result = rs ∧ ∀ x ∈ xs, x.Ran L d
  | _, _, .nil => ⟨[], rfl, rfl, by simp⟩
  | _, _, .cons (a := pr) (b := r) ⟨as, p, h⟩ hs => by
    obtain ⟨xs, h1, h2, h3⟩ := exists_parts hs
    refine ⟨⟨vk, pr, as, p, r⟩ :: xs, by simp [h1], by simp [h2], ?_⟩
    intro x hx
    rcases List.mem_cons.1 hx with rfl | hx
    · exact h
    · exact h3 x hx

theorem bindProof (hT : L.Safe T) (r : Verified T) : L.Reads (T := T) d [] (Api.bindProof r) fun _ evs =>
    ∃ k st, L.Result (T.squeeze r.reader.st) (k, st) ∧ evs = [.commonScalar k] := by
  refine Reads.bind0 (Reads.lift (post := fun k => ∃ st, L.Result (T.squeeze r.reader.st) (k.1, st)) ?_) fun k evs hk => ?_
  · exact L.bind (result (hT.squeeze _)) fun k hk => L.pure ⟨k.2, hk.2⟩
  · obtain ⟨⟨st, hk⟩, rfl⟩ := hk
    exact (Reads.commonScalar hT k.1).mono fun _ evs he => ⟨k.1, st, hk, he⟩

/-- The scalars squeezed from the transcripts of the proofs. -/
def Bound (L : Logic c gen) (rs : List (Verified T)) (ks : List c.S) : Prop :=
  List.Forall₂ (fun r k => ∃ st, L.Result (T.squeeze r.reader.st) (k, st)) rs ks

theorem bindProofs (hT : L.Safe T) : ∀ rs : List (Verified T), L.Reads (T := T) d [] (Rd.each Api.bindProof rs) fun _ evs =>
    ∃ ks, L.Bound rs ks ∧ evs = ks.map .commonScalar
  | [] => Reads.ret ⟨[], .nil, rfl⟩
  | r :: rs => Reads.bind0 (bindProof hT r) fun _ e1 h1 => Reads.bind0 (bindProofs hT rs) fun _ e2 h2 => by
    obtain ⟨k, st, hk, rfl⟩ := h1
    obtain ⟨ks, hks, rfl⟩ := h2
    exact Reads.ret ⟨k :: ks, .cons ⟨st, hk⟩ hks, by simp⟩

theorem verifyCircuit (hP : L.Partial) (hT : L.Safe T) (hd : 0 < d.pointLen) {ci : CircuitProof T} (hvk : ci.vk.WF)
    (hdom : ci.vk.Domain) : L.Reads (T := T) d [] (Api.verifyCircuit d ci) fun rs evs => ∃ (xs : List (Part T)) (ks : List c.S),
      (xs.map fun x => (x.vk, x.data)) = ci.proofs.map (fun pr => (ci.vk, pr)) ∧ xs.map Part.result = rs ∧ (∀ x ∈ xs, x.Ran L d) ∧
      L.Bound rs ks ∧ evs = ks.map .commonScalar := by
  refine Reads.bind0 (Reads.lift (L.mapM' fun pr _ => verifyProof hP hT hd hvk hdom pr)) fun rs e0 h0 => ?_
  obtain ⟨h0, rfl⟩ := h0
  obtain ⟨xs, h1, h2, h3⟩ := exists_parts h0
  refine Reads.bind0 (bindProofs hT rs) fun _ e1 h4 => ?_
  obtain ⟨ks, h4, rfl⟩ := h4
  exact Reads.ret ⟨xs, ks, h1, h2, h3, h4, by simp⟩

theorem verifyCircuits (hP : L.Partial) (hT : L.Safe T) (hd : 0 < d.pointLen) : ∀ circuits : List (CircuitProof T),
    (∀ ci ∈ circuits, ci.vk.WF ∧ ci.vk.Domain) →
    L.Reads (T := T) d [] (Rd.each (Api.verifyCircuit d) circuits) fun rs evs => ∃ (xs : List (Part T)) (ks : List c.S),
      (xs.map fun x => (x.vk, x.data)) = jobs circuits ∧ xs.map Part.result = rs.flatten ∧ (∀ x ∈ xs, x.Ran L d) ∧
      L.Bound rs.flatten ks ∧ evs = ks.map .commonScalar
  | [], _ => Reads.ret ⟨[], [], rfl, rfl, by simp, .nil, rfl⟩
  | ci :: circuits, h => by
    refine Reads.bind0 (verifyCircuit hP hT hd (h ci (by simp)).1 (h ci (by simp)).2) fun rs e1 h1 =>
      Reads.bind0 (verifyCircuits hP hT hd circuits fun ci' h' => h ci' (by simp [h'])) fun rss e2 h2 => ?_
    obtain ⟨xs, ks, a1, a2, a3, a4, rfl⟩ := h1
    obtain ⟨xs', ks', b1, b2, b3, b4, rfl⟩ := h2
    refine Reads.ret ⟨xs ++ xs', ks ++ ks', by simp [jobs, a1, b1], by simp [a2, b2], ?_, ?_, by simp⟩
    · intro x hx
      exact (List.mem_append.1 hx).elim (a3 x) (b3 x)
    · rw [List.flatten_cons]
      exact List.rel_append a4 b4

/-- What the caller has to provide for the aggregation to mean anything. -/
structure Sound (L : Logic c gen) (xs : List (Part T)) : Prop where
  usable : ∀ x ∈ xs, L.Usable x.vk x.params
  /-- One instance vector per proof, and different keys. -/
  one : ∀ x ∈ xs, x.data.instances.length = 1
  key : ∀ x ∈ xs, ∃ n i, x.data.key = proofKey n i
  keys : (xs.map fun x => x.data.key).Nodup
  /-- Otherwise an empty multi-exponentiation panics. -/
  many : 2 ≤ xs.length ∨ ∀ x ∈ xs, 2 ≤ (x.vk.rotations 1).toFinset.card

theorem Part.Ran.keyed {x : Part T} (h : x.Ran L d) : (x.value L).Keyed := (record_shape h.commitments h.shape).keyed

theorem Part.Ran.one {x : Part T} (h : x.Ran L d) (h1 : x.data.instances.length = 1) : (x.value L).instanceCommitments.length = 1 := by
  show (x.scalars.map _).length = 1
  rw [List.length_map, h.assigned.length_eq, h1]

theorem Part.Ran.key {x : Part T} (h : x.Ran L d) : (x.value L).key = x.data.key := h.shape.key

theorem aggregate_parts {xs : List (Part T)} (hr : ∀ x ∈ xs, x.Ran L d) (hs : L.Sound xs) (hne : xs ≠ []) (ch : c.S) :
    L.Ens (Api.aggregate c ch (xs.map fun x => x.result.proof)) fun r =>
      L.pv r.1 (powSum (L.sv ch) (xs.map fun x => (x.value L).left).reverse) ∧
      L.pv r.2 (powSum (L.sv ch) (xs.map fun x => (x.value L).right gen).reverse) := by
  obtain ⟨K, hK⟩ := Params.keys_many (vs := xs.map (Part.value L)) (by
      intro v hv
      obtain ⟨x, hx, rfl⟩ := List.mem_map.1 hv
      exact ⟨(hr x hx).keyed, (hr x hx).one (hs.one x hx)⟩) (by
      intro v hv
      obtain ⟨x, hx, rfl⟩ := List.mem_map.1 hv
      rw [(hr x hx).key]
      exact hs.key x hx) (by
      rw [List.map_map]
      have : xs.map (Params.key ∘ Part.value L) = xs.map fun x => x.data.key := List.map_congr_left fun x hx => (hr x hx).key
      rw [this]
      exact hs.keys)
  have ho : ∀ x ∈ xs, L.Opened K x.result.proof (x.value L) := fun x hx =>
    (hr x hx).opened (hs.usable x hx) K fun e he => hK _ (List.mem_map_of_mem hx) e he
  have hpairs : List.Forall₂ (fun p y => L.Pair (K := K) p y.1 y.2) (xs.map fun x => x.result.proof)
      (xs.map fun x => (((x.value L).left, (0 : F)), rightPair (x.value L).u (x.value L).v (x.value L).w (x.value L).claims)) := by
    rw [List.forall₂_map_left_iff, List.forall₂_map_right_iff, List.forall₂_same]
    exact fun x hx => (ho x hx).pair
  refine L.mono (L.aggregate ch hpairs ?_ ?_ (by simpa using hne) ?_) fun r h => ?_
  · intro p hp
    obtain ⟨x, hx, rfl⟩ := List.mem_map.1 hp
    exact (ho x hx).has
  · intro p hp
    obtain ⟨x, hx, rfl⟩ := List.mem_map.1 hp
    exact (ho x hx).wg
  · rw [List.length_map]
    refine hs.many.symm.imp (fun h p hp => ?_) id
    obtain ⟨x, hx, rfl⟩ := List.mem_map.1 hp
    refine (ho x hx).wx ?_
    show 2 ≤ (x.params.w.map _).length
    have h1 : (x.scalars.map (List.map fun col => x.vk.commit (col.map L.sv))).length = 1 := (hr x hx).one (hs.one x hx)
    rw [List.length_map, (ho x hx).w_length (record_shape (hr x hx).commitments (hr x hx).shape) (hr x hx).values, h1]
    exact h x hx
  · rw [List.map_map, List.map_map] at h
    have e1 : ((fun y : (G × F) × (G × F) => y.1.1 + y.1.2 • gen) ∘ fun x : Part T =>
        (((x.value L).left, (0 : F)), rightPair (x.value L).u (x.value L).v (x.value L).w (x.value L).claims)) = fun x => (x.value L).left := by
      funext x
      show (x.value L).left + (0 : F) • gen = _
      rw [zero_smul, add_zero]
    have e2 : ((fun y : (G × F) × (G × F) => y.2.1 - y.2.2 • gen) ∘ fun x : Part T =>
        (((x.value L).left, (0 : F)), rightPair (x.value L).u (x.value L).v (x.value L).w (x.value L).claims)) =
        fun x => (x.value L).right gen := by
      funext x
      exact rightPair_value ..
    rw [e1, e2] at h
    exact h

/-- `verify_aggregation_proofs_in_chip`. -/
theorem verifyAggregation (hP : L.Partial) (hT : L.Safe T) (hd : 0 < d.pointLen) {circuits : List (CircuitProof T)}
    (h : ∀ ci ∈ circuits, ci.vk.WF ∧ ci.vk.Domain) (start : Reader T) :
    L.Ens (Api.verifyAggregation d circuits start) fun r => ∃ (xs : List (Part T)) (ks : List c.S) (ch : c.S) (evs : List (Event c.P c.S)),
      (xs.map fun x => (x.vk, x.data)) = jobs circuits ∧ (∀ x ∈ xs, x.Ran L d) ∧ xs ≠ [] ∧
      L.Bound (xs.map Part.result) ks ∧ evs = ks.map .commonScalar ++ [.challenge ch] ∧ r.2.trace = start.trace ++ evs ∧
      L.Took d start.bytes start.st evs r.2.bytes r.2.st ∧
      r.1.2.2.1 = xs.flatMap (fun x => x.scalars.flatten.flatten) ∧ r.1.2.2.2 = xs.map (fun x => x.result.advice) ∧
      (L.Sound xs → L.pv r.1.1 (powSum (L.sv ch) (xs.map fun x => (x.value L).left).reverse) ∧
        L.pv r.1.2.1 (powSum (L.sv ch) (xs.map fun x => (x.value L).right gen).reverse)) := by
  have key : L.Reads (T := T) d [] (Api.verifyAggregation d circuits) fun r evs => ∃ (xs : List (Part T)) (ks : List c.S) (ch : c.S),
      (xs.map fun x => (x.vk, x.data)) = jobs circuits ∧ (∀ x ∈ xs, x.Ran L d) ∧ xs ≠ [] ∧
      L.Bound (xs.map Part.result) ks ∧ evs = ks.map .commonScalar ++ [.challenge ch] ∧
      r.2.2.1 = xs.flatMap (fun x => x.scalars.flatten.flatten) ∧ r.2.2.2 = xs.map (fun x => x.result.advice) ∧
      (L.Sound xs → L.pv r.1 (powSum (L.sv ch) (xs.map fun x => (x.value L).left).reverse) ∧
        L.pv r.2.1 (powSum (L.sv ch) (xs.map fun x => (x.value L).right gen).reverse)) := by
    refine Reads.bind0 (verifyCircuits hP hT hd circuits h) fun rs e1 h1 => Reads.bind0 (Reads.squeeze hT) fun ch e2 h2 => ?_
    obtain ⟨xs, ks, a1, a2, a3, a4, rfl⟩ := h1
    subst h2
    have a5 : rs.flatten.map Verified.proof = xs.map fun x => x.result.proof := by rw [← a2, List.map_map]; rfl
    refine Reads.bind0 (Reads.lift (post := fun r => xs ≠ [] ∧ (L.Sound xs →
        L.pv r.1 (powSum (L.sv ch) (xs.map fun x => (x.value L).left).reverse) ∧
        L.pv r.2 (powSum (L.sv ch) (xs.map fun x => (x.value L).right gen).reverse))) ?_) fun e e3 h3 => Reads.ret ?_
    · rw [a5]
      by_cases hne : xs = []
      · subst hne
        exact L.bind (Q := fun _ => False) (hP.panic _) fun _ h => h.elim
      · by_cases hs : L.Sound xs
        · exact L.mono (aggregate_parts a3 hs hne ch) fun r hr => ⟨hne, fun _ => hr⟩
        · exact L.mono (hP.triv _) fun r _ => ⟨hne, fun h => absurd h hs⟩
    · obtain ⟨⟨h3, h4⟩, rfl⟩ := h3
      refine ⟨xs, ks, ch, a1, a3, h3, a2 ▸ a4, by simp, ?_, ?_, h4⟩
      · show rs.flatten.flatMap Verified.instances = _
        rw [← a2, List.flatMap_map]
        exact List.flatMap_congr fun x hx => (a3 x hx).instances
      · show rs.flatten.map Verified.advice = _
        rw [← a2, List.map_map]
        rfl
  refine L.mono (key start [] (.inr hP)) fun r hr => ?_
  obtain ⟨-, evs, t1, t2, xs, ks, ch, a1, a2, a3, a4, a5, a6⟩ := hr
  exact ⟨xs, ks, ch, evs, a1, a2, a3, a4, a5, t1, t2, a6⟩

end Logic
end Verif.Api
