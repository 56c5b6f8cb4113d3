import Verif.Api.PoseidonProps
import Verif.Top.ExposeProps

/-!
# The verifier circuit

`halo2-snark-aggregator-circuit/src/verify_circuit.rs`: `Halo2VerifierCircuits::synthesize`, `synthesize_proof` and
`calc_verify_circuit_final_pair`, up to the layout of regions.
-/

namespace Verif.Top
open Verif.Circuit Verif.Ecc Verif.Api

/-- `Halo2VerifierCircuit` and `Halo2CircuitInstance`: verify_circuit.rs:78-105. A proof is a pair of instances and transcript. -/
structure TargetOf (G : Type) where
  name : String
  vk : VK N G
  proofs : List (List (List (List N)) × List UInt8)
  nproofs : ℕ

/-- With points of the curve. -/
abbrev Target := TargetOf Pt

section Model
variable {G : Type} [AddCommGroup G] (c : Chip N G) {rate : ℕ} (ps : PoseidonSpec N rate) (e : Encode c)

/-- `PoseidonTranscriptRead::new`: systems/halo2/transcript.rs:32-44. -/
def newReader (bytes : List UInt8) : c.m (Reader (poseidonTranscript c ps e)) := do
  let st ← spongeNew c ps
  return ⟨bytes, st, []⟩

/-- verify_circuit.rs:434-457; for the native verifier lines 121-140. -/
def openProof (t : TargetOf G) (i : ℕ) : c.m (ProofData (poseidonTranscript c ps e)) := do
  let pr ← index c t.proofs i
  let r ← newReader c ps e pr.2
  return ⟨pr.1, r, proofKey t.name i⟩

/-- verify_circuit.rs:416-465; for the native verifier lines 116-149. -/
def openTarget (t : TargetOf G) : c.m (CircuitProof (poseidonTranscript c ps e)) := do
  let prs ← mapM' c (openProof c ps e t) (List.range t.nproofs)
  return ⟨t.vk, prs⟩

/-- verify_circuit.rs:410-486; for the native verifier lines 111-171. -/
noncomputable def aggregateTargets (d : Codec N G) (ts : List (TargetOf G)) : c.m (c.P × c.P × List c.S × List (List c.P)) := do
  let cs ← mapM' c (openTarget c ps e) ts
  let st ← newReader c ps e []
  let r ← verifyAggregation d cs st
  return r.1

end Model

/-- A list entry that must exist: `commits[i][j]`. -/
noncomputable def commitAt (commits : List (List APt)) (k : ℕ × ℕ) : Build APt := do
  let l ← index circuitChip commits k.1
  index circuitChip l k.2

/-- verify_circuit.rs:488-494. -/
noncomputable def checkCoherent (commits : List (List APt)) : List ((ℕ × ℕ) × (ℕ × ℕ)) → Build Unit
  | [] => pure ()
  | k :: l => do
    let a ← commitAt commits k.1
    let b ← commitAt commits k.2
    let _ ← Build.of (pAssertEqual a b) (Spec.pAssertEqual a b)
    checkCoherent commits l

instance (x : AInt) (bit : AV N) : Grows (exposePoint x bit) := by
  unfold exposePoint
  grows

instance (p q : APt) : Grows (exposePair p q) := by
  unfold exposePair
  grows

theorem Spec.assertFalse (a : AV N) : Spec tables (assertFalse a) fun adv _ => a.val adv = 0 := Spec.assertConstant a 0

/-- verify_circuit.rs:381-503 and 267-350. The result: the cells that are constrained to be rows `0, 1, ..` of the instance column,
lines 352-362. -/
noncomputable def synthesize {rate : ℕ} (ps : PoseidonSpec N rate) (d : Codec N Pt) (ts : List Target) (coherent : List ((ℕ × ℕ) × (ℕ × ℕ))) :
    Build (List (AV N)) := do
  let (r : APt × APt × List (AV N) × List (List APt)) ← aggregateTargets circuitChip ps circuitEncode d ts
  let _ ← checkCoherent r.2.2.2 coherent
  let _ ← Build.of (Circuit.assertFalse r.1.z) (Spec.assertFalse _)
  let _ ← Build.of (Circuit.assertFalse r.2.1.z) (Spec.assertFalse _)
  let rows ← Build.of (exposePair r.1 r.2.1) (Spec.exposePair _ _)
  return rows ++ r.2.2.1

/-! ### The proofs that are verified -/

/-- The proofs in the order in which they are verified: key, instances, bytes, and the key of the schema. -/
def targetJobs (ts : List Target) : List (VK N Pt × List (List (List N)) × List UInt8 × String) :=
  ts.flatMap fun t => (t.proofs.take t.nproofs).zipIdx.map fun p => (t.vk, p.1.1, p.1.2, proofKey t.name p.2)

section Generic
variable {c : Chip N Pt} {gen : Pt} {rate : ℕ} {ps : PoseidonSpec N rate} {e : Encode c}

theorem newReader_ens (L : Logic c gen) (bytes : List UInt8) : L.Ens (newReader c ps e bytes) fun r =>
    r.bytes = bytes ∧ r.trace = [] ∧ L.spongeVals (rate := rate) r.st = (ps.init, []) := by
  refine L.bind (Logic.spongeNew ps) fun st hst => L.pure ⟨rfl, rfl, ?_⟩
  show (L.vals st.s, st.absorbing.map L.sv) = _
  rw [hst.1, hst.2]
  rfl

/-- The proof as it is opened. -/
def Opened (L : Logic c gen) (t : Target) (i : ℕ) (pr : ProofData (poseidonTranscript c ps e)) : Prop :=
  t.proofs[i]? = some (pr.instances, pr.reader.bytes) ∧ pr.key = proofKey t.name i ∧ pr.reader.trace = [] ∧
    L.spongeVals (rate := rate) pr.reader.st = (ps.init, [])

theorem openProof_ens {L : Logic c gen} (hP : L.Partial) (t : Target) (i : ℕ) : L.Ens (openProof c ps e t i) (Opened L t i) := by
  unfold openProof
  refine L.bind (Q := fun r => t.proofs[i]? = some r) ?_ fun pr hpr =>
    L.bind (newReader_ens L pr.2) fun r hr => L.pure ⟨?_, rfl, hr.2.1, hr.2.2⟩
  · unfold index
    split
    · next h => exact L.pure h
    · exact hP.panic _
  · rw [hpr, hr.1]

theorem openTarget_ens {L : Logic c gen} (hP : L.Partial) (t : Target) : L.Ens (openTarget c ps e t) fun r =>
    r.vk = t.vk ∧ List.Forall₂ (Opened L t) (List.range t.nproofs) r.proofs :=
  L.bind (L.mapM' fun i _ => openProof_ens hP t i) fun _ h => L.pure ⟨rfl, h⟩

theorem opened_list {L : Logic c gen} {t : Target} {n : ℕ} {prs : List (ProofData (poseidonTranscript c ps e))}
    (h : List.Forall₂ (Opened L t) (List.range n) prs) :
    (prs.map fun pr => (t.vk, pr.instances, pr.reader.bytes, pr.key)) =
      (t.proofs.take n).zipIdx.map fun p => (t.vk, p.1.1, p.1.2, proofKey t.name p.2) := by
  have hlen : prs.length = n := by rw [← h.length_eq, List.length_range]
  have key : ∀ i (hi : i < prs.length), Opened L t i prs[i] := fun i hi => by
    have := List.Forall₂.get h (i := i) (by simp; omega) hi
    simpa using this
  apply List.ext_getElem?
  intro i
  rw [List.getElem?_map, List.getElem?_map, List.getElem?_zipIdx]
  by_cases hi : i < n
  · rw [List.getElem?_eq_getElem (by omega), List.getElem?_take_of_lt hi, (key i (by omega)).1]
    simp [(key i (by omega)).2.1]
  · rw [List.getElem?_eq_none (by omega), List.getElem?_take_eq_none (by omega)]
    rfl

theorem jobs_opened {L : Logic c gen} {ts : List Target} {cs : List (CircuitProof (poseidonTranscript c ps e))}
    (h : List.Forall₂ (fun t r => r.vk = t.vk ∧ List.Forall₂ (Opened L t) (List.range t.nproofs) r.proofs) ts cs) :
    ((Logic.jobs cs).map fun j => (j.1, j.2.instances, j.2.reader.bytes, j.2.key)) = targetJobs ts ∧
      ∀ j ∈ Logic.jobs cs, j.2.reader.trace = [] ∧ L.spongeVals (rate := rate) j.2.reader.st = (ps.init, []) := by
  induction h with
  | nil => exact ⟨rfl, by simp [Logic.jobs]⟩
  | @cons t r ts cs h _ ih =>
    obtain ⟨hv, hp⟩ := h
    constructor
    · simp only [Logic.jobs, targetJobs, List.flatMap_cons, List.map_append, List.map_map] at ih ⊢
      rw [ih.1, ← opened_list hp, hv]
      rfl
    · intro j hj
      rw [Logic.jobs, List.flatMap_cons, List.mem_append] at hj
      rcases hj with hj | hj
      · obtain ⟨pr, hpr, rfl⟩ := List.mem_map.1 hj
        obtain ⟨i, hi, rfl⟩ := List.getElem_of_mem hpr
        have := List.Forall₂.get hp (i := i) (by rw [hp.length_eq]; exact hi) hi
        exact ⟨this.2.2.1, this.2.2.2⟩
      · exact ih.2 j hj

end Generic

theorem proofKey_injective {n n' : String} {i i' : ℕ} (h : proofKey n i = proofKey n' i') : n = n' ∧ i = i' := by
  obtain ⟨h1, h2, -⟩ := key_injective (a := Name.w 0) (a' := Name.w 0) (congrArg (· ++ (Name.w 0).suffix) h)
  exact ⟨h1, h2⟩

/-- Circuits with different names have different schema keys. -/
theorem keys_nodup {ts : List Target} (h : (ts.map TargetOf.name).Nodup) : ((targetJobs ts).map fun j => j.2.2.2).Nodup := by
  have e : ((targetJobs ts).map fun j => j.2.2.2) = ts.flatMap fun t => (List.range (t.proofs.take t.nproofs).length).map fun i => proofKey t.name i := by
    unfold targetJobs
    rw [List.map_flatMap]
    congr 1
    funext t
    rw [List.map_map]
    apply List.ext_getElem?
    intro i
    rw [List.getElem?_map, List.getElem?_map, List.getElem?_zipIdx]
    by_cases hi : i < (t.proofs.take t.nproofs).length
    · rw [List.getElem?_eq_getElem hi, List.getElem?_range hi]
      simp
    · rw [List.getElem?_eq_none (by omega), List.getElem?_eq_none (by rw [List.length_range]; omega)]
      rfl
  rw [e, List.nodup_flatMap]
  refine ⟨fun t _ => List.nodup_range.map fun i j hij => (proofKey_injective hij).2, ?_⟩
  rw [List.Nodup, List.pairwise_map] at h
  refine h.imp fun hne => ?_
  simp only [Function.onFun, List.disjoint_left, List.mem_map, not_exists, not_and]
  rintro _ ⟨i, -, rfl⟩ j _ hj
  exact hne (proofKey_injective hj).1.symm

/-! ### The circuit -/

theorem forall₂_and_mem {α β : Type} {R : α → β → Prop} : ∀ {l : List α} {l' : List β}, List.Forall₂ R l l' →
    List.Forall₂ (fun a b => a ∈ l ∧ R a b) l l'
  | _, _, .nil => .nil
  | _, _, .cons h t => .cons ⟨by simp, h⟩ ((forall₂_and_mem t).imp fun _ _ h => ⟨List.mem_cons_of_mem _ h.1, h.2⟩)

theorem commitAt_holds (adv : Advice N) (commits : List (List APt)) (k : ℕ × ℕ) :
    Holds adv (commitAt commits k) fun p => ∃ l, commits[k.1]? = some l ∧ l[k.2]? = some p := by
  have hP := Logic.circuit_partial adv
  have idx : ∀ {α : Type} (l : List α) (i : ℕ), Holds adv (index circuitChip l i) fun r => l[i]? = some r := by
    intro α l i
    unfold index
    split
    · next h => exact Holds.pure h
    · exact hP.panic _
  exact Holds.bind (idx _ _) fun l hl => (idx l k.2).mono fun p hp => ⟨l, hl, hp⟩

/-- The two points are equal, unless exactly one of them is the identity. -/
def Coherent (adv : Advice N) (commits : List (List APt)) (k : (ℕ × ℕ) × (ℕ × ℕ)) : Prop :=
  ∃ l l' p q, commits[k.1.1]? = some l ∧ l[k.1.2]? = some p ∧ commits[k.2.1]? = some l' ∧ l'[k.2.2]? = some q ∧
    ∀ P Q, Represents adv p P → Represents adv q Q → (P = 0 ↔ Q = 0) → P = Q

theorem checkCoherent_holds (adv : Advice N) (commits : List (List APt)) : ∀ l : List ((ℕ × ℕ) × (ℕ × ℕ)),
    Holds adv (checkCoherent commits l) fun _ => ∀ k ∈ l, Coherent adv commits k
  | [] => Holds.pure (by simp)
  | k :: l => by
    refine Holds.bind (commitAt_holds adv commits k.1) fun p ⟨l1, h1, h2⟩ => Holds.bind (commitAt_holds adv commits k.2) fun q ⟨l2, h3, h4⟩ =>
      Holds.bind (Q := fun _ => ∀ P Q, Represents adv p P → Represents adv q Q → (P = 0 ↔ Q = 0) → P = Q) ?_ fun _ h5 =>
      (checkCoherent_holds adv commits l).mono fun _ h => ?_
    · exact fun ctx _ ctx' hr hs P Q hP hQ hi => C21_assert_equal_partial hr hs hP hQ hi
    · intro k' hk'
      rcases List.mem_cons.1 hk' with rfl | hk'
      · exact ⟨l1, l2, p, q, h1, h2, h3, h4, h5⟩
      · exact h k' hk'

/-- What the circuit has checked about the proofs: they are the targets' proofs, each was run through the verifier, the challenges `ks` end
the transcripts of the proofs, all hashed from the initial Poseidon state, and `ch` is the challenge of the main transcript. -/
structure Aggregated {rate : ℕ} (adv : Advice N) (ps : PoseidonSpec N rate) (d : Codec N Pt) (ts : List Target)
    (xs : List (Logic.Part (poseidonTranscript circuitChip ps circuitEncode))) (ks : List (AV N)) (ch : AV N) : Prop where
  jobs : (xs.map fun x => (x.vk, x.data.instances, x.data.reader.bytes, x.data.key)) = targetJobs ts
  ran : ∀ x ∈ xs, x.Ran (circuitLogic adv) d
  some : xs ≠ []
  hashed : List.Forall₂ (fun x (k : AV N) => ∃ (s : AV N) (evs : List (Event APt (AV N))) (v : (Fin (rate + 1) → N) × List N),
    s.val adv = x.vk.digest ∧ evs = Params.layout x.vk s (P := APt) x.params ∧
    Replay ps (cellWords adv) (fun a : AV N => a.val adv) ps.init [] evs ∧
    v = spongeAfter ps (cellWords adv) (fun a => a.val adv) (ps.init, []) evs ∧
    k.val adv = ps.absorb v.1 v.2 (Fin.ofNat (rate + 1) 1)) xs ks
  challenge : ch.val adv = ps.absorb ps.init (ks.map fun k => k.val adv) (Fin.ofNat (rate + 1) 1)

/-- What the proofs must satisfy for the result to be meaningful: one instance vector each, names of circuits that differ, two proofs or two
evaluation points, identity flags that are bits (the circuit does not enforce it, see C18), and `x` outside the domain. -/
structure Regular {rate : ℕ} (adv : Advice N) {ps : PoseidonSpec N rate} (ts : List Target)
    (xs : List (Logic.Part (poseidonTranscript circuitChip ps circuitEncode))) : Prop where
  one : ∀ x ∈ xs, x.data.instances.length = 1
  names : (ts.map TargetOf.name).Nodup
  many : 2 ≤ xs.length ∨ ∀ x ∈ xs, 2 ≤ (x.vk.rotations 1).toFinset.card
  flags : ∀ x ∈ xs, ∀ q ∈ Params.points (P := APt) x.params, q.z.val adv = 0 ∨ q.z.val adv = 1
  outside : ∀ x ∈ xs, AV.val x.params.x adv ^ x.vk.n ≠ 1

/-- The two sides of the aggregated opening check. -/
noncomputable def leftSide {rate : ℕ} (adv : Advice N) {ps : PoseidonSpec N rate} (ch : AV N)
    (xs : List (Logic.Part (poseidonTranscript circuitChip ps circuitEncode))) : Pt :=
  powSum (ch.val adv) (xs.map fun x => (x.value (circuitLogic adv)).left).reverse
noncomputable def rightSide {rate : ℕ} (adv : Advice N) {ps : PoseidonSpec N rate} (ch : AV N)
    (xs : List (Logic.Part (poseidonTranscript circuitChip ps circuitEncode))) : Pt :=
  powSum (ch.val adv) (xs.map fun x => (x.value (circuitLogic adv)).right Ecc.gen).reverse

theorem aggregateTargets_holds {rate : ℕ} {adv : Advice N} {ps : PoseidonSpec N rate} (hps : ps.WF) {d : Codec N Pt} (hd : 0 < d.pointLen)
    {ts : List Target} (hvk : ∀ t ∈ ts, t.vk.WF ∧ t.vk.Domain) : Holds adv (aggregateTargets circuitChip ps circuitEncode d ts) fun r =>
      ∃ xs ks ch, Aggregated adv ps d ts xs ks ch ∧ r.2.2.1 = xs.flatMap (fun x => x.scalars.flatten.flatten) ∧
        r.2.2.2 = xs.map (fun x => x.result.advice) ∧
        (Regular adv ts xs → Represents adv r.1 (leftSide adv ch xs) ∧ Represents adv r.2.1 (rightSide adv ch xs)) := by
  have hP := Logic.circuit_partial adv
  unfold aggregateTargets
  refine Holds.bind ((circuitLogic adv).mapM' fun t _ => openTarget_ens hP t) fun cs hcs =>
    Holds.bind (newReader_ens (circuitLogic adv) []) fun st hst => ?_
  obtain ⟨hj, hst'⟩ := jobs_opened hcs
  have hcv : ∀ ci ∈ cs, ci.vk.WF ∧ ci.vk.Domain := by
    intro ci hci
    obtain ⟨i, hi, rfl⟩ := List.getElem_of_mem hci
    have := List.Forall₂.get hcs (i := i) (by rw [hcs.length_eq]; exact hi) hi
    simp only [List.get_eq_getElem] at this
    rw [this.1]
    exact hvk _ (List.getElem_mem _)
  refine Holds.bind (x := verifyAggregation d cs st) (Q := fun r => ∃ xs ks ch, Aggregated adv ps d ts xs ks ch ∧
    r.1.2.2.1 = xs.flatMap (fun x => x.scalars.flatten.flatten) ∧ r.1.2.2.2 = xs.map (fun x => x.result.advice) ∧
    (Regular adv ts xs → Represents adv r.1.1 (leftSide adv ch xs) ∧ Represents adv r.1.2.1 (rightSide adv ch xs))) ?_ fun r hr => Holds.pure hr
  rintro ctx ⟨⟨l, r, is, advice⟩, rest⟩ ctx' hr hsat
  obtain ⟨xs, ks, ch, h1, h2, h3, h4, h5, h6, h7, h8⟩ := C68_aggregation_circuit hps hd hcv st hr hsat
  have hcell : ∀ x ∈ xs, cellSponge (rate := rate) adv x.data.reader.st = (ps.init, []) := fun x hx =>
    (hst' (x.vk, x.data) (h1 ▸ List.mem_map.2 ⟨x, hx, rfl⟩)).2
  have hjobs : (xs.map fun x => (x.vk, x.data.instances, x.data.reader.bytes, x.data.key)) = targetJobs ts := by
    rw [← hj, ← h1, List.map_map]
    rfl
  have hcell0 : cellSponge (rate := rate) adv st.st = (ps.init, []) := hst.2.2
  refine ⟨xs, ks, ch, ⟨hjobs, h2, h3, ?_, ?_⟩, h6, h7, fun hreg => h8 hreg.one ?_ ?_ hreg.many hreg.flags hreg.outside⟩
  · refine List.Forall₂.imp (R := fun x k => x ∈ xs ∧ _) ?_ (forall₂_and_mem h4)
    rintro x k ⟨hx, s, evs, v, e1, e2, e3, e4, e5⟩
    rw [hcell x hx] at e3 e4
    exact ⟨s, evs, v, e1, e2, e3, e4, e5⟩
  · rw [h5, hcell0]
    rfl
  · intro x hx
    have hm : (x.vk, x.data.instances, x.data.reader.bytes, x.data.key) ∈ targetJobs ts := hjobs ▸ List.mem_map.2 ⟨x, hx, rfl⟩
    obtain ⟨t, -, ht⟩ := List.mem_flatMap.1 hm
    obtain ⟨p, -, hp⟩ := List.mem_map.1 ht
    simp only [Prod.mk.injEq] at hp
    exact ⟨t.name, p.2, hp.2.2.2.symm⟩
  · have := keys_nodup hreg.names
    rwa [← hjobs, List.map_map] at this

/-- C72, soundness of the whole verifier circuit: in every satisfying assignment the rows of the instance column that follow the final
pair are the instances the proofs are verified with; the challenges are the Poseidon hashes of what precedes them, from the initial
state; commitments declared coherent are equal; and if the rows are the ones that `final_pair_to_instances` and the contract compute for
the points `P` and `Q`, then `P` and `Q` are the aggregated sides of the opening checks, up to sign.

Missing from C72 as stated: the sign (`C72_false`), identity flags that are not bits and identities in the coherence check. -/
theorem C72_circuit_partial {rate : ℕ} {adv : Advice N} {ps : PoseidonSpec N rate} (hps : ps.WF) {d : Codec N Pt} (hd : 0 < d.pointLen) {ts : List Target}
    (hvk : ∀ t ∈ ts, t.vk.WF ∧ t.vk.Domain) {coherent : List ((ℕ × ℕ) × (ℕ × ℕ))} {ctx ctx' : Ctx N} {rows : List (AV N)}
    (hr : (synthesize ps d ts coherent).1 ctx = some (rows, ctx')) (hsat : Sat tables ctx' adv) :
    ∃ xs ks ch, Aggregated adv ps d ts xs ks ch ∧ rows.drop 4 = xs.flatMap (fun x => x.scalars.flatten.flatten) ∧
      (∀ k ∈ coherent, Coherent adv (xs.map fun x => x.result.advice) k) ∧
      (Regular adv ts xs → leftSide adv ch xs ≠ 0 ∧ rightSide adv ch xs ≠ 0 ∧
        Exposes ((rows.take 4).map fun c => c.val adv) (leftSide adv ch xs) (rightSide adv ch xs) ∧
        ∀ P Q rest, P ≠ 0 → Q ≠ 0 → some (rows.map fun c => c.val adv) = pairToInstances P Q rest →
          (leftSide adv ch xs = P ∨ leftSide adv ch xs = -P) ∧ (rightSide adv ch xs = Q ∨ rightSide adv ch xs = -Q) ∧
          rest = (rows.drop 4).map fun c => c.val adv) := by
  have key : Holds adv (synthesize ps d ts coherent) fun rows => ∃ xs ks ch, Aggregated adv ps d ts xs ks ch ∧
      rows.drop 4 = xs.flatMap (fun x => x.scalars.flatten.flatten) ∧ (∀ k ∈ coherent, Coherent adv (xs.map fun x => x.result.advice) k) ∧
      (Regular adv ts xs → leftSide adv ch xs ≠ 0 ∧ rightSide adv ch xs ≠ 0 ∧
        Exposes ((rows.take 4).map fun c => c.val adv) (leftSide adv ch xs) (rightSide adv ch xs)) := by
    unfold synthesize
    refine Holds.bind (aggregateTargets_holds hps hd hvk) fun (r : APt × APt × List (AV N) × List (List APt)) hr => ?_
    obtain ⟨p, q, is, advice⟩ := r
    obtain ⟨xs, ks, ch, h1, h2, h3, h4⟩ := hr
    refine Holds.bind (checkCoherent_holds adv advice coherent) fun _ h5 => Holds.bind (Holds.of (Spec.assertFalse _)) fun _ h6 =>
      Holds.bind (Holds.of (Spec.assertFalse _)) fun _ h7 => Holds.bind (Holds.of (Spec.exposePair p q)) fun rs h8 => Holds.pure ?_
    obtain ⟨h8, h9⟩ := h8
    dsimp only at h2 h3 h4 h6 h7 h9
    refine ⟨xs, ks, ch, h1, ?_, ?_, fun hreg => ?_⟩
    · rw [← h2, List.drop_left' h8]
    · have h3' : advice = (xs.map fun x => x.result.advice : List (List APt)) := h3
      exact h3' ▸ h5
    · obtain ⟨h10, h11⟩ := h4 hreg
      have ne : ∀ {p : APt} {P : Pt}, Represents adv p P → p.z.val adv = 0 → P ≠ 0 := by
        rintro p P hp hz rfl
        have := hp.1.ident rfl
        rw [hz] at this
        exact zero_ne_one this
      refine ⟨ne h10 h6, ne h11 h7, ?_⟩
      rw [List.take_left' h8]
      exact h9 _ _ (ne h10 h6) (ne h11 h7) h10.1 h11.1
  obtain ⟨xs, ks, ch, h1, h2, h3, h4⟩ := key ctx rows ctx' hr hsat
  refine ⟨xs, ks, ch, h1, h2, h3, fun hreg => ?_⟩
  obtain ⟨h5, h6, h7⟩ := h4 hreg
  refine ⟨h5, h6, h7, fun P Q rest hP hQ he => ?_⟩
  rw [C48_native hP hQ, Option.some.injEq, ← List.take_append_drop 4 rows, List.map_append] at he
  have hl : ((rows.take 4).map fun c => c.val adv).length = (packPoints P Q).length := by
    obtain ⟨_, _, _, _, -, -, -, -, -, -, e⟩ := h7
    rw [e]
    rfl
  obtain ⟨e1, e2⟩ := List.append_inj he hl
  rw [e1] at h7
  obtain ⟨k1, k2⟩ := exposes_up_to_sign h7 hP hQ
  exact ⟨k1, k2, e2.symm⟩

/-- The consequence for the contract: a pair that fails the pairing check `τ P = Q` because `τ P = -Q` can be exposed as a pair that passes it. -/
theorem C48_wrong_pair_accepted {τ : N} (hτ : τ ≠ 0) {P : Pt} (hP : P ≠ 0) (hy : (coordY P).val + fqMod < 2 ^ 254) :
    τ • P ≠ -(τ • P) ∧ ∃ p q r ctx, readExpose P (-(τ • P)) Ctx.empty = some ((p, q, r), ctx) ∧ ∃ adv, Sat tables ctx adv ∧ StandsFor adv p P ∧
      StandsFor adv q (-(τ • P)) ∧ ∃ P' Q', some (r.map fun c => c.val adv) = pairToInstances P' Q' [] ∧ τ • P' = Q' := by
  have hne : τ • P ≠ 0 := smul_ne_zero hτ hP
  refine ⟨fun h => ?_, ?_⟩
  · have h2 : (2 : N) • (τ • P) = 0 := by
      rw [two_smul]
      nth_rw 2 [h]
      exact add_neg_cancel _
    exact (smul_ne_zero (by decide +kernel) hne) h2
  · obtain ⟨p, q, r, ctx, h1, adv, h2, h3, h4, h5⟩ := C48_sign_forgeable hP (neg_ne_zero.2 hne) hy
    exact ⟨p, q, r, ctx, h1, adv, h2, h3, h4, -P, _, h5, by rw [smul_neg]⟩

end Verif.Top
