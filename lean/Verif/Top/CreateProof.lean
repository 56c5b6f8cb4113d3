import Verif.Top.Synthesize

/-!
# Setup and creation of proofs

`halo2-snark-aggregator-circuit/src/verify_circuit.rs`: which proofs `MultiCircuitsSetup::call` and `MultiCircuitsCreateProof::call`
aggregate. The proving system itself (`keygen_vk`, `keygen_pk`, `create_proof`) is not modelled: the results are the circuit to be proved,
the final pair and the instances.
-/

namespace Verif.Top
open Verif.Circuit Verif.Ecc Verif.Api

/-- A proof with its instances: `SingleProofPair`, verify_circuit.rs:72-76. -/
abbrev ProofPair : Type := List (List (List N)) × List UInt8

/-- `Setup`: verify_circuit.rs:583-589. -/
structure Setup where
  name : String
  vk : VK N Pt
  proofs : List ProofPair
  nproofs : ℕ

/-- `CreateProof`: verify_circuit.rs:826-833. -/
structure CreateProof where
  name : String
  vk : VK N Pt
  templateProofs : List ProofPair
  proofs : List ProofPair
  nproofs : ℕ

/-- `new_verify_circuit_info`: verify_circuit.rs:666-700, for one circuit. `none`: the index is out of range. -/
def setupOutcome (setup : Bool) (s : Setup) : Option Target := do
  let prs ← (List.range s.nproofs).mapM fun i => s.proofs[if setup then 0 else i]?
  return ⟨s.name, s.vk, prs, s.nproofs⟩

/-- What a call hands to the proving system, and returns besides proof and proving key. -/
structure Created where
  circuit : Build (List (AV N))
  finalPair : Pt × Pt × List N
  instances : List N

variable {rate : ℕ} (ps : PoseidonSpec N rate) (d : Codec N Pt)

/-- The circuit of `MultiCircuitsSetup::call`: verify_circuit.rs:734-757. -/
noncomputable def setupCircuit (setups : List Setup) (coherent : List ((ℕ × ℕ) × (ℕ × ℕ))) : Option (Build (List (AV N))) := do
  let ts ← setups.mapM (setupOutcome true)
  return synthesize ps d ts coherent

/-- `calc_verify_circuit_final_pair`: verify_circuit.rs:97-203. The pairing is only checked in debug builds. -/
noncomputable def calcFinalPair (ts : List Target) : Option (Pt × Pt × List N) := do
  let r ← (aggregateTargets (mock N gen) ps mockEncode d ts : Option (Pt × Pt × List N × List (List Pt)))
  return (r.1, r.2.1, r.2.2.1)

/-- `MultiCircuitsCreateProof::call`: verify_circuit.rs:892-1006. -/
noncomputable def createProof (cs : List CreateProof) (coherent : List ((ℕ × ℕ) × (ℕ × ℕ))) : Option Created := do
  let setups := cs.map fun cp => (⟨cp.name, cp.vk, cp.templateProofs, cp.nproofs⟩ : Setup)
  let ts ← setups.mapM (setupOutcome false)
  let pair ← calcFinalPair ps d ts
  let is ← pairToInstances pair.1 pair.2.1 pair.2.2
  return ⟨synthesize ps d ts coherent, pair, is⟩

/-! ### C52 -/

/-- Specification: the circuits with the proofs the caller supplied. -/
def supplied (cs : List CreateProof) : Option (List Target) := cs.mapM fun cp =>
  if cp.nproofs ≤ cp.proofs.length then some ⟨cp.name, cp.vk, cp.proofs.take cp.nproofs, cp.nproofs⟩ else none

theorem range_mapM {α : Type} (l : List α) : ∀ n, (List.range n).mapM (fun i => l[i]?) = if n ≤ l.length then some (l.take n) else none
  | 0 => by simp
  | n + 1 => by
    rw [List.range_succ, List.mapM_append, range_mapM l n]
    by_cases h : n + 1 ≤ l.length
    · rw [if_pos (by omega), if_pos h]
      have hn : l[n]? = some l[n] := List.getElem?_eq_getElem (show n < l.length by omega)
      rw [List.mapM_cons, List.mapM_nil, hn, List.take_add_one, hn]
      rfl
    · rw [if_neg h]
      by_cases h' : n ≤ l.length
      · rw [if_pos h']
        simp [List.getElem?_eq_none (show l.length ≤ n by omega)]
      · rw [if_neg h']
        rfl

theorem mapM_congr {α β : Type} {f g : α → Option β} : ∀ {l : List α}, (∀ a ∈ l, f a = g a) → l.mapM f = l.mapM g
  | [], _ => rfl
  | a :: l, h => by rw [List.mapM_cons, List.mapM_cons, h a (by simp), mapM_congr fun b hb => h b (by simp [hb])]

theorem setupOutcome_false (s : Setup) : setupOutcome false s =
    if s.nproofs ≤ s.proofs.length then some ⟨s.name, s.vk, s.proofs.take s.nproofs, s.nproofs⟩ else none := by
  unfold setupOutcome
  simp only [Bool.false_eq_true, if_false]
  rw [range_mapM]
  split <;> rfl

/-- C52 holds when the template proofs are the proofs, which is how `CreateProof::new` (verify_circuit.rs:835-880) fills the structure:
the call aggregates the first `nproofs` proofs supplied. Missing: other values of the two fields (`C52_ignores_proofs`). -/
theorem C52_create_proof_partial {cs : List CreateProof} (h : ∀ cp ∈ cs, cp.templateProofs = cp.proofs) (coherent : List ((ℕ × ℕ) × (ℕ × ℕ))) :
    createProof ps d cs coherent = do
      let ts ← supplied cs
      let pair ← calcFinalPair ps d ts
      let is ← pairToInstances pair.1 pair.2.1 pair.2.2
      return ⟨synthesize ps d ts coherent, pair, is⟩ := by
  have e : (cs.map fun cp => (⟨cp.name, cp.vk, cp.templateProofs, cp.nproofs⟩ : Setup)).mapM (setupOutcome false) = supplied cs := by
    unfold supplied
    rw [List.mapM_map]
    refine mapM_congr fun cp hcp => ?_
    simp only [Function.comp, setupOutcome_false, h cp hcp]
  unfold createProof
  dsimp only
  rw [e]

/-- C52 as stated is false: the result of the call does not depend on the proofs supplied. -/
theorem C52_ignores_proofs {cs cs' : List CreateProof}
    (h : List.Forall₂ (fun a b => a.name = b.name ∧ a.vk = b.vk ∧ a.templateProofs = b.templateProofs ∧ a.nproofs = b.nproofs) cs cs')
    (coherent : List ((ℕ × ℕ) × (ℕ × ℕ))) : createProof ps d cs coherent = createProof ps d cs' coherent := by
  have e : (cs.map fun cp => (⟨cp.name, cp.vk, cp.templateProofs, cp.nproofs⟩ : Setup)) =
      cs'.map fun cp => ⟨cp.name, cp.vk, cp.templateProofs, cp.nproofs⟩ := by
    induction h with
    | nil => rfl
    | cons h _ ih =>
      obtain ⟨h1, h2, h3, h4⟩ := h
      rw [List.map_cons, List.map_cons, ih, h1, h2, h3, h4]
  unfold createProof
  rw [e]

/-- The circuit that is proved verifies the template proof `([[[1]]], [])`, not the proof supplied. -/
example (vk : VK N Pt) : (([⟨"c", vk, [([[[1]]], [])], [([[[2]]], [])], 1⟩] : List CreateProof).map fun cp =>
      (⟨cp.name, cp.vk, cp.templateProofs, cp.nproofs⟩ : Setup)).mapM (setupOutcome false) = some [⟨"c", vk, [([[[1]]], [])], 1⟩] ∧
    supplied [⟨"c", vk, [([[[1]]], [])], [([[[2]]], [])], 1⟩] = some [⟨"c", vk, [([[[2]]], [])], 1⟩] := ⟨rfl, rfl⟩

end Verif.Top
