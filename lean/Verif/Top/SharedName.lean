import Verif.Top.CommandProps
import Verif.Top.SynthExample

/-!
# The names of circuits that are loaded from one folder: C83
-/

namespace Verif.Top
open Verif.Circuit Verif.Ecc Verif.Api Verif.Sol

variable {S : System}

/-- All circuits get the same name, the path of the folder. -/
theorem C83_one_name {t : TargetCircuit S} {dir : String} {f : Folder} {cp : CreateProof} (h : CreateProof.new S t dir f = some cp) : cp.name = dir := by
  obtain ⟨l, -, h⟩ := Option.bind_eq_some_iff.1 h
  obtain ⟨vk, -, h⟩ := Option.bind_eq_some_iff.1 h
  cases h
  rfl

theorem new_nproofs {t : TargetCircuit S} {dir : String} {f : Folder} {cp : CreateProof} (h : CreateProof.new S t dir f = some cp) :
    cp.nproofs = t.nproofs ∧ cp.proofs.length = t.nproofs := by
  obtain ⟨l, h1, h⟩ := Option.bind_eq_some_iff.1 h
  obtain ⟨vk, -, h⟩ := Option.bind_eq_some_iff.1 h
  cases h
  refine ⟨rfl, ?_⟩
  obtain ⟨is, h2, h1⟩ := Option.bind_eq_some_iff.1 h1
  obtain ⟨ps, h3, h1⟩ := Option.bind_eq_some_iff.1 h1
  cases h1
  show (is.zip ps).length = _
  rw [List.length_zip, ← (mapM_forall₂ h2).length_eq, ← (mapM_forall₂ h3).length_eq, List.length_range, min_self]

/-- What is verified for circuits that were loaded. -/
def loadedTarget (cp : CreateProof) : Target := ⟨cp.name, cp.vk, cp.proofs, cp.nproofs⟩

theorem jobKeys (ts : List Target) : ((targetJobs ts).map fun j => j.2.2.2) =
    ts.flatMap fun t => (List.range (t.proofs.take t.nproofs).length).map fun i => proofKey t.name i := by
  unfold targetJobs
  rw [List.map_flatMap]
  congr 1
  funext t
  rw [List.map_map]
  apply List.ext_getElem?
  intro i
  rw [List.getElem?_map, List.getElem?_map, List.getElem?_zipIdx]
  by_cases hi : i < (t.proofs.take t.nproofs).length
  · rw [List.getElem?_eq_getElem hi, List.getElem?_range hi]
    simp
  · rw [List.getElem?_eq_none (by omega), List.getElem?_eq_none (by rw [List.length_range]; omega)]
    rfl

theorem loadedKeys {ts : List (TargetCircuit S)} {dir : String} {f : Folder} {cps : List CreateProof}
    (h : ts.mapM (fun t => CreateProof.new S t dir f) = some cps) :
    ((targetJobs (cps.map loadedTarget)).map fun j => j.2.2.2) = ts.flatMap fun t => (List.range t.nproofs).map fun i => proofKey dir i := by
  rw [jobKeys]
  replace h := mapM_forall₂ h
  induction h with
  | nil => rfl
  | cons h _ ih =>
    rw [List.map_cons, List.flatMap_cons, List.flatMap_cons, ih]
    obtain ⟨h1, h2⟩ := new_nproofs h
    rw [loadedTarget]
    dsimp only
    rw [C83_one_name h, h1, List.take_of_length_le (by rw [h2]), h2]

/-- **C83**: the schema keys of what is loaded from a folder are different exactly if at most one circuit has proofs. -/
theorem C83_keys_iff {ts : List (TargetCircuit S)} {dir : String} {f : Folder} {cps : List CreateProof}
    (h : ts.mapM (fun t => CreateProof.new S t dir f) = some cps) :
    ((targetJobs (cps.map loadedTarget)).map fun j => j.2.2.2).Nodup ↔ ts.Pairwise fun a b => a.nproofs = 0 ∨ b.nproofs = 0 := by
  rw [loadedKeys h, List.nodup_flatMap]
  constructor
  · rintro ⟨-, hp⟩
    refine hp.imp fun {a b} hd => ?_
    by_contra hne
    push Not at hne
    exact hd (List.mem_map.2 ⟨0, List.mem_range.2 (Nat.pos_of_ne_zero hne.1), rfl⟩) (List.mem_map.2 ⟨0, List.mem_range.2 (Nat.pos_of_ne_zero hne.2), rfl⟩)
  · intro hp
    refine ⟨fun t _ => List.nodup_range.map fun i j hij => (proofKey_injective hij).2, hp.imp fun {a b} hd => ?_⟩
    rcases hd with hd | hd
    · simp [Function.onFun, hd]
    · simp [Function.onFun, hd]

/-- So they are for one circuit. Missing: several circuits with proofs, for which C83 is false (`C83_keys_iff`, `C83_wrong_pair`). -/
theorem C83_one_circuit_partial {t : TargetCircuit S} {dir : String} {f : Folder} {cp : CreateProof} (h : CreateProof.new S t dir f = some cp) :
    ((targetJobs [loadedTarget cp]).map fun j => j.2.2.2).Nodup := by
  have := (C83_keys_iff (S := S) (ts := [t]) (cps := [cp]) (dir := dir) (f := f) (by rw [List.mapM_cons, h]; rfl)).2 (List.pairwise_singleton _ _)
  exact this

/-! ### Two circuits whose proofs verify, but not together -/

namespace TinySynth
open Verif.Top.TinyContract

/-- The native verifier on the curve, from the one that uses numbers. -/
theorem final_pair {tsN : List (TargetOf N)} {l r : N} {is : List N} {cs : List (List N)}
    (h : aggregateTargets small TinyPoseidon.deaf smallEncode codecN tsN = some (l, r, is, cs)) :
    calcFinalPair TinyPoseidon.deaf codec (tsN.map (TargetOf.map toCurve)) = some (toCurve l, toCurve r, is) := by
  obtain ⟨⟨l', r', is', cs'⟩, h1, h2, h3, h4, h5⟩ := aggregateTargets_link (X := link) bytes (fun _ _ _ h => h) (fun _ => trivial) (map_zero toCurve)
    (fun _ _ => Checked.R.some rfl) (w := ()) tsN _ h
  have h2 : l' = toCurve l := h2
  have h3 : r' = toCurve r := h3
  have h4 : is' = is := Checked.eq_of h4
  have hid : (tsN.map (TargetOf.map toCurve)).map (TargetOf.map id) = tsN.map (TargetOf.map toCurve) :=
    (List.map_congr_left fun t _ => target_map_id t).trans (List.map_id _)
  obtain ⟨⟨l2, r2, is2, cs2⟩, k1, k2, k3, k4, k5⟩ := aggregateTargets_link (X := Guarded.native) (Guarded.nativeBytes TinyPoseidon.deaf codec) (fun _ _ _ h => h)
    (fun _ => trivial) rfl (fun _ _ => Checked.R.some rfl) (w := ()) (tsN.map (TargetOf.map toCurve)) _ h1
  rw [hid] at k1
  have k2 : l2 = l' := k2
  have k3 : r2 = r' := k3
  have k4 : is2 = is' := Checked.eq_of k4
  unfold calcFinalPair
  rw [k1, ← h2, ← h3, ← h4, ← k2, ← k3, ← k4]
  rfl

def proofA : List UInt8 := [1, 2, 3, 5, 3, 4, 6, 1, 2]
def proofB : List UInt8 := [1, 3, 2, 3, 1, 2, 3, 2, 1]

noncomputable def one (name : String) (i : N) (p : List UInt8) : Option (N × N × List N × List (List N)) :=
  aggregateTargets small TinyPoseidon.deaf smallEncode codecN [⟨name, vkN, [([[[i]]], p)], 1⟩]

noncomputable def two (a b : String) : Option (N × N × List N × List (List N)) :=
  aggregateTargets small TinyPoseidon.deaf smallEncode codecN [⟨a, vkN, [([[[4]]], proofA)], 1⟩, ⟨b, vkN, [([[[1]]], proofB)], 1⟩]

theorem one_A : one "dir" 4 proofA = some (1, -1, [4], [[1]]) := by
  apply eq_of_beq
  delta one aggregateTargets verifyAggregation verifyCircuit verifyProof verifyNoEval openParams queries proofQueries columnQuery xRotateOmega buildParams
    rotateOmega
  simp only [rotateBase_eq]
  decide +kernel

theorem one_B : one "dir" 1 proofB = some (2, -2, [1], [[1]]) := by
  apply eq_of_beq
  delta one aggregateTargets verifyAggregation verifyCircuit verifyProof verifyNoEval openParams queries proofQueries columnQuery xRotateOmega buildParams
    rotateOmega
  simp only [rotateBase_eq]
  decide +kernel

theorem two_same : two "dir" "dir" = some (1, 1, [4, 1], [[1], [1]]) := by
  apply eq_of_beq
  delta two aggregateTargets verifyAggregation verifyCircuit verifyProof verifyNoEval openParams queries proofQueries columnQuery xRotateOmega buildParams
    rotateOmega
  simp only [rotateBase_eq]
  decide +kernel

theorem two_names : two "a" "b" = some (2, -2, [4, 1], [[1], [1]]) := by
  apply eq_of_beq
  delta two aggregateTargets verifyAggregation verifyCircuit verifyProof verifyNoEval openParams queries proofQueries columnQuery xRotateOmega buildParams
    rotateOmega
  simp only [rotateBase_eq]
  decide +kernel

/-- A proving system with the key of the example. -/
noncomputable def tiny : System := { toy with vk := fun _ _ => vkN.map toCurve }

def target (name : String) : TargetCircuit tiny where
  k := 1
  publicInputSize := 1
  nproofs := 1
  name := name
  paramsName := "p"
  readable := true
  kind := true
  loadInstances := Top.loadInstances

/-- The files of both circuits. -/
def folder : Folder := fun n =>
  if n = "sample_circuit_p.params" then some [] else
  if n = "sample_circuit_p.vkey" then some [1] else
  if n = "sample_circuit_proof_a0.data" then some proofA else
  if n = "sample_circuit_instance_a0.data" then some (scalarBytes [4]) else
  if n = "sample_circuit_proof_b0.data" then some proofB else
  if n = "sample_circuit_instance_b0.data" then some (scalarBytes [1]) else none

theorem load_a : CreateProof.new tiny (target "a") "dir" folder = some ⟨"dir", vkN.map toCurve, [([[[4]]], proofA)], [([[[4]]], proofA)], 1⟩ := by
  have e : loadProofs tiny (target "a") folder = some [([[[4]]], proofA)] := by
    refine loadProofs_eq (is := fun _ => [[[4]]]) (pr := fun _ => proofA) ?_ ?_
    · intro i hi
      obtain rfl : i = 0 := Nat.lt_one_iff.1 hi
      exact C81_read_back_partial [4]
    · intro i hi
      obtain rfl : i = 0 := Nat.lt_one_iff.1 hi
      rfl
  unfold CreateProof.new
  rw [e]
  rfl

theorem load_b : CreateProof.new tiny (target "b") "dir" folder = some ⟨"dir", vkN.map toCurve, [([[[1]]], proofB)], [([[[1]]], proofB)], 1⟩ := by
  have e : loadProofs tiny (target "b") folder = some [([[[1]]], proofB)] := by
    refine loadProofs_eq (is := fun _ => [[[1]]]) (pr := fun _ => proofB) ?_ ?_
    · intro i hi
      obtain rfl : i = 0 := Nat.lt_one_iff.1 hi
      exact C81_read_back_partial [1]
    · intro i hi
      obtain rfl : i = 0 := Nat.lt_one_iff.1 hi
      rfl
  unfold CreateProof.new
  rw [e]
  rfl

/-- **C83** is false, with consequences for what is proved: two circuits are loaded from a folder. Alone, the proof of either is reduced to a pair with
`-l = r`, so it is valid for the secret `-1`. Together they are reduced to a pair with `l = r`, which does not verify. With different names they do. -/
theorem C83_wrong_pair : ∃ a b : CreateProof,
    CreateProof.new tiny (target "a") "dir" folder = some a ∧ CreateProof.new tiny (target "b") "dir" folder = some b ∧
    calcFinalPair TinyPoseidon.deaf codec [loadedTarget a] = some (gen, -gen, [4]) ∧
    calcFinalPair TinyPoseidon.deaf codec [loadedTarget b] = some ((2 : N) • gen, -((2 : N) • gen), [1]) ∧
    calcFinalPair TinyPoseidon.deaf codec [loadedTarget a, loadedTarget b] = some (gen, gen, [4, 1]) ∧ -gen ≠ gen ∧
    calcFinalPair TinyPoseidon.deaf codec [{loadedTarget a with name := "a"}, {loadedTarget b with name := "b"}] =
      some ((2 : N) • gen, -((2 : N) • gen), [4, 1]) := by
  refine ⟨_, _, load_a, load_b, ?_, ?_, ?_, ?_, ?_⟩
  · refine (final_pair one_A).trans ?_
    rw [map_neg, toCurve_one]
  · refine (final_pair one_B).trans ?_
    rw [map_neg, toCurve_apply]
  · refine (final_pair two_same).trans ?_
    rw [toCurve_one]
  · intro h
    rw [← toCurve_one, ← map_neg, ← sub_eq_zero, ← map_sub] at h
    exact toCurve_ne (by decide +kernel) h
  · refine (final_pair two_names).trans ?_
    rw [map_neg, toCurve_apply]

end TinySynth
end Verif.Top
