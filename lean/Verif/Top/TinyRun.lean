import Verif.Top.EndToEnd
import Verif.Top.SharedName
import Verif.Top.TinyContract

/-!
# A run of the commands, up to the contract

The target circuit is that of `TinySynth`, the aggregation circuit has the key of `TinyContract`.
-/

namespace Verif.Top.TinyRun
open Verif.Circuit Verif.Ecc Verif.Api Verif.Sol

/-- The proof of the target circuit. -/
def proof : List UInt8 := [1, 3, 2, 3, 1, 2, 3, 2, 1]

theorem one : TinySynth.one "dir" 5 proof = some (2, 2, [5], [[1]]) := by
  apply eq_of_beq
  delta TinySynth.one aggregateTargets verifyAggregation verifyCircuit verifyProof verifyNoEval openParams queries proofQueries columnQuery xRotateOmega buildParams
    rotateOmega
  simp only [TinyContract.rotateBase_eq]
  decide +kernel

/-- The instances for the pair of twice the generator. -/
def ins : List N :=
  [((pack (Small.coords 2).1 (Small.coords 2).2).1 : N), ((pack (Small.coords 2).1 (Small.coords 2).2).2 : N),
    ((pack (Small.coords 2).1 (Small.coords 2).2).1 : N), ((pack (Small.coords 2).1 (Small.coords 2).2).2 : N), 5]

def right : N := 16015482696660947935090524266026149609727199313121629028801018074578240162026

theorem run_ins : TinyContract.run TinyContract.nonzero ins = some ((6, right), 18) := by
  delta TinyContract.run TinyContract.runOf verifyNoEval openParams queries proofQueries columnQuery xRotateOmega buildParams rotateOmega
  simp only [TinyContract.rotateBase_eq]
  decide +kernel

/-- What native verification of the proof returns: one side with all points checked, as the generator needs, and one as the contract does. -/
theorem run_call : TinyContract.run (fun _ => true) ins = some ((6, right), 18) := by
  delta TinyContract.run TinyContract.runOf verifyNoEval openParams queries proofQueries columnQuery xRotateOmega buildParams rotateOmega
  simp only [TinyContract.rotateBase_eq]
  decide +kernel

theorem pack_ins : packPoints ((2 : N) • gen) ((2 : N) • gen) ++ [5] = ins := by
  have e : (2 : N) • gen = 2 • gen := by rw [← Nat.cast_smul_eq_nsmul N]; rfl
  obtain ⟨hx, hy⟩ := Small.coords_eq (k := 2) (by norm_num) (by norm_num)
  unfold packPoints ins
  rw [e, hx, hy]
  rfl

/-- The secret for which the proof of the aggregation circuit is valid. -/
def trapdoor : N := right * TinyContract.inv 6

theorem trapdoor_mul : trapdoor * 6 = right := by decide +kernel

theorem trapdoor_ne : trapdoor ≠ 1 := by decide +kernel

/-- A proving system with both keys, and with a pairing. All proofs of the aggregation circuit are `pf`. -/
noncomputable def sysOf (key : VK N N) (pf : List UInt8) (e : Pt → Pt → Prop) : System := { toy with
  vk := fun _ k => match (k : Bool) with
    | true => TinySynth.vkN.map TinyContract.toCurve
    | false => key.map TinyContract.toCurve
  proveVerify := fun _ _ _ _ _ => some pf
  pairing := fun _ => e }

def targetOf (key : VK N N) (pf : List UInt8) (e : Pt → Pt → Prop) : TargetCircuit (sysOf key pf e) where
  k := 1
  publicInputSize := 1
  nproofs := 1
  name := "a"
  paramsName := "p"
  readable := true
  kind := true
  loadInstances := Top.loadInstances

noncomputable abbrev sys := sysOf TinyContract.vkN TinyContract.bytes
abbrev target := targetOf TinyContract.vkN TinyContract.bytes

/-- After `sample_setup`, `sample_run` and `verify_setup`. -/
def folder : Folder := fun n =>
  if n = "sample_circuit_p.params" then some [] else
  if n = "sample_circuit_p.vkey" then some [1] else
  if n = "sample_circuit_proof_a0.data" then some proof else
  if n = "sample_circuit_instance_a0.data" then some (scalarBytes [5]) else
  if n = "verify_circuit.params" then some [] else
  if n = "verify_circuit.vkey" then some [0] else none

variable (key : VK N N) (pf : List UInt8) (e : Pt → Pt → Prop)

noncomputable def loaded : CreateProof := ⟨"dir", TinySynth.vkN.map TinyContract.toCurve, [([[[5]]], proof)], [([[[5]]], proof)], 1⟩

theorem loadOf : CreateProof.new (sysOf key pf e) (targetOf key pf e) "dir" folder = some loaded := by
  have h : loadProofs (sysOf key pf e) (targetOf key pf e) folder = some [([[[5]]], proof)] := by
    refine loadProofs_eq (is := fun _ => [[[5]]]) (pr := fun _ => proof) ?_ ?_
    · intro i hi
      obtain rfl : i = 0 := Nat.lt_one_iff.1 hi
      exact C81_read_back_partial [5]
    · intro i hi
      obtain rfl : i = 0 := Nat.lt_one_iff.1 hi
      rfl
  unfold CreateProof.new
  rw [h]
  rfl

theorem load : CreateProof.new (sys e) (target e) "dir" folder = some loaded := loadOf _ _ e

noncomputable def created : Created := ⟨synthesize TinyPoseidon.deaf TinySynth.codec [⟨"dir", TinySynth.vkN.map TinyContract.toCurve, [([[[5]]], proof)], 1⟩] [],
  ((2 : N) • gen, (2 : N) • gen, [5]), ins⟩

theorem pair : calcFinalPair TinyPoseidon.deaf TinySynth.codec [⟨"dir", TinySynth.vkN.map TinyContract.toCurve, [([[[5]]], proof)], 1⟩] =
    some ((2 : N) • gen, (2 : N) • gen, [5]) := by
  refine (TinySynth.final_pair one).trans ?_
  rw [TinyContract.toCurve_apply]

theorem two_ne : (2 : N) • gen ≠ 0 := by
  rw [← TinyContract.toCurve_apply]
  exact TinyContract.toCurve_ne (by decide +kernel)

theorem creates : createProof TinyPoseidon.deaf TinySynth.codec [loaded] [] = some created := by
  have hp : pairToInstances ((2 : N) • gen) ((2 : N) • gen) [5] = some ins := by rw [C48_native two_ne two_ne, pack_ins]
  exact Created.intro rfl pair hp

/-- What `verify_run` leaves. -/
noncomputable def afterOf (pf : List UInt8) : Folder := ((folder.write "verify_circuit_instance.data" (scalarBytes created.instances)).write "verify_circuit_proof.data" pf).write
  "verify_circuit_final_pair.data" (finalPairBytes created.finalPair)

theorem verify_runOf : dispatchVerifyRun (sysOf key pf e) TinyPoseidon.deaf TinySynth.codec [targetOf key pf e] [] "dir" (0 : UInt8) folder = some (afterOf pf) := by
  have h : ([targetOf key pf e].mapM fun t => CreateProof.new (sysOf key pf e) t "dir" folder) = some [loaded] := by
    rw [List.mapM_cons, loadOf]
    rfl
  exact Option.bind_eq_some_iff.2 ⟨[loaded], h, Option.bind_eq_some_iff.2 ⟨(), rfl, Option.bind_eq_some_iff.2 ⟨false, rfl,
    Option.bind_eq_some_iff.2 ⟨created, creates, Option.bind_eq_some_iff.2 ⟨_, rfl, rfl⟩⟩⟩⟩⟩

theorem filesOf : RunFiles (sysOf key pf e) TinyPoseidon.deaf TinySynth.codec [targetOf key pf e] [] "dir" (0 : UInt8) folder (afterOf pf) () false created pf := by
  obtain ⟨params, vk, c, proof, h⟩ := C84_run (verify_runOf key pf e)
  obtain ⟨cps, h1, h2⟩ := h.created
  have h3 : ([targetOf key pf e].mapM fun t => CreateProof.new (sysOf key pf e) t "dir" folder) = some [loaded] := by
    rw [List.mapM_cons, loadOf]
    rfl
  obtain rfl : cps = [loaded] := Option.some.inj (h1.symm.trans h3)
  obtain rfl : c = created := Option.some.inj (h2.symm.trans creates)
  obtain rfl : pf = proof := Option.some.inj h.proved
  obtain rfl : params = () := rfl
  have hk : vk = false := Option.some.inj (h.loadedKey.symm.trans rfl)
  subst hk
  exact h

noncomputable abbrev after : Folder := afterOf TinyContract.bytes

theorem verify_run : dispatchVerifyRun (sys e) TinyPoseidon.deaf TinySynth.codec [target e] [] "dir" (0 : UInt8) folder = some after := verify_runOf _ _ e

theorem files : RunFiles (sys e) TinyPoseidon.deaf TinySynth.codec [target e] [] "dir" (0 : UInt8) folder after () false created TinyContract.bytes := filesOf _ _ e

/-- Native verification of the proof. -/
theorem native : Sol.native (fun _ => true) proper TinyContract.digest shaCodec ((sys e).vk () false) [[created.instances]] TinyContract.bytes =
    some ((6 : N) • gen, right • gen) := TinyContract.native_of (fun _ _ => rfl) (fun _ => TinyContract.proper_of) run_call

/-- `verify_solidity` records a contract. -/
theorem records : ∃ V, recordSolidity (sys e) TinyPoseidon.deaf TinyContract.digest [target e] after = some V ∧ 32 * (V.prog.absorbingLength + 1) ≤ 2 ^ 32 := by
  obtain ⟨i, v, h1, h2, h3, h4⟩ := TinyContract.parts (res' := proper) (arg' := fun _ => true) (fun _ => TinyContract.proper_of) (fun _ _ => rfl) TinyContract.bytes_words run_ins
  obtain ⟨rec, k, g1, -, -, g4⟩ := generates_parts
    (j := verifyJob (sys e) TinyPoseidon.deaf TinyContract.digest () false [[created.instances]] TinyContract.bytes) TinyPoseidon.deaf_wf h1 h2 h3
  refine ⟨⟨k.prog rec.left rec.right, k.inst, e, e⟩, ?_, ?_⟩
  · exact records_after (files e) (ks := [TinySynth.vkN.map TinyContract.toCurve]) rfl g1
  · have hb := TinyContract.Linked.bound (Job.ran g1).at'.linked
    have hl : List.length (α := Event PVal SVal) rec.reader.trace = 18 := g4.trans h4
    rw [hl] at hb
    show 32 * (max k.absorbing k.maxAbsorbing + 1) ≤ 2 ^ 32
    omega

/-- The hypotheses of C86 are met. With a pairing that holds for both pairs the files are accepted. -/
theorem accepted : ∃ V, recordSolidity (sys fun l r => l = r ∨ l = (6 : N) • gen) TinyPoseidon.deaf TinyContract.digest [target _] after = some V ∧
    V.verify TinyContract.digest (bufferToUint256LE TinyContract.bytes) (bufferToUint256LE (finalPairBytes created.finalPair)) = some () := by
  obtain ⟨V, h1, h2⟩ := records fun l r => l = r ∨ l = (6 : N) • gen
  exact ⟨V, h1, (C86_recorded (files _) h1 h2 (native _)).2 ⟨Or.inr rfl, Or.inl rfl⟩⟩

/-- **C85** is false. The proof of the aggregation circuit is valid for its secret, and the final pair is valid for the secret 1 of the target circuit.
The contract rejects them, as it checks the final pair with the secret of the aggregation circuit. -/
theorem C85_false : ∃ (S : System) (secret : S.Params → N) (ts : List (TargetCircuit S)) (f f' : Folder) (rand : S.Rand) (params : S.Params) (vk : S.Key)
    (c : Created) (proof : List UInt8) (V : Verifier) (l r : Pt), Secret S secret ∧
    dispatchVerifyRun S TinyPoseidon.deaf TinySynth.codec ts [] "dir" rand f = some f' ∧
    RunFiles S TinyPoseidon.deaf TinySynth.codec ts [] "dir" rand f f' params vk c proof ∧
    recordSolidity S TinyPoseidon.deaf TinyContract.digest ts f' = some V ∧
    Sol.native (fun _ => true) proper TinyContract.digest shaCodec (S.vk params vk) [[c.instances]] proof = some (l, r) ∧ S.pairing params l r ∧
    (1 : N) • c.finalPair.1 = c.finalPair.2.1 ∧
    V.verify TinyContract.digest (bufferToUint256LE proof) (bufferToUint256LE (finalPairBytes c.finalPair)) = none := by
  obtain ⟨V, h1, h2⟩ := records fun l r => trapdoor • l = r
  have hs : Secret (sys fun l r => trapdoor • l = r) fun _ => trapdoor := fun _ _ _ => Iff.rfl
  have ht : (1 : N) • created.finalPair.1 = created.finalPair.2.1 := one_smul ..
  refine ⟨_, fun _ => trapdoor, [target _], folder, after, (0 : UInt8), (), false, created, _, V, _, _, hs, verify_run _, files _, h1, native _, ?_, ht, ?_⟩
  · show trapdoor • (6 : N) • gen = right • gen
    rw [← mul_smul, trapdoor_mul]
  · rw [Option.eq_none_iff_forall_not_mem]
    exact fun u hu => trapdoor_ne ((C85_accepts_iff (files _) h1 h2 (native _) hs ht).1 hu).2

end Verif.Top.TinyRun
