import Verif.Sol.Aggregate
import Verif.Sol.ContractTotal
import Verif.Sol.LinearScan
import Verif.Top.ContractVerify
import Verif.Top.Files

/-!
# The commands of the SDK

`halo2-snark-aggregator-sdk/src/lib.rs` (cited as `lib.rs`), with the functions of `fs.rs`, `sample_circuit.rs` and `verify_circuit.rs` they call.
A command takes a folder to a folder; `none` is a panic. What is drawn at random is an argument.

The proving system is a parameter (`System`), and so are the circuits that are aggregated.
-/

namespace Verif.Top
open Verif.Circuit Verif.Ecc Verif.Api Verif.Sol

/-- What is used of halo2_proofs. `Kind` are the types that implement `Circuit`, `Rand` what is drawn by a random generator. -/
structure System where
  Params : Type
  Key : Type
  Kind : Type
  Rand : Type
  Circuit : Kind → Type
  default : ∀ c, Circuit c
  /-- `ParamsKZG::unsafe_setup`. -/
  unsafeSetup : ℕ → Rand → Params
  writeParams : Params → List UInt8
  readParams : List UInt8 → Option Params
  writeKey : Key → List UInt8
  /-- `VerifyingKey::read`, which configures a circuit of the given type. -/
  readKey : Kind → List UInt8 → Params → Option Key
  keygenVk : ∀ c, Params → Circuit c → Option Key
  /-- `keygen_pk` and `create_proof` with `PoseidonWrite`, for one proof. -/
  prove : ∀ c, Params → Key → Circuit c → List (List N) → Rand → Option (List UInt8)
  /-- `verify_proof` with `PoseidonRead`. -/
  check : Params → Key → List (List N) → List UInt8 → Bool
  /-- The same for `Halo2VerifierCircuits`, whose transcript is `ShaWrite`. -/
  readVerifyKey : List UInt8 → Params → Option Key
  keygenVerify : Params → Build (List (AV N)) → Option Key
  proveVerify : Params → Key → Build (List (AV N)) → List N → Rand → Option (List UInt8)
  checkVerify : Params → Key → List (List (List N)) → List UInt8 → Bool
  /-- Key and parameters as the verifier uses them. -/
  vk : Params → Key → VK N Pt
  /-- The pairs of points for which the pairing with `s_g2` and `-g2` of the parameters is one. -/
  pairing : Params → Pt → Pt → Prop

/-- `TargetCircuit`: sample_circuit.rs:18-30, without `instance_builder`. -/
structure TargetCircuit (S : System) where
  k : ℕ
  publicInputSize : ℕ
  nproofs : ℕ
  name : String
  paramsName : String
  readable : Bool
  kind : S.Kind
  loadInstances : List UInt8 → Option (List (List (List N)))

/-- fs.rs:45, sample_circuit.rs:42. -/
def paramsFile (name : String) : String := "sample_circuit_" ++ name ++ ".params"

/-- fs.rs:63, sample_circuit.rs:49. -/
def vkeyFile (name : String) : String := "sample_circuit_" ++ name ++ ".vkey"

/-- fs.rs:91, sample_circuit.rs:98-102. -/
def instanceFile (name : String) (index : ℕ) : String := "sample_circuit_instance_" ++ name ++ toString index ++ ".data"

/-- fs.rs:101, sample_circuit.rs:87-91. -/
def proofFile (name : String) (index : ℕ) : String := "sample_circuit_proof_" ++ name ++ toString index ++ ".data"

variable (S : System)

/-! ### Target circuits -/

/-- `sample_circuit_setup`: sample_circuit.rs:32-54. -/
def sampleSetup (t : TargetCircuit S) (r : S.Rand) (f : Folder) : Option Folder := do
  let params := S.unsafeSetup t.k r
  let vk ← S.keygenVk t.kind params (S.default t.kind)
  let f := f.write (paramsFile t.paramsName) (S.writeParams params)
  return f.write (vkeyFile t.paramsName) (S.writeKey vk)

/-- `load_target_circuit_params`: fs.rs:40-57. -/
def loadTargetParams (t : TargetCircuit S) (f : Folder) : Option S.Params := do
  S.readParams (← f.read (paramsFile t.paramsName))

/-- `load_target_circuit_vk`: fs.rs:59-83. -/
def loadTargetVk (t : TargetCircuit S) (f : Folder) (params : S.Params) : Option S.Key :=
  if t.readable then do
    let b ← f.read (vkeyFile t.paramsName)
    S.readKey t.kind b (← loadTargetParams S t f)
  else S.keygenVk t.kind params (S.default t.kind)

/-- What `instance_builder` returns for a proof, and the randomness of the prover. -/
structure Draw (c : S.Kind) where
  circuit : S.Circuit c
  instances : List (List N)
  rand : S.Rand

/-- `sample_circuit_random_run`: sample_circuit.rs:56-124. -/
def sampleRun (t : TargetCircuit S) (draw : Draw S t.kind) (index : ℕ) (f : Folder) : Option Folder := do
  let params ← loadTargetParams S t f
  let vk ← if t.readable then loadTargetVk S t f params else S.keygenVk t.kind params draw.circuit
  let proof ← S.prove t.kind params vk draw.circuit draw.instances draw.rand
  let f := f.write (proofFile t.name index) proof
  let f := f.write (instanceFile t.name index) (columnBytes draw.instances)
  if S.check params vk draw.instances proof then some f else none

/-- A target circuit, and what is drawn for it. -/
structure Sample extends TargetCircuit S where
  setup : S.Rand
  draw : ℕ → Draw S kind

/-- `dispatch_sample_setup`: lib.rs:83-87. -/
def dispatchSampleSetup (l : List (Sample S)) (f : Folder) : Option Folder := l.foldlM (fun f a => sampleSetup S a.toTargetCircuit a.setup f) f

/-- `sample_run_one_circuit`: lib.rs:89-103. -/
def sampleRunOneCircuit (a : Sample S) (f : Folder) : Option Folder :=
  (List.range a.nproofs).foldlM (fun f i => sampleRun S a.toTargetCircuit (a.draw i) i f) f

/-- `dispatch_sample_run`: lib.rs:105-109. -/
def dispatchSampleRun (l : List (Sample S)) (f : Folder) : Option Folder := l.foldlM (fun f a => sampleRunOneCircuit S a f) f

/-! ### Loading what is aggregated -/

/-- The proofs with their instances: verify_circuit.rs:599-615 and 844-860. -/
def loadProofs (t : TargetCircuit S) (f : Folder) : Option (List ProofPair) := do
  let instances ← (List.range t.nproofs).mapM fun i => (f.read (instanceFile t.name i)).bind t.loadInstances
  let proofs ← (List.range t.nproofs).mapM fun i => f.read (proofFile t.name i)
  return instances.zip proofs

/-- Parameters and key: verify_circuit.rs:617-622 and 862-867. -/
def loadKey (t : TargetCircuit S) (f : Folder) : Option (VK N Pt) := do
  let params ← loadTargetParams S t f
  let vk ← loadTargetVk S t f params
  return S.vk params vk

/-- `Setup::new`: verify_circuit.rs:591-632. The name is the path of the folder. -/
def Setup.new (t : TargetCircuit S) (dir : String) (f : Folder) : Option Setup := do
  let proofs ← loadProofs S t f
  let vk ← loadKey S t f
  return ⟨dir, vk, proofs, t.nproofs⟩

/-- `CreateProof::new`: verify_circuit.rs:835-880. -/
def CreateProof.new (t : TargetCircuit S) (dir : String) (f : Folder) : Option CreateProof := do
  let proofs ← loadProofs S t f
  let vk ← loadKey S t f
  return ⟨dir, vk, proofs, proofs, t.nproofs⟩

/-! ### The aggregation circuit -/

/-- `compute_verify_public_input_size`: lib.rs:76-81. -/
def verifyPublicInputSize (ts : List (TargetCircuit S)) : ℕ := ts.foldl (fun n t => n + t.nproofs * t.publicInputSize) 4

variable {rate : ℕ} (ps : PoseidonSpec N rate) (d : Codec N Pt)

/-- `dispatch_verify_setup`: lib.rs:111-127, with the parameters of `get_params_cached`. -/
noncomputable def dispatchVerifySetup (ts : List (TargetCircuit S)) (coherent : List ((ℕ × ℕ) × (ℕ × ℕ))) (dir : String) (params : S.Params) (f : Folder) :
    Option Folder := do
  let setups ← ts.mapM fun t => Setup.new S t dir f
  let circuit ← setupCircuit ps d setups coherent
  let vk ← S.keygenVerify params circuit
  let f := f.write "verify_circuit.params" (S.writeParams params)
  return f.write "verify_circuit.vkey" (S.writeKey vk)

/-- `load_verify_circuit_params`: fs.rs:105-114. -/
def loadVerifyParams (f : Folder) : Option S.Params := do S.readParams (← f.read "verify_circuit.params")

/-- `load_verify_circuit_vk`: fs.rs:116-126. -/
def loadVerifyVk (f : Folder) : Option S.Key := do
  let b ← f.read "verify_circuit.vkey"
  S.readVerifyKey b (← loadVerifyParams S f)

/-- `load_verify_circuit_instance`: fs.rs:128-130, 144-147. -/
def loadVerifyInstance (f : Folder) : Option (List (List (List N))) := do Top.loadInstances (← f.read "verify_circuit_instance.data")

/-- `load_verify_circuit_proof`: fs.rs:149-151. -/
def loadVerifyProof (f : Folder) : Option (List UInt8) := f.read "verify_circuit_proof.data"

/-- `dispatch_verify_run`: lib.rs:129-148. -/
noncomputable def dispatchVerifyRun (ts : List (TargetCircuit S)) (coherent : List ((ℕ × ℕ) × (ℕ × ℕ))) (dir : String) (rand : S.Rand) (f : Folder) :
    Option Folder := do
  let cps ← ts.mapM fun t => CreateProof.new S t dir f
  let params ← loadVerifyParams S f
  let vk ← loadVerifyVk S f
  let c ← createProof ps d cps coherent
  let proof ← S.proveVerify params vk c.circuit c.instances rand
  let f := f.write "verify_circuit_instance.data" (scalarBytes c.instances)
  let f := f.write "verify_circuit_proof.data" proof
  return f.write "verify_circuit_final_pair.data" (finalPairBytes c.finalPair)

/-- `dispatch_verify_check`: lib.rs:150-155. The size of the public inputs is not used. -/
def dispatchVerifyCheck (f : Folder) : Option Unit := do
  let params ← loadVerifyParams S f
  let vk ← loadVerifyVk S f
  let instances ← loadVerifyInstance f
  let proof ← loadVerifyProof f
  if S.checkVerify params vk instances proof then some () else none

/-- The sample for which `MultiCircuitSolidityGenerate::call` records its statements: solidity/src/lib.rs:194-228. -/
noncomputable def verifyJob (K : Digest) (params : S.Params) (vk : S.Key) (instances : List (List (List N))) (proof : List UInt8) : Job rate :=
  ⟨K, ps, shaCodec, S.vk params vk, instances, proof⟩

/-- `dispatch_verify_solidity`: lib.rs:157-181, and `MultiCircuitSolidityGenerate::call`: solidity/src/lib.rs:185-310. The result is what the template
is filled with. Both pairings are those of the parameters of the aggregation circuit: lines 186-187 and 260-261. `ord` is the order of the sort in the
optimiser, `checks` says whether overflow is checked. -/
noncomputable def dispatchVerifySolidity (K : Digest) (ord : List Interval → List Interval) (checks : Bool) (ts : List (TargetCircuit S)) (f : Folder) :
    Option Verifier := do
  let _ ← ts.mapM fun t => loadKey S t f
  let params ← loadVerifyParams S f
  let vk ← loadVerifyVk S f
  let instances ← loadVerifyInstance f
  let proof ← loadVerifyProof f
  let (r, k) ← (verifyJob S ps K params vk instances proof).record.1 Ctx.new
  let p ← memoryOptimize ord (k.prog r.left r.right)
  let p ← Sol.aggregate checks p
  return ⟨p, k.inst, S.pairing params, S.pairing params⟩

end Verif.Top
