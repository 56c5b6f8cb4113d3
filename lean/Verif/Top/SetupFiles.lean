import Verif.Top.TinyRun

/-!
# What `verify_setup` leaves, and its cache of parameters: C94
-/

namespace Verif.Top
open Verif.Circuit Verif.Ecc Verif.Api Verif.Sol

variable (S : System) {rate : ℕ} (ps : PoseidonSpec N rate) (d : Codec N Pt)

/-- `get_params_cached`: verify_circuit.rs:701-732. `path` is the value of the environment variable, a name of the same file system. -/
def paramsCached (k : ℕ) (path : Option String) (r : S.Rand) (f : Folder) : Option (S.Params × Folder) :=
  match path with
  | none => some (S.unsafeSetup k r, f)
  | some p => match f.read p with
    | some b => (S.readParams b).map fun params => (params, f)
    | none => some (S.unsafeSetup k r, f.write p (S.writeParams (S.unsafeSetup k r)))

/-- `dispatch_verify_setup` with its cache: lib.rs:111-127, verify_circuit.rs:734-765. `env` is the environment variable `HALO2_PARAMS_k` for each `k`. -/
noncomputable def verifySetup (ts : List (TargetCircuit S)) (coherent : List ((ℕ × ℕ) × (ℕ × ℕ))) (dir : String) (k : ℕ) (env : ℕ → Option String) (r : S.Rand)
    (f : Folder) : Option Folder := do
  let setups ← ts.mapM fun t => Setup.new S t dir f
  let circuit ← setupCircuit ps d setups coherent
  let (params, f) ← paramsCached S k (env k) r f
  let vk ← S.keygenVerify params circuit
  let f := f.write "verify_circuit.params" (S.writeParams params)
  return f.write "verify_circuit.vkey" (S.writeKey vk)

/-- What is assumed of the serialisers. -/
structure System.VerifyLaws : Prop where
  readParams : ∀ p, S.readParams (S.writeParams p) = some p
  readVerifyKey : ∀ {p c k}, S.keygenVerify p c = some k → S.readVerifyKey (S.writeKey k) p = some k

variable {S ps d} {ts : List (TargetCircuit S)} {coherent : List ((ℕ × ℕ) × (ℕ × ℕ))} {dir : String} {k : ℕ} {env : ℕ → Option String} {r r' : S.Rand}

/-- Without the variable it is the setup with fresh parameters. -/
theorem verifySetup_uncached (h : env k = none) (f : Folder) :
    verifySetup S ps d ts coherent dir k env r f = dispatchVerifySetup S ps d ts coherent dir (S.unsafeSetup k r) f := by
  unfold verifySetup dispatchVerifySetup
  simp only [h]
  rfl

/-! ### Reading the target circuits from a folder that has more files -/

/-- The files of target circuits are not changed. -/
def Folder.Keeps (f f' : Folder) : Prop := ∀ n b, f.read ("sample_circuit_" ++ n) = some b → f'.read ("sample_circuit_" ++ n) = some b

theorem Folder.Keeps.refl (f : Folder) : f.Keeps f := fun _ _ h => h

theorem Folder.Keeps.trans {f g h : Folder} (a : f.Keeps g) (b : g.Keeps h) : f.Keeps h := fun n c e => b n c (a n c e)

theorem sample_ne {n m : String} : "sample_circuit_" ++ n ≠ "verify_circuit" ++ m := by
  intro h
  have := congrArg String.toList h
  rw [String.toList_append, String.toList_append] at this
  exact absurd (List.cons.inj this).1 (by decide)

theorem Folder.Keeps.verify (f : Folder) (m : String) (b : List UInt8) : f.Keeps (f.write ("verify_circuit" ++ m) b) := by
  intro n c h
  rw [Folder.read_write_ne _ sample_ne]
  exact h

theorem Folder.Keeps.new {f : Folder} {p : String} (h : f.read p = none) (b : List UInt8) : f.Keeps (f.write p b) := by
  intro n c hc
  rw [Folder.read_write_ne _ (fun e => by rw [e, h] at hc; cases hc)]
  exact hc

theorem keeps_params {f f' : Folder} (h : f.Keeps f') {n : String} {b : List UInt8} (e : f.read (paramsFile n) = some b) : f'.read (paramsFile n) = some b := by
  unfold paramsFile at *
  rw [String.append_assoc] at *
  exact h _ _ e

theorem keeps_vkey {f f' : Folder} (h : f.Keeps f') {n : String} {b : List UInt8} (e : f.read (vkeyFile n) = some b) : f'.read (vkeyFile n) = some b := by
  unfold vkeyFile at *
  rw [String.append_assoc] at *
  exact h _ _ e

theorem keeps_instance {f f' : Folder} (h : f.Keeps f') {n : String} {i : ℕ} {b : List UInt8} (e : f.read (instanceFile n i) = some b) :
    f'.read (instanceFile n i) = some b := by
  unfold instanceFile at *
  rw [show "sample_circuit_instance_" = "sample_circuit_" ++ "instance_" from rfl, String.append_assoc, String.append_assoc, String.append_assoc] at *
  exact h _ _ e

theorem keeps_proof {f f' : Folder} (h : f.Keeps f') {n : String} {i : ℕ} {b : List UInt8} (e : f.read (proofFile n i) = some b) :
    f'.read (proofFile n i) = some b := by
  unfold proofFile at *
  rw [show "sample_circuit_proof_" = "sample_circuit_" ++ "proof_" from rfl, String.append_assoc, String.append_assoc, String.append_assoc] at *
  exact h _ _ e

theorem mapM_mono {α β : Type} {f g : α → Option β} (h : ∀ a b, f a = some b → g a = some b) : ∀ {l : List α} {r : List β}, l.mapM f = some r → l.mapM g = some r
  | [], r, e => e
  | a :: l, r, e => by
    rw [List.mapM_cons] at e ⊢
    obtain ⟨b, e1, e⟩ := Option.bind_eq_some_iff.1 e
    obtain ⟨r', e2, e⟩ := Option.bind_eq_some_iff.1 e
    exact Option.bind_eq_some_iff.2 ⟨b, h a b e1, Option.bind_eq_some_iff.2 ⟨r', mapM_mono h e2, e⟩⟩

theorem loadProofs_keeps {f f' : Folder} (h : f.Keeps f') {t : TargetCircuit S} {l : List ProofPair} (e : loadProofs S t f = some l) : loadProofs S t f' = some l := by
  obtain ⟨a, e1, e⟩ := Option.bind_eq_some_iff.1 e
  obtain ⟨b, e2, e⟩ := Option.bind_eq_some_iff.1 e
  refine Option.bind_eq_some_iff.2 ⟨a, mapM_mono (fun i x hx => ?_) e1, Option.bind_eq_some_iff.2 ⟨b, mapM_mono (fun i x hx => keeps_proof h hx) e2, e⟩⟩
  obtain ⟨y, h1, h2⟩ := Option.bind_eq_some_iff.1 hx
  exact Option.bind_eq_some_iff.2 ⟨y, keeps_instance h h1, h2⟩

theorem loadTargetParams_keeps {f f' : Folder} (h : f.Keeps f') {t : TargetCircuit S} {p : S.Params} (e : loadTargetParams S t f = some p) :
    loadTargetParams S t f' = some p := by
  obtain ⟨b, e1, e⟩ := Option.bind_eq_some_iff.1 e
  exact Option.bind_eq_some_iff.2 ⟨b, keeps_params h e1, e⟩

theorem loadKey_keeps {f f' : Folder} (h : f.Keeps f') {t : TargetCircuit S} {v : VK N Pt} (e : loadKey S t f = some v) : loadKey S t f' = some v := by
  obtain ⟨p, e1, e⟩ := Option.bind_eq_some_iff.1 e
  obtain ⟨key, e2, e⟩ := Option.bind_eq_some_iff.1 e
  refine Option.bind_eq_some_iff.2 ⟨p, loadTargetParams_keeps h e1, Option.bind_eq_some_iff.2 ⟨key, ?_, e⟩⟩
  unfold loadTargetVk at *
  split at e2
  · rename_i hr
    rw [if_pos hr]
    obtain ⟨b, e3, e2⟩ := Option.bind_eq_some_iff.1 e2
    obtain ⟨q, e4, e2⟩ := Option.bind_eq_some_iff.1 e2
    exact Option.bind_eq_some_iff.2 ⟨b, keeps_vkey h e3, Option.bind_eq_some_iff.2 ⟨q, loadTargetParams_keeps h e4, e2⟩⟩
  · rename_i hr
    rw [if_neg hr]
    exact e2

theorem setup_keeps {f f' : Folder} (h : f.Keeps f') {t : TargetCircuit S} {s : Setup} (e : Setup.new S t dir f = some s) : Setup.new S t dir f' = some s := by
  obtain ⟨l, e1, e⟩ := Option.bind_eq_some_iff.1 e
  obtain ⟨v, e2, e⟩ := Option.bind_eq_some_iff.1 e
  exact Option.bind_eq_some_iff.2 ⟨l, loadProofs_keeps h e1, Option.bind_eq_some_iff.2 ⟨v, loadKey_keeps h e2, e⟩⟩

/-! ### What `verify_setup` leaves -/

/-- Parameters, key and circuit of a setup. -/
structure SetupFiles (S : System) (ps : PoseidonSpec N rate) (d : Codec N Pt) (ts : List (TargetCircuit S)) (coherent : List ((ℕ × ℕ) × (ℕ × ℕ))) (dir : String)
    (f f' : Folder) (params : S.Params) (vk : S.Key) : Prop where
  loaded : loadVerifyParams S f' = some params
  loadedKey : loadVerifyVk S f' = some vk
  keygen : ∃ setups circuit, ts.mapM (fun t => Setup.new S t dir f) = some setups ∧ setupCircuit ps d setups coherent = some circuit ∧
    S.keygenVerify params circuit = some vk
  /-- The target circuits can be loaded as before. -/
  keeps : ∀ t s, Setup.new S t dir f = some s → Setup.new S t dir f' = some s

theorem paramsCached_keeps {f g : Folder} {path : Option String} {params : S.Params} (h : paramsCached S k path r f = some (params, g)) : f.Keeps g := by
  unfold paramsCached at h
  split at h
  · cases h
    exact .refl f
  · split at h
    · obtain ⟨p, -, h⟩ := Option.map_eq_some_iff.1 h
      cases h
      exact .refl f
    · rename_i hr
      cases h
      exact .new hr _

/-- **C94.** What the next commands load is what `verify_setup` made: the parameters it took, and their key for the circuit that aggregates the files of the folder. -/
theorem C94_setup (hS : S.VerifyLaws) {f f' : Folder} (h : verifySetup S ps d ts coherent dir k env r f = some f') :
    ∃ params vk g, paramsCached S k (env k) r f = some (params, g) ∧ SetupFiles S ps d ts coherent dir f f' params vk := by
  obtain ⟨setups, h1, h⟩ := Option.bind_eq_some_iff.1 h
  obtain ⟨circuit, h2, h⟩ := Option.bind_eq_some_iff.1 h
  obtain ⟨⟨params, g⟩, h3, h⟩ := Option.bind_eq_some_iff.1 h
  obtain ⟨vk, h4, h⟩ := Option.bind_eq_some_iff.1 h
  cases h
  have hp : loadVerifyParams S ((Folder.write g "verify_circuit.params" (S.writeParams params)).write "verify_circuit.vkey" (S.writeKey vk)) = some params := by
    unfold loadVerifyParams
    rw [Folder.read_write_ne _ (by decide), Folder.read_write]
    exact hS.readParams _
  refine ⟨params, vk, g, h3, hp, ?_, ⟨setups, circuit, h1, h2, h4⟩, fun t s => setup_keeps ?_⟩
  · unfold loadVerifyVk
    rw [hp, Folder.read_write]
    exact hS.readVerifyKey h4
  · exact ((paramsCached_keeps h3).trans (.verify g ".params" _)).trans (.verify _ ".vkey" _)

/-- **C94.** `verify_run` proves with them, and `verify_check` checks with them. -/
theorem C94_run (hS : S.VerifyLaws) {f f1 f2 : Folder} (h1 : verifySetup S ps d ts coherent dir k env r f = some f1)
    (h2 : dispatchVerifyRun S ps d ts coherent dir r' f1 = some f2) :
    ∃ params vk c proof, SetupFiles S ps d ts coherent dir f f1 params vk ∧ RunFiles S ps d ts coherent dir r' f1 f2 params vk c proof ∧
      (dispatchVerifyCheck S f2 = some () ↔ S.checkVerify params vk [[c.instances]] proof = true) := by
  obtain ⟨params, vk, g, -, hs⟩ := C94_setup hS h1
  have hr := h2
  obtain ⟨cps, -, hr⟩ := Option.bind_eq_some_iff.1 hr
  obtain ⟨params', e1, hr⟩ := Option.bind_eq_some_iff.1 hr
  obtain ⟨vk', e2, hr⟩ := Option.bind_eq_some_iff.1 hr
  obtain ⟨c', -, hr⟩ := Option.bind_eq_some_iff.1 hr
  obtain ⟨proof', -, hr⟩ := Option.bind_eq_some_iff.1 hr
  obtain ⟨params2, vk2, c, proof, h⟩ := C84_run h2
  have a : loadVerifyParams S f2 = loadVerifyParams S f1 := by
    cases hr
    unfold loadVerifyParams
    rw [Folder.read_write_ne _ (by decide), Folder.read_write_ne _ (by decide), Folder.read_write_ne _ (by decide)]
  have b : loadVerifyVk S f2 = loadVerifyVk S f1 := by
    unfold loadVerifyVk
    rw [a]
    cases hr
    rw [Folder.read_write_ne _ (by decide), Folder.read_write_ne _ (by decide), Folder.read_write_ne _ (by decide)]
  rw [h.loaded, hs.loaded] at a
  rw [h.loadedKey, hs.loadedKey] at b
  cases a
  cases b
  exact ⟨_, _, c, proof, hs, h, C84_check h⟩

/-! ### Running `verify_setup` again -/

/-- A folder that has the files of a setup: possibly with more files, the cache and the target circuits as they were. -/
structure Folder.After (f1 g : Folder) (p : String) : Prop where
  params : g.read "verify_circuit.params" = f1.read "verify_circuit.params"
  vkey : g.read "verify_circuit.vkey" = f1.read "verify_circuit.vkey"
  cache : g.read p = f1.read p
  targets : f1.Keeps g

theorem write_same {f : Folder} {n : String} {b : List UInt8} (h : f.read n = some b) : f.write n b = f := by
  funext m
  unfold Folder.write
  split
  · rename_i e
    rw [e]
    exact h.symm
  · rfl

/-- **C94.** If the parameters are cached, `verify_setup` can be run again, with other randomness, and changes nothing. -/
theorem C94_again (hS : S.VerifyLaws) {p : String} (he : env k = some p) (hp : p ≠ "verify_circuit.vkey") {f f1 g : Folder}
    (h : verifySetup S ps d ts coherent dir k env r f = some f1) (hg : f1.After g p) : verifySetup S ps d ts coherent dir k env r' g = some g := by
  obtain ⟨setups, h1, h⟩ := Option.bind_eq_some_iff.1 h
  obtain ⟨circuit, h2, h⟩ := Option.bind_eq_some_iff.1 h
  obtain ⟨⟨params, f0⟩, h3, h⟩ := Option.bind_eq_some_iff.1 h
  obtain ⟨vk, h4, h⟩ := Option.bind_eq_some_iff.1 h
  have hk : f.Keeps f1 := by
    cases h
    exact ((paramsCached_keeps h3).trans (.verify f0 ".params" _)).trans (.verify _ ".vkey" _)
  have hc : ∃ b, f1.read p = some b ∧ S.readParams b = some params := by
    rw [he] at h3
    by_cases e : p = "verify_circuit.params"
    · cases h
      refine ⟨S.writeParams params, ?_, hS.readParams _⟩
      rw [Folder.read_write_ne _ hp, e, Folder.read_write]
    · have : f1.read p = f0.read p := by
        cases h
        rw [Folder.read_write_ne _ hp, Folder.read_write_ne _ e]
      rw [this]
      unfold paramsCached at h3
      dsimp only at h3
      split at h3
      · rename_i b hb
        obtain ⟨q, h5, h3⟩ := Option.map_eq_some_iff.1 h3
        cases h3
        exact ⟨b, hb, h5⟩
      · cases h3
        exact ⟨_, Folder.read_write _ _ _, hS.readParams _⟩
  obtain ⟨b, c1, c2⟩ := hc
  have e1 : f1.read "verify_circuit.params" = some (S.writeParams params) := by
    cases h
    rw [Folder.read_write_ne _ (by decide), Folder.read_write]
  have e2 : f1.read "verify_circuit.vkey" = some (S.writeKey vk) := by
    cases h
    rw [Folder.read_write]
  refine Option.bind_eq_some_iff.2 ⟨setups, mapM_mono (fun t s => setup_keeps (hk.trans hg.targets)) h1, Option.bind_eq_some_iff.2 ⟨circuit, h2,
    Option.bind_eq_some_iff.2 ⟨(params, g), ?_, Option.bind_eq_some_iff.2 ⟨vk, h4, ?_⟩⟩⟩⟩
  · rw [he]
    unfold paramsCached
    dsimp only
    rw [hg.cache, c1]
    dsimp only
    rw [c2]
    rfl
  · dsimp only
    rw [write_same (hg.params.trans e1), write_same (hg.vkey.trans e2)]
    rfl

/-- In particular after `verify_run`, if the cache is not one of the files that the commands write. -/
theorem C94_again_run (hS : S.VerifyLaws) {p : String} (he : env k = some p) (hp : p ∉ ["verify_circuit.vkey", "verify_circuit_instance.data",
    "verify_circuit_proof.data", "verify_circuit_final_pair.data"]) {f f1 f2 : Folder} {rand : S.Rand}
    (h1 : verifySetup S ps d ts coherent dir k env r f = some f1) (h2 : dispatchVerifyRun S ps d ts coherent dir rand f1 = some f2) :
    verifySetup S ps d ts coherent dir k env r' f2 = some f2 := by
  simp only [List.mem_cons, List.not_mem_nil, or_false, not_or] at hp
  refine C94_again hS he hp.1 h1 ?_
  obtain ⟨cps, -, hr⟩ := Option.bind_eq_some_iff.1 h2
  obtain ⟨params', e1, hr⟩ := Option.bind_eq_some_iff.1 hr
  obtain ⟨vk', e2, hr⟩ := Option.bind_eq_some_iff.1 hr
  obtain ⟨c', -, hr⟩ := Option.bind_eq_some_iff.1 hr
  obtain ⟨proof', -, hr⟩ := Option.bind_eq_some_iff.1 hr
  cases hr
  refine ⟨?_, ?_, ?_, ((Folder.Keeps.verify _ "_instance.data" _).trans (.verify _ "_proof.data" _)).trans (.verify _ "_final_pair.data" _)⟩
  · rw [Folder.read_write_ne _ (by decide), Folder.read_write_ne _ (by decide), Folder.read_write_ne _ (by decide)]
  · rw [Folder.read_write_ne _ (by decide), Folder.read_write_ne _ (by decide), Folder.read_write_ne _ (by decide)]
  · rw [Folder.read_write_ne _ hp.2.2.2, Folder.read_write_ne _ hp.2.2.1, Folder.read_write_ne _ hp.2.1]

/-- Without the variable, running `verify_setup` again draws new parameters, and the old proof is checked with these. -/
theorem C94_uncached (hS : S.VerifyLaws) (he : env k = none) {f f1 f2 f3 : Folder} {rand r'' : S.Rand}
    (_h1 : verifySetup S ps d ts coherent dir k env r f = some f1) (h2 : dispatchVerifyRun S ps d ts coherent dir rand f1 = some f2)
    (h3 : verifySetup S ps d ts coherent dir k env r'' f2 = some f3) :
    ∃ params vk vk' c proof, RunFiles S ps d ts coherent dir rand f1 f2 params vk c proof ∧ loadVerifyParams S f3 = some (S.unsafeSetup k r'') ∧
      (dispatchVerifyCheck S f3 = some () ↔ S.checkVerify (S.unsafeSetup k r'') vk' [[c.instances]] proof = true) := by
  obtain ⟨params, vk, c, proof, h⟩ := C84_run h2
  obtain ⟨params', vk', g, e, hs⟩ := C94_setup hS h3
  rw [he] at e
  cases e
  refine ⟨params, vk, vk', c, proof, h, hs.loaded, ?_⟩
  have hi : loadVerifyInstance f3 = loadVerifyInstance f2 ∧ loadVerifyProof f3 = loadVerifyProof f2 := by
    rw [verifySetup_uncached he] at h3
    obtain ⟨_, -, h3⟩ := Option.bind_eq_some_iff.1 h3
    obtain ⟨_, -, h3⟩ := Option.bind_eq_some_iff.1 h3
    obtain ⟨_, -, h3⟩ := Option.bind_eq_some_iff.1 h3
    cases h3
    unfold loadVerifyInstance loadVerifyProof
    rw [Folder.read_write_ne _ (by decide), Folder.read_write_ne _ (by decide), Folder.read_write_ne _ (by decide), Folder.read_write_ne _ (by decide)]
    exact ⟨rfl, rfl⟩
  unfold dispatchVerifyCheck
  rw [hs.loaded, hs.loadedKey, hi.1, hi.2, h.instances, h.loadedProof]
  show (if S.checkVerify _ vk' [[c.instances]] proof = true then some () else none) = some () ↔ _
  split <;> simp_all

/-- The file of the cache is used whatever the size it was made for. -/
theorem C94_other_size (hS : S.VerifyLaws) {p : String} {f g : Folder} {params : S.Params} (hf : f.read p = none) {k' : ℕ}
    (h : paramsCached S k (some p) r f = some (params, g)) : paramsCached S k' (some p) r' g = some (S.unsafeSetup k r, g) := by
  unfold paramsCached at h
  dsimp only at h
  rw [hf] at h
  cases h
  unfold paramsCached
  dsimp only
  rw [Folder.read_write]
  dsimp only
  rw [hS.readParams]
  rfl

/-! ### Example -/

namespace SetupRun

/-- Parameters are what was drawn; proofs are valid for the parameters `7`. -/
noncomputable def sys : System := { toy with
  Params := UInt8
  unsafeSetup := fun _ r => r
  writeParams := fun p => [p]
  readParams := fun b => some (b.headD 0)
  readKey := fun _ b _ => some (b == [1])
  keygenVk := fun c _ _ => some c
  prove := fun _ _ _ _ _ _ => none
  check := fun _ _ _ _ => true
  readVerifyKey := fun b _ => some (b == [1])
  keygenVerify := fun _ _ => some false
  proveVerify := fun p _ _ _ _ => some [p]
  checkVerify := fun p _ _ _ => p == 7
  vk := fun _ _ => TinySynth.vkN.map TinyContract.toCurve
  pairing := fun _ _ _ => True }

theorem laws : sys.VerifyLaws where
  readParams _ := rfl
  readVerifyKey h := by cases Option.some.inj h; rfl

def target : TargetCircuit sys where
  k := 1
  publicInputSize := 1
  nproofs := 1
  name := "a"
  paramsName := "p"
  readable := true
  kind := true
  loadInstances := Top.loadInstances

/-- After `sample_setup` and `sample_run`. -/
def folder : Folder := fun n =>
  if n = "sample_circuit_p.params" then some [] else
  if n = "sample_circuit_p.vkey" then some [1] else
  if n = "sample_circuit_proof_a0.data" then some TinyRun.proof else
  if n = "sample_circuit_instance_a0.data" then some (scalarBytes [5]) else none

noncomputable def setup : Setup := ⟨"dir", TinySynth.vkN.map TinyContract.toCurve, [([[[5]]], TinyRun.proof)], 1⟩

theorem proofs : loadProofs sys target folder = some [([[[5]]], TinyRun.proof)] := by
  refine loadProofs_eq (is := fun _ => [[[5]]]) (pr := fun _ => TinyRun.proof) ?_ ?_
  · intro i hi
    obtain rfl : i = 0 := Nat.lt_one_iff.1 hi
    exact C81_read_back_partial [5]
  · intro i hi
    obtain rfl : i = 0 := Nat.lt_one_iff.1 hi
    rfl

theorem load {f : Folder} (h : folder.Keeps f) : ([target].mapM fun t => Setup.new sys t "dir" f) = some [setup] := by
  refine mapM_mono (fun t s => setup_keeps h) ?_
  have : Setup.new sys target "dir" folder = some setup := by
    unfold Setup.new
    rw [proofs]
    rfl
  rw [List.mapM_cons, this]
  rfl

theorem loadRun {f : Folder} (h : folder.Keeps f) : ([target].mapM fun t => CreateProof.new sys t "dir" f) = some [TinyRun.loaded] := by
  have : CreateProof.new sys target "dir" f = some TinyRun.loaded := by
    unfold CreateProof.new
    rw [loadProofs_keeps h proofs, loadKey_keeps h (v := TinySynth.vkN.map TinyContract.toCurve) rfl]
    rfl
  rw [List.mapM_cons, this]
  rfl

theorem set {f g : Folder} (h : folder.Keeps f) {env : ℕ → Option String} {k : ℕ} {r p : UInt8} (hp : paramsCached sys k (env k) r f = some (p, g)) :
    verifySetup sys TinyPoseidon.deaf TinySynth.codec [target] [] "dir" k env r f =
      some ((g.write "verify_circuit.params" [p]).write "verify_circuit.vkey" [0]) :=
  Option.bind_eq_some_iff.2 ⟨_, load h, Option.bind_eq_some_iff.2 ⟨_, rfl, Option.bind_eq_some_iff.2 ⟨_, hp, rfl⟩⟩⟩

theorem run {f : Folder} (h : folder.Keeps f) {p : UInt8} (hp : loadVerifyParams sys f = some p) (hv : loadVerifyVk sys f = some false) :
    ∃ f', dispatchVerifyRun sys TinyPoseidon.deaf TinySynth.codec [target] [] "dir" (0 : UInt8) f = some f' :=
  ⟨_, Option.bind_eq_some_iff.2 ⟨_, loadRun h, Option.bind_eq_some_iff.2 ⟨_, hp, Option.bind_eq_some_iff.2 ⟨_, hv,
    Option.bind_eq_some_iff.2 ⟨_, TinyRun.creates, Option.bind_eq_some_iff.2 ⟨_, rfl, rfl⟩⟩⟩⟩⟩⟩

/-- With the cache: setup, run, a second setup with other randomness, and a check, which succeeds. -/
example : ∃ f1 f2 : Folder,
    verifySetup sys TinyPoseidon.deaf TinySynth.codec [target] [] "dir" 21 (fun _ => some "cache") (7 : UInt8) folder = some f1 ∧
    dispatchVerifyRun sys TinyPoseidon.deaf TinySynth.codec [target] [] "dir" (0 : UInt8) f1 = some f2 ∧
    verifySetup sys TinyPoseidon.deaf TinySynth.codec [target] [] "dir" 21 (fun _ => some "cache") (8 : UInt8) f2 = some f2 ∧
    dispatchVerifyCheck sys f2 = some () := by
  have h1 := set (f := folder) (.refl _) (env := fun _ => some "cache") (k := 21) (r := (7 : UInt8)) (p := 7) rfl
  obtain ⟨params, vk, g, e, hs⟩ := C94_setup laws h1
  have hv : vk = false := by
    obtain ⟨_, _, -, -, h⟩ := hs.keygen
    exact (Option.some.inj h).symm
  subst hv
  have e := congrArg Prod.fst (Option.some.inj (e.symm.trans (b := some ((7 : UInt8), _)) rfl))
  dsimp only at e
  subst e
  obtain ⟨f2, h2⟩ := run (((Folder.Keeps.new (f := folder) (p := "cache") (by decide) [7]).trans (.verify _ ".params" _)).trans (.verify _ ".vkey" _)) hs.loaded hs.loadedKey
  obtain ⟨params, vk, c, proof, hs', hr, hc⟩ := C94_run laws h1 h2
  have e := Option.some.inj (hs'.loaded.symm.trans hs.loaded)
  subst e
  exact ⟨_, f2, h1, h2, C94_again_run laws rfl (by decide) h1 h2, hc.2 rfl⟩

/-- Without it, the check fails after the second setup. -/
theorem C94_redrawn : ∃ f1 f2 f3 : Folder,
    verifySetup sys TinyPoseidon.deaf TinySynth.codec [target] [] "dir" 21 (fun _ => none) (7 : UInt8) folder = some f1 ∧
    dispatchVerifyRun sys TinyPoseidon.deaf TinySynth.codec [target] [] "dir" (0 : UInt8) f1 = some f2 ∧ dispatchVerifyCheck sys f2 = some () ∧
    verifySetup sys TinyPoseidon.deaf TinySynth.codec [target] [] "dir" 21 (fun _ => none) (8 : UInt8) f2 = some f3 ∧ dispatchVerifyCheck sys f3 = none := by
  have h1 := set (f := folder) (.refl _) (env := fun _ => none) (k := 21) (r := (7 : UInt8)) (p := 7) rfl
  have k1 := ((Folder.Keeps.verify folder ".params" [7]).trans (.verify _ ".vkey" [0]))
  obtain ⟨f2, h2⟩ := run k1 (p := 7) rfl rfl
  obtain ⟨params, vk, c, proof, hs, hr, hc⟩ := C94_run laws h1 h2
  have e : params = (7 : UInt8) := Option.some.inj (hs.loaded.symm.trans (b := some (7 : UInt8)) rfl)
  subst e
  have k2 : folder.Keeps f2 := by
    refine k1.trans ?_
    obtain ⟨cps, -, g⟩ := Option.bind_eq_some_iff.1 h2
    obtain ⟨params', e1, g⟩ := Option.bind_eq_some_iff.1 g
    obtain ⟨vk', e2, g⟩ := Option.bind_eq_some_iff.1 g
    obtain ⟨c', -, g⟩ := Option.bind_eq_some_iff.1 g
    obtain ⟨proof', -, g⟩ := Option.bind_eq_some_iff.1 g
    cases g
    exact ((Folder.Keeps.verify _ "_instance.data" _).trans (.verify _ "_proof.data" _)).trans (.verify _ "_final_pair.data" _)
  have h3 := set k2 (env := fun _ => none) (k := 21) (r := (8 : UInt8)) (p := 8) rfl
  obtain ⟨_, _, vk', c', proof', -, -, h4⟩ := C94_uncached laws rfl h1 h2 h3
  refine ⟨_, f2, _, h1, h2, hc.2 rfl, h3, ?_⟩
  cases hd : dispatchVerifyCheck sys _ with
  | none => rfl
  | some u => exact absurd (h4.1 hd) (by show ¬ ((8 : UInt8) == 7) = true; decide)

end SetupRun

end Verif.Top
