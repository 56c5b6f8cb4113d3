import Verif.Sol.Parsed
import Verif.Top.ContractAccepts
import Verif.Top.CommandProps

/-!
# From the files to the contract: C84, C86
-/

namespace Verif.Top
open Verif.Circuit Verif.Ecc Verif.Api Verif.Sol

/-! ### The size of the instances -/

theorem gen_mapM' {α β : Type} {f : α → Gen β} {Q : α → β → Prop} (hf : ∀ a k b k', (f a).1 k = some (b, k') → Q a b) : ∀ {l : List α} {r : List β} {k k' : Ctx},
    (show Gen (List β) from Api.mapM' genChip f l).1 k = some (r, k') → List.Forall₂ Q l r
  | [], r, k, k', h => by
    obtain ⟨rfl, rfl⟩ := Gen.pure_some h
    exact .nil
  | a :: l, r, k, k', h => by
    obtain ⟨b, k1, h1, h⟩ := Gen.bind_some h
    obtain ⟨r', k2, h2, h⟩ := Gen.bind_some h
    obtain ⟨rfl, rfl⟩ := Gen.pure_some h
    exact .cons (hf a _ _ _ h1) (gen_mapM' hf h2)

theorem flatten_length {α β : Type} {l : List (List α)} {l' : List (List β)} (h : List.Forall₂ (fun a b => a.length = b.length) l l') :
    l.flatten.length = l'.flatten.length := by
  induction h with
  | nil => rfl
  | cons h _ ih => rw [List.flatten_cons, List.flatten_cons, List.length_append, List.length_append, h, ih]

/-- `instance_size` of the contract is the number of instances of the sample. -/
theorem instanceSize_eq {rate : ℕ} {j : Job rate} {r : Recording j} {k : Ctx} (h : j.record.1 Ctx.new = some (r, k)) :
    k.inst = j.instances.flatten.flatten.length := by
  rw [(Job.ran h).inst]
  obtain ⟨sp, k1, h1, h⟩ := Gen.bind_some h
  obtain ⟨u, k2, h2, h⟩ := Gen.bind_some h
  obtain ⟨i, k3, h3, h⟩ := Gen.bind_some h
  obtain ⟨u', k4, h4, h⟩ := Gen.bind_some h
  obtain ⟨v, k5, h5, h⟩ := Gen.bind_some h
  obtain ⟨e, k6, h6, h⟩ := Gen.bind_some h
  obtain ⟨rfl, rfl⟩ := Gen.pure_some h
  unfold Api.assignInstanceCommitment at h3
  split at h3
  · obtain ⟨as, k1, g1, h3⟩ := Gen.bind_some h3
    obtain ⟨cs, k2, g2, h3⟩ := Gen.bind_some h3
    obtain ⟨rfl, rfl⟩ := Gen.pure_some h3
    have col : ∀ (a : List N) (k : Ctx) (b : List SVal) (k' : Ctx), (show Gen (List SVal) from Api.assignColumn (c := genChip) j.vk a).1 k = some (b, k') → a.length = b.length := by
      intro a k b k' hb
      unfold Api.assignColumn at hb
      split at hb
      · exact (gen_mapM' (Q := fun _ _ => True) (fun _ _ _ _ _ => trivial) hb).length_eq
      · cases hb
    have row : List.Forall₂ (fun (a : List (List N)) (b : List (List SVal)) => a.flatten.length = b.flatten.length) j.instances as :=
      gen_mapM' (fun a k b k' hb => flatten_length (gen_mapM' col hb)) g1
    have := flatten_length (l := j.instances.map List.flatten) (l' := as.map List.flatten) (by
      rw [List.forall₂_map_left_iff, List.forall₂_map_right_iff]
      exact row)
    rw [List.flatten_flatten, List.flatten_flatten]
    exact this.symm
  · cases h3

/-! ### The files of the aggregation circuit -/

variable {S : System} {rate : ℕ} {ps : PoseidonSpec N rate} {d : Codec N Pt}

/-- What `verify_run` leaves in the folder. -/
structure RunFiles (S : System) (ps : PoseidonSpec N rate) (d : Codec N Pt) (ts : List (TargetCircuit S)) (coherent : List ((ℕ × ℕ) × (ℕ × ℕ))) (dir : String)
    (rand : S.Rand) (f f' : Folder) (params : S.Params) (vk : S.Key) (c : Created) (proof : List UInt8) : Prop where
  loaded : loadVerifyParams S f' = some params
  loadedKey : loadVerifyVk S f' = some vk
  created : ∃ cps, ts.mapM (fun t => CreateProof.new S t dir f) = some cps ∧ createProof ps d cps coherent = some c
  proved : S.proveVerify params vk c.circuit c.instances rand = some proof
  instances : loadVerifyInstance f' = some [[c.instances]]
  loadedProof : loadVerifyProof f' = some proof
  pair : f'.read "verify_circuit_final_pair.data" = some (finalPairBytes c.finalPair)

/-- **C84**: what the next commands read after `verify_run` is what was proved. -/
theorem C84_run {ts : List (TargetCircuit S)} {coherent : List ((ℕ × ℕ) × (ℕ × ℕ))} {dir : String} {rand : S.Rand} {f f' : Folder}
    (h : dispatchVerifyRun S ps d ts coherent dir rand f = some f') : ∃ params vk c proof, RunFiles S ps d ts coherent dir rand f f' params vk c proof := by
  obtain ⟨cps, h1, h⟩ := Option.bind_eq_some_iff.1 h
  obtain ⟨params, h2, h⟩ := Option.bind_eq_some_iff.1 h
  obtain ⟨vk, h3, h⟩ := Option.bind_eq_some_iff.1 h
  obtain ⟨c, h4, h⟩ := Option.bind_eq_some_iff.1 h
  obtain ⟨proof, h5, h⟩ := Option.bind_eq_some_iff.1 h
  cases h
  have hp : loadVerifyParams S (((f.write "verify_circuit_instance.data" (scalarBytes c.instances)).write "verify_circuit_proof.data" proof).write
      "verify_circuit_final_pair.data" (finalPairBytes c.finalPair)) = some params := by
    rw [← h2]
    unfold loadVerifyParams
    rw [Folder.read_write_ne _ (by decide), Folder.read_write_ne _ (by decide), Folder.read_write_ne _ (by decide)]
  refine ⟨params, vk, c, proof, hp, ?_, ⟨cps, h1, h4⟩, h5, ?_, ?_, Folder.read_write _ _ _⟩
  · rw [← h3]
    unfold loadVerifyVk
    rw [hp, h2, Folder.read_write_ne _ (by decide), Folder.read_write_ne _ (by decide), Folder.read_write_ne _ (by decide)]
  · unfold loadVerifyInstance
    rw [Folder.read_write_ne _ (by decide), Folder.read_write_ne _ (by decide), Folder.read_write]
    exact C81_read_back_partial _
  · unfold loadVerifyProof
    rw [Folder.read_write_ne _ (by decide), Folder.read_write]

/-- So `verify_check` checks the proof for the instances of the final pair. -/
theorem C84_check {ts : List (TargetCircuit S)} {coherent : List ((ℕ × ℕ) × (ℕ × ℕ))} {dir : String} {rand : S.Rand} {f f' : Folder} {params : S.Params} {vk : S.Key}
    {c : Created} {proof : List UInt8} (h : RunFiles S ps d ts coherent dir rand f f' params vk c proof) :
    dispatchVerifyCheck S f' = some () ↔ S.checkVerify params vk [[c.instances]] proof = true := by
  unfold dispatchVerifyCheck
  rw [h.loaded, h.loadedKey, h.instances, h.loadedProof]
  show (if S.checkVerify params vk [[c.instances]] proof = true then some () else none) = some () ↔ _
  split <;> simp_all

theorem Created.intro {cps : List CreateProof} {coherent : List ((ℕ × ℕ) × (ℕ × ℕ))} {ts : List Target} {P Q : Pt} {is is' : List N}
    (h1 : (cps.map fun cp => (⟨cp.name, cp.vk, cp.templateProofs, cp.nproofs⟩ : Setup)).mapM (setupOutcome false) = some ts)
    (h2 : calcFinalPair ps d ts = some (P, Q, is)) (h3 : pairToInstances P Q is = some is') :
    createProof ps d cps coherent = some ⟨synthesize ps d ts coherent, (P, Q, is), is'⟩ := by
  unfold createProof
  simp only [h1, h2, h3, Option.bind_eq_bind, Option.bind_some]
  rfl

/-- The pair is not the identity, and the instances are made from it. -/
theorem Created.pack {cps : List CreateProof} {coherent : List ((ℕ × ℕ) × (ℕ × ℕ))} {c : Created} (h : createProof ps d cps coherent = some c) :
    c.instances = packPoints c.finalPair.1 c.finalPair.2.1 ++ c.finalPair.2.2 := by
  obtain ⟨ts, -, h⟩ := Option.bind_eq_some_iff.1 h
  obtain ⟨pair, -, h⟩ := Option.bind_eq_some_iff.1 h
  obtain ⟨is, h1, h⟩ := Option.bind_eq_some_iff.1 h
  cases h
  have hP : pair.1 ≠ 0 ∧ pair.2.1 ≠ 0 := by
    by_contra hc
    rw [C48_native_identity (by tauto)] at h1
    cases h1
  rw [C48_native hP.1 hP.2] at h1
  exact (Option.some.inj h1).symm

theorem Created.ne_zero {cps : List CreateProof} {coherent : List ((ℕ × ℕ) × (ℕ × ℕ))} {c : Created} (h : createProof ps d cps coherent = some c) :
    c.finalPair.1 ≠ 0 ∧ c.finalPair.2.1 ≠ 0 := by
  obtain ⟨ts, -, h⟩ := Option.bind_eq_some_iff.1 h
  obtain ⟨pair, -, h⟩ := Option.bind_eq_some_iff.1 h
  obtain ⟨is, h1, h⟩ := Option.bind_eq_some_iff.1 h
  cases h
  by_contra hc
  rw [C48_native_identity (by tauto)] at h1
  cases h1

/-! ### The contract -/

/-- What `MultiCircuitSolidityGenerate::call` records: `dispatchVerifySolidity` without the optimiser. -/
noncomputable def recordSolidity (S : System) {rate : ℕ} (ps : PoseidonSpec N rate) (K : Digest) (ts : List (TargetCircuit S)) (f : Folder) : Option Verifier := do
  let _ ← ts.mapM fun t => loadKey S t f
  let params ← loadVerifyParams S f
  let vk ← loadVerifyVk S f
  let instances ← loadVerifyInstance f
  let proof ← loadVerifyProof f
  let (r, k) ← (verifyJob S ps K params vk instances proof).record.1 Ctx.new
  return ⟨k.prog r.left r.right, k.inst, S.pairing params, S.pairing params⟩

/-- The optimiser only changes the statements. -/
theorem solidity_recorded {K : Digest} {ord : List Interval → List Interval} {checks : Bool} {ts : List (TargetCircuit S)} {f : Folder} {V : Verifier} :
    dispatchVerifySolidity S ps K ord checks ts f = some V ↔ ∃ V' q, recordSolidity S ps K ts f = some V' ∧ memoryOptimize ord V'.prog = some q ∧
      Sol.aggregate checks q = some V.prog ∧ V.instanceSize = V'.instanceSize ∧ V.verifyCircuit = V'.verifyCircuit ∧ V.targetCircuit = V'.targetCircuit := by
  unfold dispatchVerifySolidity recordSolidity
  simp only [Option.bind_eq_bind, Option.bind_eq_some_iff, Option.pure_def, Option.some.injEq]
  constructor
  · rintro ⟨a, h1, b, h2, c, h3, d, h4, e, h5, x, h6, q, h7, R, h8, rfl⟩
    exact ⟨_, q, ⟨a, h1, b, h2, c, h3, d, h4, e, h5, x, h6, rfl⟩, h7, h8, rfl, rfl, rfl⟩
  · rintro ⟨V', q, ⟨a, h1, b, h2, c, h3, d, h4, e, h5, x, h6, rfl⟩, h7, h8, h9, h10, h11⟩
    refine ⟨a, h1, b, h2, c, h3, d, h4, e, h5, x, h6, q, h7, V.prog, h8, ?_⟩
    cases V
    simp only at h9 h10 h11
    subst h9 h10 h11
    rfl

/-- What the contract is made of after `verify_run`. -/
theorem recorded_after {ts : List (TargetCircuit S)} {coherent : List ((ℕ × ℕ) × (ℕ × ℕ))} {dir : String} {rand : S.Rand} {f f' : Folder} {params : S.Params}
    {vk : S.Key} {c : Created} {proof : List UInt8} (h : RunFiles S ps d ts coherent dir rand f f' params vk c proof) {D : Digest} {V : Verifier}
    (hV : recordSolidity S ps D ts f' = some V) : (verifyJob S ps D params vk [[c.instances]] proof).generate = some V.prog ∧
      V.instanceSize = 4 + c.finalPair.2.2.length ∧ V.verifyCircuit = S.pairing params ∧ V.targetCircuit = S.pairing params := by
  obtain ⟨ks, -, hV⟩ := Option.bind_eq_some_iff.1 hV
  obtain ⟨params', e1, hV⟩ := Option.bind_eq_some_iff.1 hV
  rw [h.loaded] at e1
  cases e1
  obtain ⟨vk', e2, hV⟩ := Option.bind_eq_some_iff.1 hV
  rw [h.loadedKey] at e2
  cases e2
  obtain ⟨is, e3, hV⟩ := Option.bind_eq_some_iff.1 hV
  rw [h.instances] at e3
  cases e3
  obtain ⟨pr, e4, hV⟩ := Option.bind_eq_some_iff.1 hV
  rw [h.loadedProof] at e4
  cases e4
  obtain ⟨⟨rec, k⟩, e5, hV⟩ := Option.bind_eq_some_iff.1 hV
  cases hV
  refine ⟨?_, ?_, rfl, rfl⟩
  · unfold Job.generate
    rw [e5]
    rfl
  · obtain ⟨cps, -, hc⟩ := h.created
    show k.inst = _
    rw [instanceSize_eq e5]
    show (List.flatten (List.flatten [[c.instances]])).length = _
    simp only [List.flatten_cons, List.flatten_nil, List.append_nil]
    rw [Created.pack hc, List.length_append]
    rfl

/-- `verify_solidity` does not panic after `verify_run` if the keys can be loaded and the generator does not panic. -/
theorem records_after {ts : List (TargetCircuit S)} {coherent : List ((ℕ × ℕ) × (ℕ × ℕ))} {dir : String} {rand : S.Rand} {f f' : Folder} {params : S.Params}
    {vk : S.Key} {c : Created} {proof : List UInt8} (h : RunFiles S ps d ts coherent dir rand f f' params vk c proof) {D : Digest} {ks : List (VK N Pt)}
    (hk : (ts.mapM fun t => loadKey S t f') = some ks) {r : Recording (verifyJob S ps D params vk [[c.instances]] proof)} {k : Ctx}
    (hr : (verifyJob S ps D params vk [[c.instances]] proof).record.1 Ctx.new = some (r, k)) :
    recordSolidity S ps D ts f' = some ⟨k.prog r.left r.right, k.inst, S.pairing params, S.pairing params⟩ := by
  unfold recordSolidity
  simp only [hk, h.loaded, h.loadedKey, h.instances, h.loadedProof, Option.bind_eq_bind, Option.bind_some]
  rw [hr]
  rfl

/-- Where the statements run to the pair `l`, `r`, the contract accepts if the two pairings hold. -/
theorem accepts_of_run {cps : List CreateProof} {coherent : List ((ℕ × ℕ) × (ℕ × ℕ))} {c : Created} (hc : createProof ps d cps coherent = some c) {V : Verifier}
    (hk : V.instanceSize = 4 + c.finalPair.2.2.length) {D : Digest} {proof : List UInt8} {l r : Pt}
    (hr : V.prog.run ⟨D, bufferToUint256LE proof, ([[c.instances]] : List (List (List N))).flatten.flatten.map wordOf ++ []⟩ = some [pVal l, pVal r]) :
    V.verify D (bufferToUint256LE proof) (bufferToUint256LE (finalPairBytes c.finalPair)) = some () ↔
      V.verifyCircuit l r ∧ V.targetCircuit c.finalPair.1 c.finalPair.2.1 := by
  have hpack := Created.pack hc
  obtain ⟨⟨P, Q, rest⟩, hpq⟩ : ∃ x, x = c.finalPair := ⟨_, rfl⟩
  rw [← hpq] at hk hpack ⊢
  have e : ([[c.instances]] : List (List (List N))).flatten.flatten = packPoints P Q ++ rest := by simp [hpack]
  rw [e, List.append_nil] at hr
  unfold Verifier.verify
  rw [C84_final_pair, C48_contract P Q rest _ hk]
  simp only [Option.bind_eq_bind, Option.bind_some]
  rw [hr]
  simp only [Option.bind_some, pVal]
  show (requirePairing V.verifyCircuit (g1Words l).1 (g1Words l).2 (g1Words r).1 (g1Words r).2).bind
    (fun _ => requirePairing V.targetCircuit (g1Words P).1 (g1Words P).2 (g1Words Q).1 (g1Words Q).2) = _ ↔ _
  rw [requirePairing_words, requirePairing_words]
  by_cases h2 : V.verifyCircuit l r <;> by_cases h3 : V.targetCircuit P Q <;> simp [h2, h3]

/-- **C86** for the statements that are recorded: after `verify_run` and `verify_solidity`, the contract is called with the files that were
written. If native verification of the proof returns a pair, then the contract accepts if and only if the pairing holds for this pair and for the final pair.
Both pairings are those of the aggregation circuit. -/
theorem C86_recorded {ts : List (TargetCircuit S)} {coherent : List ((ℕ × ℕ) × (ℕ × ℕ))} {dir : String} {rand : S.Rand} {f f' : Folder} {params : S.Params}
    {vk : S.Key} {c : Created} {proof : List UInt8} (h : RunFiles S ps d ts coherent dir rand f f' params vk c proof)
    {D : Digest} {V : Verifier} (hV : recordSolidity S ps D ts f' = some V) (hA : 32 * (V.prog.absorbingLength + 1) ≤ 2 ^ 32)
    {l r : Pt} (hn : Sol.native (fun _ => true) proper D shaCodec (S.vk params vk) [[c.instances]] proof = some (l, r)) :
    V.verify D (bufferToUint256LE proof) (bufferToUint256LE (finalPairBytes c.finalPair)) = some () ↔
      S.pairing params l r ∧ S.pairing params c.finalPair.1 c.finalPair.2.1 := by
  obtain ⟨hg, hk, e1, e2⟩ := recorded_after h hV
  have h64 : 0 < shaCodec.pointLen := (by decide : 0 < 64)
  obtain ⟨m, hm⟩ := native_parses h64 hn
  obtain ⟨cps, -, hc⟩ := h.created
  have a := accepts_of_run hc hk (C76_runs hg h64 hm (List.forall₂_same.2 fun _ _ => List.forall₂_same.2 fun _ _ => rfl) hm hA hn)
  rw [e1, e2] at a
  exact a

/-- **C86** with the optimiser, where it keeps the program (see C43 to C47). -/
theorem C86_contract_partial {ts : List (TargetCircuit S)} {coherent : List ((ℕ × ℕ) × (ℕ × ℕ))} {dir : String} {rand : S.Rand} {f f' : Folder} {params : S.Params}
    {vk : S.Key} {c : Created} {proof : List UInt8} (h : RunFiles S ps d ts coherent dir rand f f' params vk c proof)
    {D : Digest} {ord : List Interval → List Interval} (hord : ∀ l, (ord l).Perm l) {checks : Bool} {V : Verifier}
    (hV : dispatchVerifySolidity S ps D ord checks ts f' = some V)
    (hopt : ∀ P, (verifyJob S ps D params vk [[c.instances]] proof).generate = some P → P.size ≤ Sol.Expr.deadbeaf ∧ NoDouble P.stmts ∧
      32 * (P.absorbingLength + 1) ≤ 2 ^ 32 ∧ ∀ q, memoryOptimize ord P = some q → Mergeable checks q.stmts)
    {l r : Pt} (hn : Sol.native (fun _ => true) proper D shaCodec (S.vk params vk) [[c.instances]] proof = some (l, r)) :
    V.verify D (bufferToUint256LE proof) (bufferToUint256LE (finalPairBytes c.finalPair)) = some () ↔
      S.pairing params l r ∧ S.pairing params c.finalPair.1 c.finalPair.2.1 := by
  obtain ⟨V', q, hV', e6, e7, h9, h10, h11⟩ := solidity_recorded.1 hV
  obtain ⟨hg, hk, e1, e2⟩ := recorded_after h hV'
  obtain ⟨o1, o2, o3, o4⟩ := hopt _ hg
  have h64 : 0 < shaCodec.pointLen := (by decide : 0 < 64)
  obtain ⟨m, hm⟩ := native_parses h64 hn
  obtain ⟨q', g1, -, g3⟩ := C76_optimised_partial hg h64 hm hord o1 o2
  rw [e6] at g1
  cases g1
  obtain ⟨cps, -, hc⟩ := h.created
  have a := accepts_of_run hc (h9.trans hk) (g3 checks V.prog (o4 q e6) e7 (List.forall₂_same.2 fun _ _ => List.forall₂_same.2 fun _ _ => rfl) hm o3 hn)
  rw [h10, h11, e1, e2] at a
  exact a

/-! ### Which parameters the final pair is checked with -/

/-- The secrets of the parameters: the pairing holds for the points `l` and `s • l`. -/
def Secret (S : System) (secret : S.Params → N) : Prop := ∀ params l r, S.pairing params l r ↔ secret params • l = r

/-- **C85**, exactly when a final pair that is valid for the secret `τ` of the target circuits is accepted: the secret of the aggregation circuit has to be `τ`. -/
theorem C85_accepts_iff {ts : List (TargetCircuit S)} {coherent : List ((ℕ × ℕ) × (ℕ × ℕ))} {dir : String} {rand : S.Rand} {f f' : Folder} {params : S.Params}
    {vk : S.Key} {c : Created} {proof : List UInt8} (h : RunFiles S ps d ts coherent dir rand f f' params vk c proof)
    {D : Digest} {V : Verifier} (hV : recordSolidity S ps D ts f' = some V) (hA : 32 * (V.prog.absorbingLength + 1) ≤ 2 ^ 32)
    {l r : Pt} (hn : Sol.native (fun _ => true) proper D shaCodec (S.vk params vk) [[c.instances]] proof = some (l, r))
    {secret : S.Params → N} (hs : Secret S secret) {τ : N} (hτ : τ • c.finalPair.1 = c.finalPair.2.1) :
    V.verify D (bufferToUint256LE proof) (bufferToUint256LE (finalPairBytes c.finalPair)) = some () ↔ S.pairing params l r ∧ secret params = τ := by
  rw [C86_recorded h hV hA hn, hs params c.finalPair.1]
  refine and_congr_right fun _ => ⟨fun e => ?_, fun e => by rw [e, hτ]⟩
  obtain ⟨cps, -, hc⟩ := h.created
  have hP := (Created.ne_zero hc).1
  rw [← hτ, ← sub_eq_zero, ← sub_smul, smul_eq_zero] at e
  exact sub_eq_zero.1 (e.resolve_right hP)

/-- C85 where the target circuits and the aggregation circuit share their parameters. Missing: different parameters, for which C85 is false. -/
theorem C85_shared_partial {ts : List (TargetCircuit S)} {coherent : List ((ℕ × ℕ) × (ℕ × ℕ))} {dir : String} {rand : S.Rand} {f f' : Folder} {params : S.Params}
    {vk : S.Key} {c : Created} {proof : List UInt8} (h : RunFiles S ps d ts coherent dir rand f f' params vk c proof)
    {D : Digest} {V : Verifier} (hV : recordSolidity S ps D ts f' = some V) (hA : 32 * (V.prog.absorbingLength + 1) ≤ 2 ^ 32)
    {l r : Pt} (hn : Sol.native (fun _ => true) proper D shaCodec (S.vk params vk) [[c.instances]] proof = some (l, r)) (hl : S.pairing params l r)
    {secret : S.Params → N} (hs : Secret S secret) :
    V.verify D (bufferToUint256LE proof) (bufferToUint256LE (finalPairBytes c.finalPair)) = some () ↔ secret params • c.finalPair.1 = c.finalPair.2.1 := by
  rw [C86_recorded h hV hA hn, hs params c.finalPair.1, and_iff_right hl]

end Verif.Top
