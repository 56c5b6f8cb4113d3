import Verif.Top.TinyRun

/-!
The instance column of the aggregation circuit, and the size that is declared for it.

`compute_verify_public_input_size` (sdk lib.rs:76-81) adds up `N_PROOFS * PUBLIC_INPUT_SIZE`. `verify_run` writes an instance column. They agree when the
instances of every proof have `PUBLIC_INPUT_SIZE` scalars.
-/

namespace Verif.Top
open Circuit Ecc Api

/-! ### The native verifier hands out the instances as given -/

section Native
variable {α β : Type}

theorem mapM'_mock {f : α → Option β} : ∀ {l : List α} {r : List β}, mapM' (mock N gen) f l = some r → List.Forall₂ (fun a b => f a = some b) l r
  | [], r, h => by cases h; exact .nil
  | a :: l, r, h => by
    obtain ⟨b, h1, h⟩ := Option.bind_eq_some_iff.1 h
    obtain ⟨bs, h2, h⟩ := Option.bind_eq_some_iff.1 h
    cases h
    exact .cons h1 (mapM'_mock h2)

theorem forall₂_map {γ : Type} {R : α → β → Prop} {f : α → γ} {g : β → γ} (hR : ∀ a b, R a b → g b = f a) : ∀ {l : List α} {r : List β},
    List.Forall₂ R l r → r.map g = l.map f
  | _, _, .nil => rfl
  | _, _, .cons h t => by rw [List.map_cons, List.map_cons, hR _ _ h, forall₂_map hR t]

theorem forall₂_same {R : α → α → Prop} (hR : ∀ a b, R a b → b = a) {l r : List α} (h : List.Forall₂ R l r) : r = l := by
  have := forall₂_map (f := id) (g := id) hR h
  rwa [List.map_id, List.map_id] at this

variable {T : Transcript (mock N gen)}

theorem each_mock {f : α → Rd T β} : ∀ {l : List α} {s : Reader T} {r : List β} {s' : Reader T}, Rd.each f l s = some (r, s') →
    List.Forall₂ (fun a b => ∃ s s', f a s = some (b, s')) l r
  | [], s, r, s', h => by cases h; exact .nil
  | a :: l, s, r, s', h => by
    obtain ⟨⟨b, s1⟩, h1, h⟩ := Option.bind_eq_some_iff.1 h
    obtain ⟨⟨bs, s2⟩, h2, h⟩ := Option.bind_eq_some_iff.1 h
    cases h
    exact .cons ⟨s, s1, h1⟩ (each_mock h2)

theorem assignInstanceCommitment_mock {vk : VK N Pt} {is : List (List (List N))} {r : List N × List (List Pt)}
    (h : assignInstanceCommitment (c := mock N gen) vk is = some r) : r.1 = is.flatten.flatten := by
  unfold assignInstanceCommitment at h
  split at h
  · obtain ⟨as, h1, h⟩ := Option.bind_eq_some_iff.1 h
    obtain ⟨cs, -, h⟩ := Option.bind_eq_some_iff.1 h
    cases h
    have : as = is := by
      refine forall₂_same (fun a b hab => ?_) (mapM'_mock h1)
      refine forall₂_same (fun col col' hcol => ?_) (mapM'_mock hab)
      unfold assignColumn at hcol
      split at hcol
      · exact forall₂_same (fun k k' hk => (Option.some.inj hk).symm) (mapM'_mock hcol)
      · cases hcol
    exact this ▸ rfl
  · cases h

theorem verifyProof_mock {d : Codec N Pt} {vk : VK N Pt} {pr : ProofData T} {v : Verified T} (h : verifyProof d vk pr = some v) :
    v.instances = pr.instances.flatten.flatten := by
  obtain ⟨i, h1, h⟩ := Option.bind_eq_some_iff.1 h
  obtain ⟨r, -, h⟩ := Option.bind_eq_some_iff.1 h
  cases h
  exact assignInstanceCommitment_mock h1

theorem verifyCircuit_mock {d : Codec N Pt} {ci : CircuitProof T} {s s' : Reader T} {vs : List (Verified T)}
    (h : verifyCircuit d ci s = some (vs, s')) : vs.map Verified.instances = ci.proofs.map fun pr => pr.instances.flatten.flatten := by
  obtain ⟨⟨vs1, s1⟩, h1, h⟩ := Option.bind_eq_some_iff.1 h
  obtain ⟨⟨_, s2⟩, -, h⟩ := Option.bind_eq_some_iff.1 h
  cases h
  obtain ⟨vs2, h2, h1⟩ := Option.bind_eq_some_iff.1 h1
  cases h1
  exact forall₂_map (fun pr v hv => verifyProof_mock hv) (mapM'_mock h2)

theorem verifyAggregation_mock {d : Codec N Pt} {cs : List (CircuitProof T)} {s s' : Reader T} {l r : Pt} {is : List N} {advice : List (List Pt)}
    (h : verifyAggregation d cs s = some ((l, r, is, advice), s')) : is = (Logic.jobs cs).flatMap fun j => j.2.instances.flatten.flatten := by
  obtain ⟨⟨vss, s1⟩, h1, h⟩ := Option.bind_eq_some_iff.1 h
  obtain ⟨⟨ch, s2⟩, -, h⟩ := Option.bind_eq_some_iff.1 h
  obtain ⟨⟨e, s3⟩, -, h⟩ := Option.bind_eq_some_iff.1 h
  cases h
  have key := forall₂_map (f := fun ci : CircuitProof T => ci.proofs.map fun pr => pr.instances.flatten.flatten) (g := List.map Verified.instances)
    (fun ci vs ⟨_, _, hv⟩ => verifyCircuit_mock hv) (each_mock h1)
  show (vss.flatten.flatMap Verified.instances) = _
  rw [List.flatMap_def, List.map_flatten, key, Logic.jobs, List.flatMap_assoc, List.flatMap_def (l := cs), List.flatten_flatten, List.map_map]
  congr 1
  refine List.map_congr_left fun ci _ => ?_
  rw [List.flatMap_map, List.flatMap_def]
  rfl

end Native

/-- The instances that the native verifier returns are those of the proofs. -/
theorem calcFinalPair_instances {rate : ℕ} {ps : PoseidonSpec N rate} {d : Codec N Pt} {ts : List Target} {P Q : Pt} {is : List N}
    (h : calcFinalPair ps d ts = some (P, Q, is)) : is = (targetJobs ts).flatMap fun j => j.2.1.flatten.flatten := by
  obtain ⟨⟨l, r, is', cs⟩, h1, h⟩ := Option.bind_eq_some_iff.1 h
  cases h
  obtain ⟨cps, h2, h1⟩ := Option.bind_eq_some_iff.1 h1
  obtain ⟨st, -, h1⟩ := Option.bind_eq_some_iff.1 h1
  obtain ⟨⟨⟨l', r', is', cs'⟩, st'⟩, h3, h1⟩ := Option.bind_eq_some_iff.1 h1
  cases h1
  rw [verifyAggregation_mock h3]
  have hP := Logic.mock_partial (F := N) gen
  have := (mockPartial N gen).mapM' (fun t _ => openTarget_ens (ps := ps) (e := mockEncode) hP t) cps h2
  rw [← (jobs_opened this).1, List.flatMap_map]

theorem targetJobs_instances (ts : List Target) : ((targetJobs ts).flatMap fun j => j.2.1.flatten.flatten) =
    ts.flatMap fun t => (t.proofs.take t.nproofs).flatMap fun p => p.1.flatten.flatten := by
  unfold targetJobs
  rw [List.flatMap_assoc]
  refine List.flatMap_congr fun t _ => ?_
  rw [List.flatMap_map]
  generalize t.proofs.take t.nproofs = l
  conv_rhs => rw [← List.zipIdx_map_fst 0 l, List.flatMap_map]

/-! ### C89 -/

/-- Specification: the instances of the proofs in the folder, circuit by circuit. -/
def inputsOf (S : System) (ts : List (TargetCircuit S)) (f : Folder) : List N :=
  ts.flatMap fun t => ((loadProofs S t f).getD []).flatMap fun p => p.1.flatten.flatten

/-- Every proof in the folder has as many instances as the circuit declares. -/
def Declared (S : System) (ts : List (TargetCircuit S)) (f : Folder) : Prop :=
  ∀ t ∈ ts, ∀ prs, loadProofs S t f = some prs → ∀ p ∈ prs, p.1.flatten.flatten.length = t.publicInputSize

theorem mapM_length {α β : Type} {f : α → Option β} : ∀ {l : List α} {r : List β}, l.mapM f = some r → r.length = l.length := by
  intro l
  induction l with
  | nil => intro r h; cases h; rfl
  | cons a l ih =>
    intro r h
    rw [List.mapM_cons] at h
    obtain ⟨b, -, h⟩ := Option.bind_eq_some_iff.1 h
    obtain ⟨bs, h2, h⟩ := Option.bind_eq_some_iff.1 h
    cases h
    rw [List.length_cons, List.length_cons, ih h2]

theorem loadProofs_length {S : System} {t : TargetCircuit S} {f : Folder} {prs : List ProofPair} (h : loadProofs S t f = some prs) :
    prs.length = t.nproofs := by
  obtain ⟨is, h1, h⟩ := Option.bind_eq_some_iff.1 h
  obtain ⟨pr, h2, h⟩ := Option.bind_eq_some_iff.1 h
  cases h
  rw [List.length_zip, mapM_length h1, mapM_length h2, List.length_range, min_self]

variable {S : System} {rate : ℕ} {ps : PoseidonSpec N rate} {d : Codec N Pt}

/-- The targets of a call are the circuits with the proofs from the folder. -/
theorem targets_of {dir : String} {f : Folder} : ∀ {ts : List (TargetCircuit S)} {cps : List CreateProof} {us : List Target},
    ts.mapM (fun t => CreateProof.new S t dir f) = some cps →
    (cps.map fun cp => (⟨cp.name, cp.vk, cp.templateProofs, cp.nproofs⟩ : Setup)).mapM (setupOutcome false) = some us →
    (us.flatMap fun u => (u.proofs.take u.nproofs).flatMap fun p => p.1.flatten.flatten) = inputsOf S ts f
  | [], cps, us, h, h' => by cases h; cases h'; rfl
  | t :: ts, cps, us, h, h' => by
    rw [List.mapM_cons] at h
    obtain ⟨cp, h1, h⟩ := Option.bind_eq_some_iff.1 h
    obtain ⟨cps', h2, h⟩ := Option.bind_eq_some_iff.1 h
    cases h
    rw [List.map_cons, List.mapM_cons] at h'
    obtain ⟨u, h3, h'⟩ := Option.bind_eq_some_iff.1 h'
    obtain ⟨us', h4, h'⟩ := Option.bind_eq_some_iff.1 h'
    cases h'
    obtain ⟨prs, h5, h1⟩ := Option.bind_eq_some_iff.1 h1
    obtain ⟨vk, -, h1⟩ := Option.bind_eq_some_iff.1 h1
    cases h1
    rw [setupOutcome_false] at h3
    have hl := loadProofs_length h5
    rw [if_pos (by rw [hl])] at h3
    cases h3
    have ih := targets_of h2 h4
    unfold inputsOf at ih ⊢
    rw [List.flatMap_cons, List.flatMap_cons, ih, h5, Option.getD_some]
    dsimp only
    rw [List.take_take, min_self, ← hl, List.take_length]

theorem inputsOf_length {f : Folder} : ∀ {ts : List (TargetCircuit S)}, (∀ t ∈ ts, ∃ prs, loadProofs S t f = some prs) → Declared S ts f →
    ∀ n, n + (inputsOf S ts f).length = ts.foldl (fun n t => n + t.nproofs * t.publicInputSize) n
  | [], _, _, n => rfl
  | t :: ts, h, hd, n => by
    obtain ⟨prs, hp⟩ := h t (by simp)
    have hl : (prs.flatMap fun p => p.1.flatten.flatten).length = t.nproofs * t.publicInputSize := by
      rw [List.length_flatMap, ← loadProofs_length hp]
      rw [List.map_congr_left (g := fun _ => t.publicInputSize) fun p hp' => hd t (by simp) prs hp p hp', List.map_const', List.sum_replicate, smul_eq_mul]
    rw [List.foldl_cons, ← inputsOf_length (fun t ht => h t (by simp [ht])) (fun t ht => hd t (by simp [ht]))]
    unfold inputsOf
    rw [List.flatMap_cons, List.length_append, hp, Option.getD_some, hl, add_assoc]

theorem loaded_all {dir : String} {f : Folder} {ts : List (TargetCircuit S)} {cps : List CreateProof}
    (h : ts.mapM (fun t => CreateProof.new S t dir f) = some cps) : ∀ t ∈ ts, ∃ prs, loadProofs S t f = some prs := by
  induction ts generalizing cps with
  | nil => simp
  | cons t ts ih =>
    rw [List.mapM_cons] at h
    obtain ⟨cp, h1, h⟩ := Option.bind_eq_some_iff.1 h
    obtain ⟨cps', h2, h⟩ := Option.bind_eq_some_iff.1 h
    intro t' ht'
    rcases List.mem_cons.1 ht' with rfl | ht'
    · obtain ⟨prs, h5, -⟩ := Option.bind_eq_some_iff.1 h1
      exact ⟨prs, h5⟩
    · exact ih h2 t' ht'

/-- **C89**: the instance column that `verify_run` writes is the pair, in four rows, followed by the instances of the proofs in the folder; and its
length is the size the command line tool declares, if every proof has as many instances as its circuit declares. -/
theorem C89_instance_column {ts : List (TargetCircuit S)} {coherent : List ((ℕ × ℕ) × (ℕ × ℕ))} {dir : String} {rand : S.Rand} {f f' : Folder}
    (h : dispatchVerifyRun S ps d ts coherent dir rand f = some f') :
    ∃ P Q, loadVerifyInstance f' = some [[packPoints P Q ++ inputsOf S ts f]] ∧
      (Declared S ts f → (packPoints P Q ++ inputsOf S ts f).length = verifyPublicInputSize S ts) := by
  obtain ⟨params, vk, c, proof, hr⟩ := C84_run h
  obtain ⟨cps, h1, h2⟩ := hr.created
  have hp := Created.pack h2
  have hi : c.finalPair.2.2 = inputsOf S ts f := by
    obtain ⟨us, h3, h2⟩ := Option.bind_eq_some_iff.1 h2
    obtain ⟨⟨P, Q, is⟩, h4, h2⟩ := Option.bind_eq_some_iff.1 h2
    obtain ⟨is', h5, h2⟩ := Option.bind_eq_some_iff.1 h2
    cases h2
    exact (calcFinalPair_instances h4).trans ((targetJobs_instances us).trans (targets_of h1 h3))
  refine ⟨c.finalPair.1, c.finalPair.2.1, ?_, fun hd => ?_⟩
  · rw [hr.instances, hp, hi]
  · rw [List.length_append]
    exact inputsOf_length (loaded_all h1) hd 4

/-- Without that the declared size can be wrong: nothing compares the two. -/
theorem C89_undeclared {ts : List (TargetCircuit S)} {coherent : List ((ℕ × ℕ) × (ℕ × ℕ))} {dir : String} {rand : S.Rand} {f : Folder}
    (sizes : TargetCircuit S → ℕ) : dispatchVerifyRun S ps d (ts.map fun t => { t with publicInputSize := sizes t }) coherent dir rand f =
      dispatchVerifyRun S ps d ts coherent dir rand f := by
  unfold dispatchVerifyRun
  rw [List.mapM_map]
  rfl

/-- The size declared for the circuit of `TinyRun` is five, and so is the length of the column. -/
example (e : Pt → Pt → Prop) : verifyPublicInputSize (TinyRun.sys e) [TinyRun.target e] = 5 ∧ Declared (TinyRun.sys e) [TinyRun.target e] TinyRun.folder ∧
    ∃ P Q, loadVerifyInstance TinyRun.after = some [[packPoints P Q ++ [5]]] := by
  obtain ⟨prs, h1, h2⟩ := Option.bind_eq_some_iff.1 (TinyRun.load e)
  obtain ⟨vk, -, h2⟩ := Option.bind_eq_some_iff.1 h2
  have h3 : prs = [([[[5]]], TinyRun.proof)] := congrArg CreateProof.proofs (Option.some.inj h2)
  refine ⟨rfl, ?_, ?_⟩
  · intro t ht prs' hp p hpp
    rw [List.mem_singleton] at ht
    subst ht
    rw [h1] at hp
    cases hp
    rw [h3, List.mem_singleton] at hpp
    subst hpp
    rfl
  · obtain ⟨P, Q, h4, -⟩ := C89_instance_column (TinyRun.verify_run e)
    refine ⟨P, Q, h4.trans ?_⟩
    have : inputsOf (TinyRun.sys e) [TinyRun.target e] TinyRun.folder = [5] := by
      unfold inputsOf
      rw [List.flatMap_cons, h1, h3]
      rfl
    rw [this]

end Verif.Top
