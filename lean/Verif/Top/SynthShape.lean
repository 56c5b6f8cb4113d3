import Verif.Api.LinkShape
import Verif.Top.CommandProps
import Verif.Top.SynthExample

/-!
# The circuit for which keys are generated is the circuit that is proved

`MultiCircuitsSetup::call` builds the aggregation circuit with the first proof of every target in all places; `MultiCircuitsCreateProof::call`
builds it with the proofs themselves. The rows, the copy constraints and the cells that become instance rows are the same.
-/

namespace Verif.Top
open Verif.Circuit Verif.Ecc Verif.Api

/-! ### Specification -/

/-- Proofs with the same numbers of instances. -/
def SameForm (p p' : ProofPair) : Prop := List.Forall₂ (List.Forall₂ fun c c' : List N => c.length = c'.length) p.1 p'.1

/-- The same key, with as many proofs, all of the same form. -/
structure AlikeTargets (t t' : Target) : Prop where
  name : t.name = t'.name
  vk : t.vk = t'.vk
  nproofs : t.nproofs = t'.nproofs
  proofs : List.Forall₂ SameForm t.proofs t'.proofs

/-! ### Proof -/

section Generic
variable {rate : ℕ} {ps : PoseidonSpec N rate} {d : Codec N Pt}
open Shape

theorem newReader_shape (b b' : List UInt8) : Both (newReader circuitChip ps circuitEncode b) (newReader circuitChip ps circuitEncode b') Near :=
  Both.bind (Link.spongeNew (X := Shape.link) (w := ()) ps) fun _ _ h => Both.pure h

theorem openProof_shape {t t' : Target} (h : AlikeTargets t t') (i : ℕ) :
    Both (openProof circuitChip ps circuitEncode t i) (openProof circuitChip ps circuitEncode t' i) Alike :=
  Both.bind (Link.index (X := Shape.link) (w := ()) (Q := fun _ => SameForm) h.proofs i) fun pr pr' hpr =>
    Both.bind (newReader_shape pr.2 pr'.2) fun r r' hr => Both.pure ⟨by rw [h.name], hpr, hr⟩

theorem openTarget_shape {t t' : Target} (h : AlikeTargets t t') :
    Both (openTarget circuitChip ps circuitEncode t) (openTarget circuitChip ps circuitEncode t') AlikeAll := by
  unfold openTarget
  rw [← h.nproofs]
  refine Both.bind (Link.mapM' (X := Shape.link) (w := ()) (A := fun _ (i j : ℕ) => i = j) (Q := fun _ => Alike) (same_list _) fun _ _ i j hij => ?_)
    fun prs prs' hp => Both.pure ⟨h.vk.symm, hp⟩
  subst hij
  exact openProof_shape h i

theorem aggregateTargets_shape {ts ts' : List Target} (h : List.Forall₂ AlikeTargets ts ts') :
    Both (aggregateTargets circuitChip ps circuitEncode d ts) (aggregateTargets circuitChip ps circuitEncode d ts') fun r r' =>
      SamePt r.1 r'.1 ∧ SamePt r.2.1 r'.2.1 ∧ List.Forall₂ SameCell r.2.2.1 r'.2.2.1 ∧ List.Forall₂ (List.Forall₂ SamePt) r.2.2.2 r'.2.2.2 :=
  Both.bind (Link.mapM' (X := Shape.link) (w := ()) (A := fun _ => AlikeTargets) (Q := fun _ => AlikeAll) h fun _ _ t t' ht => openTarget_shape ht)
    fun cs cs' hcs => Both.bind (newReader_shape [] []) fun st st' hst =>
    Both.bind (Shape.verifyAggregation hcs st st' hst) fun r r' hr => Both.pure hr.1

theorem commitAt_shape {cs cs' : List (List APt)} (h : List.Forall₂ (List.Forall₂ SamePt) cs cs') (k : ℕ × ℕ) : Both (commitAt cs k) (commitAt cs' k) SamePt :=
  Both.bind (Link.index (X := Shape.link) (w := ()) (Q := fun _ => List.Forall₂ SamePt) h k.1) fun l l' hl =>
    Link.index (X := Shape.link) (w := ()) (Q := fun _ => SamePt) hl k.2

theorem checkCoherent_shape {cs cs' : List (List APt)} (h : List.Forall₂ (List.Forall₂ SamePt) cs cs') :
    ∀ l, Both (checkCoherent cs l) (checkCoherent cs' l) fun _ _ => True
  | [] => Both.pure trivial
  | k :: l => Both.bind (commitAt_shape h k.1) fun _ _ ha => Both.bind (commitAt_shape h k.2) fun _ _ hb =>
    Both.bind (Both.of (Rel.pAssertEqual ha hb)) fun _ _ _ => checkCoherent_shape h l

end Generic

/-! ### C88 -/

variable {rate : ℕ} (ps : PoseidonSpec N rate) {d : Codec N Pt}

/-- C88, the circuit: for proofs of the same form, the aggregation circuit has the same rows and copy constraints, and the same cells are the
rows of the instance column, whatever the proofs contain. -/
theorem C88_circuit {ts ts' : List Target} (h : List.Forall₂ AlikeTargets ts ts') (coherent : List ((ℕ × ℕ) × (ℕ × ℕ)))
    {rows rows' : List (AV N)} {ctx ctx' : Ctx N} (h1 : (synthesize ps d ts coherent).1 Ctx.empty = some (rows, ctx))
    (h2 : (synthesize ps d ts' coherent).1 Ctx.empty = some (rows', ctx')) :
    ctx.offset = ctx'.offset ∧ ctx.rows = ctx'.rows ∧ ctx.copies = ctx'.copies ∧ rows.map AV.cell = rows'.map AV.cell := by
  have key : Shape.Both (synthesize ps d ts coherent) (synthesize ps d ts' coherent) (List.Forall₂ SameCell) := by
    refine Shape.Both.bind (aggregateTargets_shape h) fun r r' hr => ?_
    refine Shape.Both.bind (checkCoherent_shape hr.2.2.2 coherent) fun _ _ _ => ?_
    refine Shape.Both.bind (Shape.Both.of (Rel.assertFalse hr.1.z)) fun _ _ _ => ?_
    refine Shape.Both.bind (Shape.Both.of (Rel.assertFalse hr.2.1.z)) fun _ _ _ => ?_
    exact Shape.Both.bind (Shape.Both.of (Rel.exposePair hr.1 hr.2.1)) fun _ _ hrows => Shape.Both.pure (List.rel_append hrows hr.2.2.1)
  obtain ⟨hs, hr⟩ := key.run _ _ (SameCircuit.refl _) _ _ _ _ h1 h2
  refine ⟨hs.offset, hs.rows, hs.copies, ?_⟩
  clear * - hr
  induction hr with
  | nil => rfl
  | cons h _ ih => rw [List.map_cons, List.map_cons, ih, show AV.cell _ = AV.cell _ from h]

/-- The rows, the copy constraints and the instance rows are the same, if both circuits are built. -/
def SameBuilt (x x' : Build (List (AV N))) : Prop := ∀ rows ctx rows' ctx', x.1 Ctx.empty = some (rows, ctx) → x'.1 Ctx.empty = some (rows', ctx') →
  ctx.offset = ctx'.offset ∧ ctx.rows = ctx'.rows ∧ ctx.copies = ctx'.copies ∧ rows.map AV.cell = rows'.map AV.cell

/-- A target at setup and at the creation of proofs: the proofs may have changed, but not their form. -/
structure SameCall (s : Setup) (cp : CreateProof) : Prop where
  name : s.name = cp.name
  vk : s.vk = cp.vk
  nproofs : s.nproofs = cp.nproofs
  proofs : ∀ p ∈ s.proofs, ∀ p' ∈ cp.templateProofs, SameForm p p'

theorem mapM_all {α β : Type} {f : α → Option β} : ∀ {l : List α} {r : List β}, l.mapM f = some r → List.Forall₂ (fun a b => f a = some b) l r
  | [], r, h => by cases h; exact .nil
  | a :: l, r, h => by
    rw [List.mapM_cons] at h
    obtain ⟨b, h1, h⟩ := Option.bind_eq_some_iff.1 h
    obtain ⟨bs, h2, h⟩ := Option.bind_eq_some_iff.1 h
    cases h
    exact .cons h1 (mapM_all h2)

theorem forall₂_both {α β γ : Type} {R : α → β → Prop} {S : α → γ → Prop} {U : β → γ → Prop} (h : ∀ a b c, R a b → S a c → U b c) :
    ∀ {l : List α} {m : List β} {n : List γ}, List.Forall₂ R l m → List.Forall₂ S l n → List.Forall₂ U m n
  | _, _, _, .nil, .nil => .nil
  | _, _, _, .cons h1 t1, .cons h2 t2 => .cons (h _ _ _ h1 h2) (forall₂_both h t1 t2)

theorem setupOutcome_alike {s : Setup} {cp : CreateProof} (h : SameCall s cp) {t t' : Target} (h1 : setupOutcome true s = some t)
    (h2 : setupOutcome false ⟨cp.name, cp.vk, cp.templateProofs, cp.nproofs⟩ = some t') : AlikeTargets t t' := by
  obtain ⟨l, k1, e1⟩ := Option.bind_eq_some_iff.1 h1
  obtain ⟨l', k2, e2⟩ := Option.bind_eq_some_iff.1 h2
  cases e1
  cases e2
  refine ⟨h.name, h.vk, h.nproofs, ?_⟩
  dsimp only at k2
  rw [← h.nproofs] at k2
  have r1 := mapM_all k1
  have r2 := mapM_all k2
  exact forall₂_both (fun i p p' q1 q2 => h.proofs p (List.mem_of_getElem? q1) p' (List.mem_of_getElem? q2)) r1 r2

/-- C88, setup and creation of proofs: the circuit for which keys are generated has the rows and copy constraints of the circuit that is
proved. At setup the first proof stands for all of them. -/
theorem C88_setup {setups : List Setup} {cps : List CreateProof} (h : List.Forall₂ SameCall setups cps)
    (coherent : List ((ℕ × ℕ) × (ℕ × ℕ))) {key : Build (List (AV N))} {made : Created} (h1 : setupCircuit ps d setups coherent = some key)
    (h2 : createProof ps d cps coherent = some made) : SameBuilt key made.circuit := by
  obtain ⟨ts, k1, e1⟩ := Option.bind_eq_some_iff.1 h1
  cases e1
  obtain ⟨ts', k2, e2⟩ := Option.bind_eq_some_iff.1 h2
  obtain ⟨pair, -, e2⟩ := Option.bind_eq_some_iff.1 e2
  obtain ⟨is, -, e2⟩ := Option.bind_eq_some_iff.1 e2
  cases e2
  have hts : List.Forall₂ AlikeTargets ts ts' := by
    replace k2 := mapM_all k2
    rw [List.forall₂_map_left_iff] at k2
    have k1 := mapM_all k1
    clear * - h k1 k2
    induction h generalizing ts ts' with
    | nil =>
      cases k1
      cases k2
      exact .nil
    | cons h _ ih =>
      cases k1 with
      | cons a1 b1 =>
        cases k2 with
        | cons a2 b2 => exact .cons (setupOutcome_alike h a1 a2) (ih _ _ b2 b1)
  exact fun _ _ _ _ r1 r2 => C88_circuit ps hts coherent r1 r2

/-- C88, the commands: what `verify_setup` passes to `keygen_vk` and what `verify_run` passes to `create_proof` are circuits with the same rows
and copy constraints, if the folders hold proofs of the same form for the same keys. -/
theorem C88_commands (S : System) {ts : List (TargetCircuit S)} {coherent : List ((ℕ × ℕ) × (ℕ × ℕ))} {dir : String} {params : S.Params}
    {rand : S.Rand} {f f1 g g1 : Folder} (h1 : dispatchVerifySetup S ps d ts coherent dir params f = some f1)
    (h2 : dispatchVerifyRun S ps d ts coherent dir rand g = some g1) (hk : ∀ t ∈ ts, loadKey S t f = loadKey S t g)
    (hp : ∀ t ∈ ts, ∀ l l', loadProofs S t f = some l → loadProofs S t g = some l' →
      ∀ p ∈ l, ∀ p' ∈ l', SameForm p p') :
    ∃ key made vk params' vk' proof, S.keygenVerify params key = some vk ∧ f1.read "verify_circuit.vkey" = some (S.writeKey vk) ∧
      S.proveVerify params' vk' (Created.circuit made) made.instances rand = some proof ∧ g1.read "verify_circuit_proof.data" = some proof ∧
      SameBuilt key made.circuit := by
  obtain ⟨setups, a1, h1⟩ := Option.bind_eq_some_iff.1 h1
  obtain ⟨key, a2, h1⟩ := Option.bind_eq_some_iff.1 h1
  obtain ⟨vk, a3, h1⟩ := Option.bind_eq_some_iff.1 h1
  cases h1
  obtain ⟨cps, b1, h2⟩ := Option.bind_eq_some_iff.1 h2
  obtain ⟨params', b2, h2⟩ := Option.bind_eq_some_iff.1 h2
  obtain ⟨vk', b3, h2⟩ := Option.bind_eq_some_iff.1 h2
  obtain ⟨made, b4, h2⟩ := Option.bind_eq_some_iff.1 h2
  obtain ⟨proof, b5, h2⟩ := Option.bind_eq_some_iff.1 h2
  cases h2
  refine ⟨key, made, vk, params', vk', proof, a3, Folder.read_write _ _ _, b5,
    (Folder.read_write_ne _ (by decide) _).trans (Folder.read_write _ _ _), C88_setup ps ?_ coherent a2 b4⟩
  replace a1 := mapM_all a1
  replace b1 := mapM_all b1
  clear * - hk hp a1 b1
  induction a1 generalizing cps with
  | nil =>
    cases b1
    exact .nil
  | @cons t s l l' h _ ih =>
    cases b1 with
    | cons q b1 =>
      refine .cons ?_ (ih (fun t ht => hk t (by simp [ht])) (fun t ht => hp t (by simp [ht])) _ b1)
      obtain ⟨l1, c1, h⟩ := Option.bind_eq_some_iff.1 h
      obtain ⟨k1, c2, h⟩ := Option.bind_eq_some_iff.1 h
      obtain ⟨l2, d1, q⟩ := Option.bind_eq_some_iff.1 q
      obtain ⟨k2, d2, q⟩ := Option.bind_eq_some_iff.1 q
      cases h
      cases q
      have e : k1 = k2 := by
        have := hk t (by simp)
        rw [c2, d2] at this
        exact Option.some.inj this
      exact ⟨rfl, e, rfl, hp t (by simp) _ _ c1 d1⟩

/-! ### A case -/

namespace TinySynth
open TinyContract Guarded Checked

def pairA : ProofPair := ([[[4]]], [1, 2, 3, 5, 3, 4, 6, 1, 2])
def pairB : ProofPair := ([[[2]]], [1, 3, 2, 4, 1, 2, 3, 2, 1])

noncomputable def shapeRun (l : List ProofPair) : Option (N × N × List N × List (List N)) :=
  aggregateTargets small TinyPoseidon.deaf smallEncode codecN [⟨"t", vkN, l, 2⟩]

/-- It returns, and neither point is the identity. -/
def shapeFine : Option (N × N × List N × List (List N)) → Bool
  | none => false
  | some r => decide (r.1 ≠ 0) && decide (r.2.1 ≠ 0)

theorem check_both : shapeFine (shapeRun [pairA, pairB]) = true ∧ shapeFine (shapeRun [pairA, pairA]) = true := by
  delta shapeRun aggregateTargets verifyAggregation verifyCircuit verifyProof verifyNoEval openParams queries proofQueries columnQuery xRotateOmega buildParams
    rotateOmega
  simp only [TinyContract.rotateBase_eq]
  decide +kernel

/-- The circuit is built. -/
theorem shapeBuilt {l : List ProofPair} (h : shapeFine (shapeRun l) = true) :
    ∃ rows ctx, (synthesize TinyPoseidon.deaf codec [⟨"t", vkN.map toCurve, l, 2⟩] []).1 Ctx.empty = some (rows, ctx) := by
  cases e : shapeRun l with
  | none =>
    rw [e] at h
    cases h
  | some v =>
    rw [e] at h
    obtain ⟨h1, h2⟩ := Bool.and_eq_true_iff.1 h
    obtain ⟨⟨p, q, is, cs⟩, k1, k2, k3, -⟩ := aggregateTargets_link (X := link) bytes (fun _ _ _ h => h) (fun _ => trivial) (map_zero toCurve)
      (fun _ _ => R.some rfl) (w := ()) _ _ e
    have k2 : p = toCurve v.1 := k2
    have k3 : q = toCurve v.2.1 := k3
    obtain ⟨-, rows, ctx, r, -⟩ := C79_circuit_partial (coherent := []) k1 (by rw [k2]; exact toCurve_ne (of_decide_eq_true h1))
      (by rw [k3]; exact toCurve_ne (of_decide_eq_true h2)) (by simp)
    exact ⟨rows, ctx, r⟩

theorem shapeAlike : List.Forall₂ AlikeTargets [⟨"t", vkN.map toCurve, [pairA, pairA], 2⟩] [⟨"t", vkN.map toCurve, [pairA, pairB], 2⟩] :=
  .cons ⟨rfl, rfl, rfl, .cons (.cons (.cons rfl .nil) .nil) (.cons (.cons (.cons rfl .nil) .nil) .nil)⟩ .nil

/-- Keys are generated with the first proof twice, and the circuit is then proved with both: both circuits are built, and they are the same. -/
example : ∃ rows ctx rows' ctx', (synthesize TinyPoseidon.deaf codec [⟨"t", vkN.map toCurve, [pairA, pairA], 2⟩] []).1 Ctx.empty = some (rows, ctx) ∧
    (synthesize TinyPoseidon.deaf codec [⟨"t", vkN.map toCurve, [pairA, pairB], 2⟩] []).1 Ctx.empty = some (rows', ctx') ∧
    ctx.rows = ctx'.rows ∧ ctx.copies = ctx'.copies ∧ rows.map AV.cell = rows'.map AV.cell := by
  obtain ⟨rows', ctx', h2⟩ := shapeBuilt check_both.1
  obtain ⟨rows, ctx, h1⟩ := shapeBuilt check_both.2
  have := C88_circuit TinyPoseidon.deaf (d := codec) shapeAlike [] h1 h2
  exact ⟨rows, ctx, rows', ctx', h1, h2, this.2⟩

end TinySynth
end Verif.Top
