import Verif.Api.MeasureRead
import Verif.Top.SynthShape

/-!
# The floor planner reserves enough rows

The circuit is laid out by the floor planner `V1` (verify_circuit.rs:217), which runs `synthesize` twice: on the circuit without witnesses,
to measure the regions, and on the circuit, to assign them at the places found. The first pass of the first region is in shape mode. The
cells that are assigned must lie in the rows that were measured.
-/

namespace Verif.Top
open Verif.Circuit Verif.Ecc Verif.Api Measure

/-! ### Model -/

/-- `Halo2VerifierCircuits::without_witnesses` for one target: verify_circuit.rs:219-224 and 512-519. `none`: `proofs[0]` panics. -/
def withoutWitnesses {G : Type} (t : TargetOf G) : Option (TargetOf G) :=
  ((List.range t.nproofs).mapM fun _ => t.proofs[0]?).map fun l => ⟨t.name, t.vk, l, t.nproofs⟩

/-- verify_circuit.rs:488-494. -/
def coherentM (commits : List (List APt)) : List ((ℕ × ℕ) × (ℕ × ℕ)) → M N Unit
  | [] => pure ()
  | k :: l => do
    let a ← unwrapM (commits[k.1.1]? >>= fun r => r[k.1.2]?)
    let b ← unwrapM (commits[k.2.1]? >>= fun r => r[k.2.2]?)
    let _ ← pAssertEqual a b
    coherentM commits l

/-- The first region, given the aggregation: verify_circuit.rs:405-500. -/
def firstRegion (aggregation : M N (APt × APt × List (AV N) × List (List APt))) (coherent : List ((ℕ × ℕ) × (ℕ × ℕ))) : M N (APt × APt × List (AV N)) := do
  shapeRow
  let r ← aggregation
  coherentM r.2.2.2 coherent
  Circuit.assertFalse r.1.z
  Circuit.assertFalse r.2.1.z
  return (r.1, r.2.1, r.2.2.1)

/-- Both regions, each in a context of its own: verify_circuit.rs:236-351. -/
def regions (aggregation : M N (APt × APt × List (AV N) × List (List APt))) (coherent : List ((ℕ × ℕ) × (ℕ × ℕ))) : Option (Ctx N × Ctx N) := do
  let r ← firstRegion aggregation coherent Ctx.empty
  let e ← exposePair r.1.1 r.1.2.1 Ctx.empty
  return (r.2, e.2)

section Model
variable {rate : ℕ} (ps : PoseidonSpec N rate) (d : Codec N Pt)

/-- The regions as they are assigned. -/
noncomputable def assigned (ts : List Target) (coherent : List ((ℕ × ℕ) × (ℕ × ℕ))) : Option (Ctx N × Ctx N) :=
  regions (aggregateTargets circuitChip ps circuitEncode d ts : Build _).1 coherent

/-- The regions as they are measured. -/
noncomputable def measured (ts : List Target) (coherent : List ((ℕ × ℕ) × (ℕ × ℕ))) : Option (Ctx N × Ctx N) := do
  let ts ← ts.mapM withoutWitnesses
  regions (aggregateTargets measureChip ps measureEncode d ts) coherent

end Model

/-! ### Specification -/

/-- The number of rows of a region: one more than the last row in which something is assigned (`RegionShape::row_count` of halo2). -/
def height (ctx : Ctx N) : ℕ := (ctx.rows.map fun r => r.1 + 1).foldr max 0

/-- The proofs of a target that are verified have as many instances as the first. -/
def Uniform (t : Target) : Prop := ∀ p ∈ t.proofs.take t.nproofs, ∀ q, t.proofs[0]? = some q → SameForm p q

/-! ### Proof -/

theorem le_height {ctx : Ctx N} {r : ℕ × Row N} (h : r ∈ ctx.rows) : r.1 + 1 ≤ height ctx := by
  unfold height
  revert h
  induction ctx.rows with
  | nil => exact fun h => by cases h
  | cons a l ih =>
    intro h
    rcases List.mem_cons.1 h with rfl | h
    · exact le_max_left _ _
    · exact (ih h).trans (le_max_right _ _)

theorem height_le {ctx : Ctx N} {k : ℕ} (h : ∀ r ∈ ctx.rows, r.1 < k) : height ctx ≤ k := by
  unfold height
  revert h
  induction ctx.rows with
  | nil => exact fun _ => Nat.zero_le _
  | cons a l ih => exact fun h => max_le (h a (by simp)) (ih fun r hr => h r (by simp [hr]))

/-- A region that is written row by row is as high as it has rows. -/
theorem height_eq {ctx : Ctx N} (h : NextRows Ctx.empty ctx) : height ctx = ctx.offset ∧ ctx.rows.map Prod.fst = (List.range ctx.offset).reverse := by
  obtain ⟨new, e, k⟩ := h
  have e : ctx.rows = new := by rw [e]; exact List.append_nil _
  have k : ctx.rows.map Prod.fst = (List.range ctx.offset).reverse := by
    rw [e, k, List.range_eq_range']
    rfl
  refine ⟨le_antisymm (height_le fun r hr => ?_) ?_, k⟩
  · have := List.mem_map_of_mem (f := Prod.fst) hr
    rw [k, List.mem_reverse, List.mem_range] at this
    exact this
  · by_cases h0 : ctx.offset = 0
    · omega
    · have : ctx.offset - 1 ∈ ctx.rows.map Prod.fst := by
        rw [k, List.mem_reverse, List.mem_range]
        omega
      obtain ⟨r, hr, e⟩ := List.mem_map.1 this
      have := le_height hr
      omega

instance : Grows shapeRow := by
  unfold shapeRow
  grows

instance coherentM_grows (commits : List (List APt)) : ∀ l, Grows (coherentM commits l)
  | [] => by
    unfold coherentM
    grows
  | k :: l => by
    have := coherentM_grows commits l
    unfold coherentM
    grows

theorem firstRegion_grows {x : M N (APt × APt × List (AV N) × List (List APt))} (h : Grows x) (coherent : List ((ℕ × ℕ) × (ℕ × ℕ))) : Grows (firstRegion x coherent) := by
  unfold firstRegion
  grows

section Generic
variable {rate : ℕ} {ps : PoseidonSpec N rate} {d : Codec N Pt}
open Measure

theorem newReader_meas (b b' : List UInt8) : Meas (newReader circuitChip ps circuitEncode b : Build _).1 (newReader measureChip ps measureEncode b') Near :=
  Meas.bind (Link.spongeNew (X := Measure.link) (w := ()) ps) fun _ _ h => Meas.pure h

/-- The second target stands for the first when rows are counted. -/
structure Stands (t t' : Target) : Prop where
  name : t.name = t'.name
  vk : t.vk = t'.vk
  nproofs : t.nproofs = t'.nproofs
  proofs : ∀ (i : ℕ) p p', t.proofs[i]? = some p → t'.proofs[i]? = some p' → SameForm p p'

theorem index_meas {α β : Type} {l : List α} {l' : List β} {i : ℕ} {Q : α → β → Prop} (h : ∀ a b, l[i]? = some a → l'[i]? = some b → Q a b) :
    Meas (index circuitChip l i : Build α).1 (index measureChip l' i) Q := by
  unfold index
  split
  · next a ha =>
    split
    · next b hb => exact Meas.pure (h a b ha hb)
    · exact panic'
  · exact Meas.panic

theorem openProof_meas {t t' : Target} (h : Stands t t') (i : ℕ) :
    Meas (openProof circuitChip ps circuitEncode t i : Build _).1 (openProof measureChip ps measureEncode t' i) Alike :=
  Meas.bind (index_meas (h.proofs i)) fun pr pr' hpr =>
    Meas.bind (newReader_meas pr.2 pr'.2) fun r r' hr => Meas.pure ⟨by rw [h.name], hpr, hr⟩

theorem openTarget_meas {t t' : Target} (h : Stands t t') :
    Meas (openTarget circuitChip ps circuitEncode t : Build _).1 (openTarget measureChip ps measureEncode t') AlikeAll := by
  unfold openTarget
  rw [← h.nproofs]
  refine Meas.bind (Link.mapM' (X := Measure.link) (w := ()) (A := fun _ (i j : ℕ) => i = j) (Q := fun _ => Alike) (same_list _) fun _ _ i j hij => ?_)
    fun prs prs' hp => Meas.pure ⟨h.vk.symm, hp⟩
  subst hij
  exact openProof_meas h i

theorem aggregateTargets_meas {ts ts' : List Target} (h : List.Forall₂ Stands ts ts') :
    Meas (aggregateTargets circuitChip ps circuitEncode d ts : Build _).1 (aggregateTargets measureChip ps measureEncode d ts') fun r r' =>
      Like r.1 r'.1 ∧ Like r.2.1 r'.2.1 ∧ List.Forall₂ (List.Forall₂ LikeRead) r.2.2.2 r'.2.2.2 :=
  Meas.bind (Link.mapM' (X := Measure.link) (w := ()) (A := fun _ => Stands) (Q := fun _ => AlikeAll) h fun _ _ t t' ht => openTarget_meas ht)
    fun cs cs' hcs => Meas.bind (newReader_meas [] []) fun st st' hst =>
    Meas.bind (Measure.verifyAggregation hcs st st' hst) fun r r' hr => Meas.pure hr.1

theorem Meas.unwrapM {α β : Type} {o : Option α} {o' : Option β} {Q : α → β → Prop} (h : ∀ a b, o = some a → o' = some b → Q a b) :
    Meas (Circuit.unwrapM o) (Circuit.unwrapM o') Q := by
  intro c a e c' a' e' h1 h2
  obtain ⟨b, k1, k2⟩ := Option.map_eq_some_iff.1 h1
  obtain ⟨b', k3, k4⟩ := Option.map_eq_some_iff.1 h2
  cases k2
  cases k4
  exact ⟨by omega, h _ _ k1 k3⟩

theorem commit_like {cs cs' : List (List APt)} (h : List.Forall₂ (List.Forall₂ LikeRead) cs cs') (k : ℕ × ℕ) :
    Meas (unwrapM (cs[k.1]? >>= fun r => r[k.2]?)) (unwrapM (cs'[k.1]? >>= fun r => r[k.2]?)) LikeRead := by
  refine Meas.unwrapM fun a b ha hb => ?_
  obtain ⟨l, h1, h2⟩ := Option.bind_eq_some_iff.1 ha
  obtain ⟨l', h3, h4⟩ := Option.bind_eq_some_iff.1 hb
  obtain ⟨l2, g1, g2⟩ := getElem_rel h h1
  rw [h3] at g1
  cases g1
  obtain ⟨p, g3, g4⟩ := getElem_rel g2 h2
  rw [h4] at g3
  cases g3
  exact g4

theorem coherentM_meas {cs cs' : List (List APt)} (h : List.Forall₂ (List.Forall₂ LikeRead) cs cs') :
    ∀ l, Meas (coherentM cs l) (coherentM cs' l) fun _ _ => True
  | [] => Meas.pure trivial
  | k :: l => Meas.bind (commit_like h k.1) fun _ _ ha => Meas.bind (commit_like h k.2) fun _ _ hb => by
    obtain ⟨_, ha, ha'⟩ := ha
    obtain ⟨_, hb, hb'⟩ := hb
    exact Meas.bind (Q := fun _ _ => True) ((Meas.of (Takes.pAssertEqual ha hb) (Takes.pAssertEqual ha' hb') (le_refl _)).mono fun _ _ _ => trivial)
      fun _ _ _ => coherentM_meas h l

theorem firstRegion_meas {x : M N (APt × APt × List (AV N) × List (List APt))} {x' : M N (APt × APt × List (AV N) × List (List APt))}
    (h : Meas x x' fun r r' => Like r.1 r'.1 ∧ Like r.2.1 r'.2.1 ∧ List.Forall₂ (List.Forall₂ LikeRead) r.2.2.2 r'.2.2.2) (coherent : List ((ℕ × ℕ) × (ℕ × ℕ))) :
    Meas (firstRegion x coherent) (firstRegion x' coherent) fun r r' => Like r.1 r'.1 ∧ Like r.2.1 r'.2.1 :=
  Meas.bind (Meas.cells Takes.shapeRow Takes.shapeRow) fun _ _ _ => Meas.bind h fun _ _ hr => Meas.bind (coherentM_meas hr.2.2 coherent) fun _ _ _ =>
    Meas.bind (Meas.cells (Takes.assertConstant _ _) (Takes.assertConstant _ _)) fun _ _ _ =>
    Meas.bind (Meas.cells (Takes.assertConstant _ _) (Takes.assertConstant _ _)) fun _ _ _ => Meas.pure ⟨hr.1, hr.2.1⟩

/-- The last row of the first region is written. -/
theorem firstRegion_last {x : M N (APt × APt × List (AV N) × List (List APt))} {coherent : List ((ℕ × ℕ) × (ℕ × ℕ))} {c e : Ctx N} {r : APt × APt × List (AV N)}
    (h : firstRegion x coherent c = some (r, e)) : e.offset ≤ height e := by
  unfold firstRegion at h
  obtain ⟨_, c1, -, h⟩ := m_bind h
  obtain ⟨_, c2, -, h⟩ := m_bind h
  obtain ⟨_, c3, -, h⟩ := m_bind h
  obtain ⟨_, c4, -, h⟩ := m_bind h
  obtain ⟨_, c5, h, g⟩ := m_bind h
  cases g
  obtain ⟨_, c6, h, g⟩ := m_bind h
  cases g
  unfold oneLineAdd oneLine oneLineSel at h
  split at h
  · obtain ⟨-, h⟩ := Prod.mk.inj (Option.some.inj h)
    rw [← h]
    refine le_trans (le_of_eq ?_) (le_height (List.mem_cons_self ..))
    rfl
  · cases h

theorem withoutWitnesses_stands {t t' : Target} (hf : Uniform t) (h : withoutWitnesses t = some t') : Stands t t' := by
  obtain ⟨l, k, e⟩ := Option.map_eq_some_iff.1 h
  cases e
  refine ⟨rfl, rfl, rfl, fun i p p' hp hp' => ?_⟩
  have k := mapM_all k
  obtain ⟨hi, -⟩ := List.getElem?_eq_some_iff.1 hp'
  have hl : l.length = t.nproofs := by rw [← k.length_eq, List.length_range]
  have := List.Forall₂.get k (i := i) (by rw [List.length_range, ← hl]; exact hi) hi
  refine hf p ?_ p' ?_
  · refine List.mem_of_getElem? (i := i) ?_
    rw [List.getElem?_take_of_lt (by rw [← hl]; exact hi), hp]
  · rw [this, ← hp', List.getElem?_eq_getElem hi]
    rfl

theorem withoutWitnesses_all {ts ts' : List Target} (hf : ∀ t ∈ ts, Uniform t) (h : ts.mapM withoutWitnesses = some ts') : List.Forall₂ Stands ts ts' := by
  have h := mapM_all h
  clear * - hf h
  induction h with
  | nil => exact .nil
  | cons h _ ih => exact .cons (withoutWitnesses_stands (hf _ (by simp)) h) (ih fun t ht => hf t (by simp [ht]))

end Generic

/-! ### The circuit of `synthesize` -/

theorem index_unwrap {α : Type} (l : List α) (i : ℕ) : (index circuitChip l i : Build α).1 = unwrapM l[i]? := by
  unfold index
  cases l[i]? <;> rfl

theorem commitAt_unwrap (cs : List (List APt)) (k : ℕ × ℕ) : (commitAt cs k).1 = unwrapM (cs[k.1]? >>= fun r => r[k.2]?) := by
  change ((index circuitChip cs k.1 : Build _).1 >>= fun l => (index circuitChip l k.2 : Build APt).1) = _
  simp only [index_unwrap]
  cases cs[k.1]? <;> rfl

theorem checkCoherent_coherentM (cs : List (List APt)) : ∀ l, (checkCoherent cs l).1 = coherentM cs l
  | [] => rfl
  | k :: l => by
    unfold checkCoherent coherentM
    change ((commitAt cs k.1).1 >>= fun a => (commitAt cs k.2).1 >>= fun b => pAssertEqual a b >>= fun _ => (checkCoherent cs l).1) = _
    rw [commitAt_unwrap, commitAt_unwrap, checkCoherent_coherentM cs l]

/-! ### C92 -/

variable {rate : ℕ} (ps : PoseidonSpec N rate) (d : Codec N Pt)

/-- C92, which circuit it is: the regions, one after the other in one context, are the circuit of `synthesize` after the row that is written to
find out about shape mode. -/
theorem C92_circuit (ts : List Target) (coherent : List ((ℕ × ℕ) × (ℕ × ℕ))) :
    (do
      let r ← firstRegion (aggregateTargets circuitChip ps circuitEncode d ts : Build _).1 coherent
      let rows ← exposePair r.1 r.2.1
      return rows ++ r.2.2) = (do
      shapeRow
      (synthesize ps d ts coherent).1) := by
  obtain ⟨x, hx⟩ : ∃ x : M N (APt × APt × List (AV N) × List (List APt)), x = (aggregateTargets circuitChip ps circuitEncode d ts : Build _).1 := ⟨_, rfl⟩
  have e : (synthesize ps d ts coherent).1 = (x >>= fun r => (checkCoherent r.2.2.2 coherent).1 >>= fun _ =>
      Circuit.assertFalse r.1.z >>= fun _ => Circuit.assertFalse r.2.1.z >>= fun _ => exposePair r.1 r.2.1 >>= fun rows => pure (rows ++ r.2.2.1)) := by
    rw [hx]
    rfl
  rw [e]
  change (firstRegion _ coherent >>= _) = _
  rw [← hx]
  unfold firstRegion
  simp only [bind_assoc, pure_bind, checkCoherent_coherentM]

/-- C92, the regions as they are assigned: the rows of each are written one by one from the top, each once, and none is left out. -/
theorem C92_rows {ts : List Target} {coherent : List ((ℕ × ℕ) × (ℕ × ℕ))} {a b : Ctx N} (h : assigned ps d ts coherent = some (a, b)) :
    a.rows.map Prod.fst = (List.range (height a)).reverse ∧ b.rows.map Prod.fst = (List.range (height b)).reverse := by
  obtain ⟨r, h1, h⟩ := Option.bind_eq_some_iff.1 h
  obtain ⟨e, h2, h⟩ := Option.bind_eq_some_iff.1 h
  cases h
  have k1 := height_eq ((firstRegion_grows (aggregateTargets circuitChip ps circuitEncode d ts : Build _).2.2 coherent).rows _ _ _ h1)
  have k2 := height_eq (Grows.rows (m := exposePair r.1.1 r.1.2.1) _ _ _ h2)
  exact ⟨by rw [k1.1]; exact k1.2, by rw [k2.1]; exact k2.2⟩

/-- C92: if the proofs of each target have the same numbers of instances, then no region is higher when it is assigned than it was when it was
measured; the second is as high. -/
theorem C92_fits {ts : List Target} (hf : ∀ t ∈ ts, Uniform t) {coherent : List ((ℕ × ℕ) × (ℕ × ℕ))} {a b a' b' : Ctx N} (h : assigned ps d ts coherent = some (a, b)) (h' : measured ps d ts coherent = some (a', b')) :
    height a ≤ height a' ∧ height b = height b' := by
  obtain ⟨ts', h0, h'⟩ := Option.bind_eq_some_iff.1 h'
  have hal := withoutWitnesses_all hf h0
  obtain ⟨r, h1, h⟩ := Option.bind_eq_some_iff.1 h
  obtain ⟨e, h2, h⟩ := Option.bind_eq_some_iff.1 h
  cases h
  obtain ⟨r', h1', h'⟩ := Option.bind_eq_some_iff.1 h'
  obtain ⟨e', h2', h'⟩ := Option.bind_eq_some_iff.1 h'
  cases h'
  have k1 := height_eq ((firstRegion_grows (aggregateTargets circuitChip ps circuitEncode d ts : Build _).2.2 coherent).rows _ _ _ h1)
  have k2 := height_eq (Grows.rows (m := exposePair r.1.1 r.1.2.1) _ _ _ h2)
  have k2' := height_eq (Grows.rows (m := exposePair r'.1.1 r'.1.2.1) _ _ _ h2')
  obtain ⟨q1, ⟨_, q2, q2'⟩, ⟨_, q3, q3'⟩⟩ := firstRegion_meas (aggregateTargets_meas (ps := ps) (d := d) hal) coherent _ _ _ _ _ _ h1 h1'
  constructor
  · have := firstRegion_last h1'
    have e0 : (Ctx.empty : Ctx N).offset = 0 := rfl
    omega
  · have o1 := ((Takes.exposePair q2 q3).run _ _ _ h2).1
    have o2 := ((Takes.exposePair q2' q3').run _ _ _ h2').1
    omega

/-- C92, where the passes differ: for points as the verifier has them in a multi-exponentiation, read or normalized (`LikeRead`), the measuring
pass counts 6324 rows more than are written if there is one point, and otherwise as many. -/
theorem C92_shamir {points points' : List APt} {scalars scalars' : List (AV N)} (hp : List.Forall₂ LikeRead points points') {c e c' e' : Ctx N} {r r' : APt}
    (h : Circuit.shamir points scalars c = some (r, e)) (h' : Circuit.shamirShape points' scalars' c' = some (r', e')) :
    e'.offset - c'.offset = e.offset - c.offset + if points.length = 1 then 6324 else 0 := by
  obtain ⟨fs, h1, h2⟩ := flags hp
  obtain ⟨k1, -⟩ := (Takes.shamir h1 scalars).run _ _ _ h
  obtain ⟨k2, -⟩ := (Takes.shamirShape h2 scalars').run _ _ _ h'
  rw [h1.length_eq]
  change e.offset = c.offset + shamirRows fs at k1
  change e'.offset = c'.offset + shapeRows fs at k2
  split
  · next h =>
    have := shamirRows_one h
    omega
  · next h =>
    have := shamirRows_eq h
    omega

end Verif.Top
