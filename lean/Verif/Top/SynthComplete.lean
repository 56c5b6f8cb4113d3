import Verif.Api.GuardedCircuit
import Verif.Top.Synthesize

/-!
# The verifier circuit is satisfied for an honest prover

Where the guarded native verifier accepts, `synthesize` returns, the values the code assigns satisfy every gate, lookup and copy, and the
instance rows are those of `final_pair_to_instances`.
-/

namespace Verif.Top
open Verif.Circuit Verif.Ecc Verif.Api

/-! ### Two chips on the same targets -/

section Generic
variable {G G' : Type} [AddCommGroup G] [AddCommGroup G'] {c : Chip N G} {c' : Chip N G'} {φ : G → G'} {X : Link c c' φ} {rate : ℕ}
  {ps : PoseidonSpec N rate} {e : Encode c} {e' : Encode c'} {d : Codec N G} {d' : Codec N G'}

/-- The same proofs, with the points of the key mapped. -/
def TargetOf.map (φ : G → G') (t : TargetOf G) : TargetOf G' := ⟨t.name, t.vk.map φ, t.proofs, t.nproofs⟩

omit [AddCommGroup G] in
theorem target_map_id (t : TargetOf G) : t.map id = t := by
  obtain ⟨_, vk, _, _⟩ := t
  cases vk
  simp [TargetOf.map, VK.map]

theorem same_list {α : Type} : ∀ l : List α, List.Forall₂ (fun a b => a = b) l l
  | [] => .nil
  | _ :: l => .cons rfl (same_list l)

variable (Z : SameBytes X (poseidonTranscript c ps e) (poseidonTranscript c' ps e') d d')
  (hst : ∀ w (st : Sponge c.S rate) (st' : Sponge c'.S rate), X.Sponge w st st' → Z.st w st st') (hok : ∀ b, Z.ok b)
include hst hok

theorem newReader_link {w : X.W} (bytes : List UInt8) : X.R w (newReader c ps e bytes) (newReader c' ps e' bytes) Z.rd :=
  X.bind (Link.spongeNew ps) fun _ _ _ _ h => X.pure ⟨⟨rfl, hok _, rfl⟩, hst _ _ _ h⟩

theorem openProof_link {w : X.W} (t : TargetOf G) (i : ℕ) : X.R w (openProof c ps e t i) (openProof c' ps e' (t.map φ) i) Z.link.Data := by
  refine X.bind (Link.indexSame t.proofs i) fun w' pr pr' _ hpr => ?_
  subst hpr
  exact X.bind (newReader_link Z hst hok _) fun _ _ _ _ h => X.pure ⟨rfl, rfl, h⟩

theorem openTarget_link {w : X.W} (t : TargetOf G) : X.R w (openTarget c ps e t) (openTarget c' ps e' (t.map φ)) Z.link.Circuit := by
  refine X.bind (Link.mapM' (A := fun _ a b => a = b) (Q := Z.link.Data) (same_list _) fun w' _ i i' hi => ?_) fun w' prs prs' _ h =>
    X.pure ⟨rfl, h⟩
  subst hi
  exact openProof_link Z hst hok t i

theorem aggregateTargets_link (h0 : φ 0 = 0) (hv : ∀ (w : X.W) (k : N), X.R w (c.assignVar k) (c'.assignVar k) X.s) {w : X.W} (ts : List (TargetOf G)) :
    X.R w (aggregateTargets c ps e d ts) (aggregateTargets c' ps e' d' (ts.map (TargetOf.map φ))) fun w r r' => X.p w r.1 r'.1 ∧ X.o w r.2.1 r'.2.1 ∧
      List.Forall₂ (X.s w) r.2.2.1 r'.2.2.1 ∧ List.Forall₂ (List.Forall₂ (X.n w)) r.2.2.2 r'.2.2.2 := by
  have hts : List.Forall₂ (fun t t' => t' = t.map φ) ts (ts.map (TargetOf.map φ)) := by
    rw [List.forall₂_map_right_iff]
    exact (same_list ts).imp fun _ _ h => by rw [h]
  refine X.bind (Link.mapM' (A := fun _ t t' => t' = TargetOf.map φ t) (Q := Z.link.Circuit) hts fun w' _ t t' ht => ?_) fun w' cs cs' _ hcs => ?_
  · subst ht
    exact openTarget_link Z hst hok t
  · refine X.bind (newReader_link Z hst hok []) fun w'' st st' hw hr => ?_
    refine X.bind (Z.link.verifyAggregation h0 hv (hcs.imp fun a b h => Up.up (P := fun w => Z.link.Circuit w a b) hw h) st st' hr) fun w3 r r' _ hr => X.pure hr.1

end Generic

/-! ### The checks after the aggregation -/

open Guarded

theorem coord_run {α : Type} {w : Stage} {l : List α} {i : ℕ} {x : α} (h : l[i]? = some x) :
    (index circuitChip l i : Build α).1 w.1 = some (x, w.1) := by
  unfold index
  rw [h]
  rfl

/-- Commitments that are declared to be coherent are equal. -/
def Same (commits : List (List Pt)) (k : (ℕ × ℕ) × (ℕ × ℕ)) : Prop :=
  ∃ l l' P, commits[k.1.1]? = some l ∧ l[k.1.2]? = some P ∧ commits[k.2.1]? = some l' ∧ l'[k.2.2]? = some P

theorem getElem_rel {α β : Type} {R : α → β → Prop} {l : List α} {l' : List β} (h : List.Forall₂ R l l') {i : ℕ} {a : α} (ha : l[i]? = some a) :
    ∃ b, l'[i]? = some b ∧ R a b := by
  induction h generalizing i with
  | nil => simp at ha
  | cons h _ ih =>
    cases i with
    | zero => exact ⟨_, rfl, by simp at ha; exact ha ▸ h⟩
    | succ i => exact ih (by simpa using ha)

theorem checkCoherent_run : ∀ {w : Stage} {cs : List (List Pt)} {cs' : List (List APt)}, List.Forall₂ (List.Forall₂ fun P p => HQ w.1 p P) cs cs' →
    ∀ l, (∀ k ∈ l, Same cs k) → ∃ w' : Stage, (checkCoherent cs' l).1 w.1 = some ((), w'.1) ∧ Ext w.1 w'.1
  | w, _, _, _, [], _ => ⟨w, rfl, Ext.refl _⟩
  | w, cs, cs', h, k :: l, hs => by
    obtain ⟨l1, l2, P, h1, h2, h3, h4⟩ := hs k (by simp)
    obtain ⟨l1', k1, r1⟩ := getElem_rel h h1
    obtain ⟨p, k2, r2⟩ := getElem_rel r1 h2
    obtain ⟨l2', k3, r3⟩ := getElem_rel h h3
    obtain ⟨q, k4, r4⟩ := getElem_rel r3 h4
    have ho : ∀ {a b : ℕ}, EvenCount a → EvenCount b → a + b < 62 := by
      intro a b ha hb
      have := ha.1
      have := hb.1
      omega
    obtain ⟨u, c1, f1, g1, e1, -⟩ := (CSpec.pAssertEqual p q (ho r2.hp.xo r4.hp.xo) (ho r2.hp.yo r4.hp.yo) (.inl ⟨rfl, rfl⟩)).run w.1 w.2 ⟨r2.pt, r4.pt⟩
    obtain ⟨w', f2, e2⟩ := checkCoherent_run (w := ⟨c1, g1⟩) (h.imp fun _ _ h => h.imp fun _ _ h => h.ext e1) l fun k hk => hs k (by simp [hk])
    refine ⟨w', ?_, e1.trans e2⟩
    unfold checkCoherent
    exact build_run (build_run (coord_run k1) (coord_run k2)) (build_run (build_run (coord_run k3) (coord_run k4)) (build_run f1 f2))

/-- C79, completeness of the verifier circuit: if the native verifier, run with the honest prover's tangents in mind (`guarded`), returns
the pair `(l, r)` and the instances `is`, neither point is the identity, and commitments that are declared coherent are equal, then the
circuit is built, the values assigned in building it satisfy it, and the instance rows are the ones of `final_pair_to_instances`. The native
verifier returns the same.

Missing from C79 as stated: proofs whose verification meets a point for which the tangent slope cannot be computed (`C79_false`). -/
theorem C79_circuit_partial {rate : ℕ} {ps : PoseidonSpec N rate} {d : Codec N Pt} {ts : List Target} {coherent : List ((ℕ × ℕ) × (ℕ × ℕ))}
    {l r : Pt} {is : List N} {commits : List (List Pt)}
    (h : aggregateTargets guarded ps guardedEncode d ts = some (l, r, is, commits)) (hl : l ≠ 0) (hr : r ≠ 0) (hc : ∀ k ∈ coherent, Same commits k) :
    aggregateTargets (mock N gen) ps mockEncode d ts = some (l, r, is, commits) ∧
    ∃ rows ctx, (synthesize ps d ts coherent).1 Ctx.empty = some (rows, ctx) ∧ Sat tables ctx ctx.wit ∧
      some (rows.map fun c => c.val ctx.wit) = pairToInstances l r is := by
  have hid : ts.map (TargetOf.map id) = ts := (List.map_congr_left fun t _ => target_map_id t).trans (List.map_id _)
  constructor
  · obtain ⟨⟨l', r', is', cs'⟩, h1, h2, h3, h4, h5⟩ := aggregateTargets_link (X := native) (nativeBytes ps d) (fun _ _ _ h => h) (fun _ => trivial) rfl
      (fun _ _ => Checked.R.some rfl) (w := ()) ts _ h
    rw [hid] at h1
    rw [h1]
    have e1 : l' = l := h2
    have e2 : r' = r := h3
    have e3 : is' = is := Checked.eq_of h4
    have e4 : cs' = commits := Checked.eq_of (h5.imp fun _ _ h => Checked.eq_of h)
    rw [e1, e2, e3, e4]
    rfl
  · obtain ⟨⟨p, q, is', cs'⟩, w1, f1, e1, h2, h3, h4, h5⟩ := aggregateTargets_link (X := circuit) (circuitBytes ps d) (fun _ _ _ h => h) (fun _ => trivial) rfl
      (fun _ k => Run.of (Spec.assign k) (CSpec.assign k) trivial rfl fun _ _ hr => hr) (w := ⟨Ctx.empty, good_empty⟩) ts _ h
    rw [hid] at f1
    have h2 : HQ w1.1 p l := h2
    have h3 : HEnd w1.1 q r := h3
    obtain ⟨is1, rfl⟩ : ∃ l : List (AV N), l = is' := ⟨is', rfl⟩
    have h4 : List.Forall₂ (Cell w1) is is1 := h4
    obtain ⟨w2, f2, e2⟩ := checkCoherent_run (h5.imp fun _ _ h => h.imp fun _ _ h => h.hq) coherent hc
    have k2 := h2.ext e2
    have k3 := h3.ext e2
    obtain ⟨u, c3, f3, g3, e3, -⟩ := (CSpec.assertConstant (t := tables) p.z 0 (by rw [k2.z, flagOf_ne hl])).run w2.1 w2.2 k2.hp.z
    obtain ⟨v, c4, f4, g4, e4, -⟩ := (CSpec.assertConstant (t := tables) q.z 0 (by rw [k3.flag, flagOf_ne hr])).run c3 g3 (k3.z.ext e3)
    have k2 := k2.ext (e3.trans e4)
    have k3 := k3.ext (e3.trans e4)
    obtain ⟨rows, c5, f5, g5, e5, h6⟩ := (CSpec.exposePair_reads p q (coordX l).val (coordY l).val (coordX r).val (coordY r).val).run c4 g4
      ⟨.inr ⟨_, k2.pt.x, rfl⟩, .inr ⟨_, k2.pt.y, rfl⟩, .inr ⟨_, ⟨k3.x, k3.xo, (k3.aff hr).1⟩, rfl⟩, .inr ⟨_, ⟨k3.y, k3.yo, (k3.aff hr).2⟩, rfl⟩⟩
    refine ⟨rows ++ is1, c5, build_run f1 (build_run f2 (build_run f3 (build_run f4 (build_run f5 rfl)))), g5.sat, ?_⟩
    rw [C48_native hl hr, List.map_append, h6]
    congr 2
    obtain ⟨h7, h8⟩ := cells h4
    rw [← h8]
    exact List.map_congr_left fun s hs => val_wit ((h7 s hs).ext (e2.trans (e3.trans (e4.trans e5))))

end Verif.Top
