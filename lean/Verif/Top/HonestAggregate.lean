import Verif.Api.Honest
import Verif.Top.SynthExample

/-!
The aggregation circuit under the assignment the prover computes.

`C72_circuit_partial` holds for proofs whose identity flags are bits (`Regular`), since the circuit does not enforce it. In the assignment the prover
computes they are bits, the cells hold the scalars and points the bytes decode to, and the instance rows that follow the final pair are the instances
of the proofs.
-/

namespace Verif.Top
open Circuit Ecc Api

/-- The proofs as the prover assigns them. -/
def AsGiven {rate : ℕ} (adv : Advice N) {ps : PoseidonSpec N rate} (d : Codec N Pt) (xs : List (Logic.Part (poseidonTranscript circuitChip ps circuitEncode))) :
    Prop := ∀ x ∈ xs, x.Ran (honestLogic adv) d

theorem aggregateTargets_honest {rate : ℕ} {adv : Advice N} {ps : PoseidonSpec N rate} (hps : ps.WF) {d : Codec N Pt} (hd : 0 < d.pointLen)
    {ts : List Target} (hvk : ∀ t ∈ ts, t.vk.WF ∧ t.vk.Domain) : Honestly adv (aggregateTargets circuitChip ps circuitEncode d ts) fun r =>
      ∃ xs ks ch, Aggregated adv ps d ts xs ks ch ∧ AsGiven adv d xs ∧ r.2.2.1 = xs.flatMap (fun x => x.scalars.flatten.flatten) ∧
        r.2.2.2 = xs.map (fun x => x.result.advice) ∧
        (Regular adv ts xs → Represents adv r.1 (leftSide adv ch xs) ∧ Represents adv r.2.1 (rightSide adv ch xs)) := by
  have hP := honest_partial adv
  unfold aggregateTargets
  refine Honestly.bind ((honestLogic adv).mapM' fun t _ => openTarget_ens hP t) fun cs hcs =>
    Honestly.bind (newReader_ens (honestLogic adv) []) fun st hst => ?_
  obtain ⟨hj, hst'⟩ := jobs_opened hcs
  have hcv : ∀ ci ∈ cs, ci.vk.WF ∧ ci.vk.Domain := by
    intro ci hci
    obtain ⟨i, hi, rfl⟩ := List.getElem_of_mem hci
    have := List.Forall₂.get hcs (i := i) (by rw [hcs.length_eq]; exact hi) hi
    simp only [List.get_eq_getElem] at this
    rw [this.1]
    exact hvk _ (List.getElem_mem _)
  refine Honestly.bind (x := verifyAggregation d cs st) (C65_aggregation (honestLogic adv) hP (honest_safe adv hps) hd hcv st)
    fun r hr => (honestLogic adv).pure ?_
  obtain ⟨xs, ks, ch, evs, h1, h2, h3, h4, h5, -, h7, h8, h9, h10⟩ := hr
  have hcell : ∀ x ∈ xs, (honestLogic adv).spongeVals (rate := rate) x.data.reader.st = (ps.init, []) := fun x hx =>
    (hst' (x.vk, x.data) (h1 ▸ List.mem_map.2 ⟨x, hx, rfl⟩)).2
  have hjobs : (xs.map fun x => (x.vk, x.data.instances, x.data.reader.bytes, x.data.key)) = targetJobs ts := by
    rw [← hj, ← h1, List.map_map]
    rfl
  have hxvk : ∀ x ∈ xs, x.vk.WF := fun x hx => by
    have : (x.vk, x.data) ∈ Logic.jobs cs := h1 ▸ List.mem_map.2 ⟨x, hx, rfl⟩
    obtain ⟨ci, hci, hm⟩ := List.mem_flatMap.1 this
    obtain ⟨pr, -, he⟩ := List.mem_map.1 hm
    have : ci.vk = x.vk := (Prod.mk.inj he).1
    rw [← this]
    exact (hcv ci hci).1
  have he := honest_encodes adv
  have hw := h4.words he hps (fun _ _ h => h.fresh.natOk) (fun _ _ h => represents_natOk h) h2
  have hch := Logic.replay_scalars h5 (h7.replay he hps (fun _ _ h => h.fresh.natOk) fun q hq => absurd hq (Logic.no_points h5)).1
  refine ⟨xs, ks, ch, ⟨hjobs, fun x hx => run_weaken (h2 x hx), h3, ?_, ?_⟩, h2, h8, h9, fun hreg => h10 ⟨fun x hx => ⟨fun q hq => ?_, hreg.outside x hx⟩,
    hreg.one, ?_, ?_, hreg.many⟩⟩
  · refine List.Forall₂.imp (R := fun x k => x ∈ xs ∧ _) ?_ (forall₂_and_mem hw)
    rintro x k ⟨hx, s, evs, v, e1, e2, e3, e4, e5⟩
    rw [hcell x hx] at e3 e4
    exact ⟨s, evs, v, e1, e2, e3, e4, e5⟩
  · rw [hst.2.2] at hch
    exact hch
  · obtain ⟨P, hp⟩ := Logic.Run.read (hxvk x hx) (h2 x hx) q hq
    exact ⟨P, hp.represents⟩
  · intro x hx
    have hm : (x.vk, x.data.instances, x.data.reader.bytes, x.data.key) ∈ targetJobs ts := hjobs ▸ List.mem_map.2 ⟨x, hx, rfl⟩
    obtain ⟨t, -, ht⟩ := List.mem_flatMap.1 hm
    obtain ⟨p, -, hp⟩ := List.mem_map.1 ht
    simp only [Prod.mk.injEq] at hp
    exact ⟨t.name, p.2, hp.2.2.2.symm⟩
  · have := keys_nodup hreg.names
    rwa [← hjobs, List.map_map] at this

/-- The assigned instances are the instances, flattened. -/
theorem flatten_vals {adv : Advice N} {as : List (List (List (AV N)))} {is : List (List (List N))}
    (h : List.Forall₂ (List.Forall₂ (List.Forall₂ fun (a : AV N) k => a.val adv = k)) as is) :
    as.flatten.flatten.map (fun a => a.val adv) = is.flatten.flatten := by
  have h1 : ∀ {as : List (AV N)} {is : List N}, List.Forall₂ (fun (a : AV N) k => a.val adv = k) as is → as.map (fun a => a.val adv) = is := by
    intro as is h
    induction h with
    | nil => rfl
    | cons h _ ih => rw [List.map_cons, h, ih]
  have h2 : ∀ {as : List (List (AV N))} {is : List (List N)}, List.Forall₂ (List.Forall₂ fun (a : AV N) k => a.val adv = k) as is →
      as.flatten.map (fun a => a.val adv) = is.flatten := by
    intro as is h
    induction h with
    | nil => rfl
    | cons h _ ih => rw [List.flatten_cons, List.map_append, h1 h, ih, List.flatten_cons]
  induction h with
  | nil => rfl
  | cons h _ ih => rw [List.flatten_cons, List.flatten_append, List.map_append, h2 h, ih, List.flatten_cons, List.flatten_append]

/-- What remains to be assumed of the proofs when the prover is honest: `Regular` without the identity flags. -/
structure Plain {rate : ℕ} (adv : Advice N) {ps : PoseidonSpec N rate} (ts : List Target)
    (xs : List (Logic.Part (poseidonTranscript circuitChip ps circuitEncode))) : Prop where
  one : ∀ t ∈ ts, ∀ p ∈ t.proofs, p.1.length = 1
  names : (ts.map TargetOf.name).Nodup
  many : 2 ≤ (targetJobs ts).length ∨ ∀ t ∈ ts, 2 ≤ (t.vk.rotations 1).toFinset.card
  outside : ∀ x ∈ xs, AV.val x.params.x adv ^ x.vk.n ≠ 1

theorem Aggregated.target {rate : ℕ} {adv : Advice N} {ps : PoseidonSpec N rate} {d : Codec N Pt} {ts : List Target}
    {xs : List (Logic.Part (poseidonTranscript circuitChip ps circuitEncode))} {ks : List (AV N)} {ch : AV N} (h : Aggregated adv ps d ts xs ks ch)
    {x : Logic.Part (poseidonTranscript circuitChip ps circuitEncode)} (hx : x ∈ xs) : ∃ t ∈ ts, x.vk = t.vk ∧ ∃ p ∈ t.proofs, x.data.instances = p.1 := by
  have hm : (x.vk, x.data.instances, x.data.reader.bytes, x.data.key) ∈ targetJobs ts := h.jobs ▸ List.mem_map.2 ⟨x, hx, rfl⟩
  obtain ⟨t, ht, hm⟩ := List.mem_flatMap.1 hm
  obtain ⟨p, hp, he⟩ := List.mem_map.1 hm
  simp only [Prod.mk.injEq] at he
  refine ⟨t, ht, he.1.symm, p.1, ?_, he.2.1.symm⟩
  rw [(List.mem_zipIdx' hp).2]
  exact List.mem_of_mem_take (List.getElem_mem _)

/-- C72 for the assignment the prover computes, if it satisfies the circuit: identity flags are bits, so the final pair is exposed whenever the proofs
have one instance vector each, the names differ, and so on; and the rows after the final pair are the instances of the proofs, as given. -/
theorem C72_honest {rate : ℕ} {adv : Advice N} {ps : PoseidonSpec N rate} (hps : ps.WF) {d : Codec N Pt} (hd : 0 < d.pointLen) {ts : List Target}
    (hvk : ∀ t ∈ ts, t.vk.WF ∧ t.vk.Domain) {coherent : List ((ℕ × ℕ) × (ℕ × ℕ))} {ctx ctx' : Ctx N} {rows : List (AV N)}
    (hr : (synthesize ps d ts coherent).1 ctx = some (rows, ctx')) (hsat : Sat tables ctx' adv) (ha : Agree ctx' adv) :
    ((rows.drop 4).map fun c => c.val adv) = (targetJobs ts).flatMap (fun j => j.2.1.flatten.flatten) ∧
    ∃ xs ks ch, Aggregated adv ps d ts xs ks ch ∧ AsGiven adv d xs ∧ rows.drop 4 = xs.flatMap (fun x => x.scalars.flatten.flatten) ∧
      (∀ x ∈ xs, ∀ q ∈ Params.points (P := APt) x.params, q.z.val adv = 0 ∨ q.z.val adv = 1) ∧
      (Plain adv ts xs → Regular adv ts xs ∧ leftSide adv ch xs ≠ 0 ∧ rightSide adv ch xs ≠ 0 ∧
        Exposes ((rows.take 4).map fun c => c.val adv) (leftSide adv ch xs) (rightSide adv ch xs)) := by
  have key : Honestly adv (synthesize ps d ts coherent) fun rows => ∃ xs ks ch, Aggregated adv ps d ts xs ks ch ∧ AsGiven adv d xs ∧
      rows.drop 4 = xs.flatMap (fun x => x.scalars.flatten.flatten) ∧
      (Regular adv ts xs → leftSide adv ch xs ≠ 0 ∧ rightSide adv ch xs ≠ 0 ∧
        Exposes ((rows.take 4).map fun c => c.val adv) (leftSide adv ch xs) (rightSide adv ch xs)) := by
    unfold synthesize
    refine Honestly.bind (aggregateTargets_honest hps hd hvk) fun (r : APt × APt × List (AV N) × List (List APt)) hr => ?_
    obtain ⟨p, q, is, advice⟩ := r
    obtain ⟨xs, ks, ch, h1, h0, h2, h3, h4⟩ := hr
    refine Honestly.of (Holds.bind (checkCoherent_holds adv advice coherent) fun _ h5 => Holds.bind (Holds.of (Spec.assertFalse _)) fun _ h6 =>
      Holds.bind (Holds.of (Spec.assertFalse _)) fun _ h7 => Holds.bind (Holds.of (Spec.exposePair p q)) fun rs h8 => Holds.pure ?_)
    obtain ⟨h8, h9⟩ := h8
    dsimp only at h2 h3 h4 h6 h7 h9
    refine ⟨xs, ks, ch, h1, h0, ?_, fun hreg => ?_⟩
    · rw [← h2, List.drop_left' h8]
    · obtain ⟨h10, h11⟩ := h4 hreg
      have ne : ∀ {p : APt} {P : Pt}, Represents adv p P → p.z.val adv = 0 → P ≠ 0 := by
        rintro p P hp hz rfl
        have := hp.1.ident rfl
        rw [hz] at this
        exact zero_ne_one this
      refine ⟨ne h10 h6, ne h11 h7, ?_⟩
      rw [List.take_left' h8]
      exact h9 _ _ (ne h10 h6) (ne h11 h7) h10.1 h11.1
  obtain ⟨xs, ks, ch, h1, h0, h2, h3⟩ := key ctx rows ctx' hr hsat ha
  have hflags : ∀ x ∈ xs, ∀ q ∈ Params.points (P := APt) x.params, q.z.val adv = 0 ∨ q.z.val adv = 1 := by
    intro x hx q hq
    obtain ⟨t, ht, hv, -⟩ := h1.target hx
    obtain ⟨P, hp⟩ := Logic.Run.read (hv ▸ (hvk t ht).1) (h0 x hx) q hq
    exact hp.bit
  refine ⟨?_, xs, ks, ch, h1, h0, h2, hflags, fun hp => ?_⟩
  · rw [h2, ← h1.jobs, List.flatMap_map]
    refine (List.map_flatMap (f := fun c : AV N => c.val adv)).trans (List.flatMap_congr fun x hx => ?_)
    exact flatten_vals (h0 x hx).assigned
  · have hreg : Regular adv ts xs := by
      refine ⟨fun x hx => ?_, hp.names, ?_, hflags, hp.outside⟩
      · obtain ⟨t, ht, -, p, hpp, he⟩ := h1.target hx
        rw [he]
        exact hp.one t ht p hpp
      · refine hp.many.imp (fun h => ?_) fun h x hx => ?_
        · rwa [← h1.jobs, List.length_map] at h
        · obtain ⟨t, ht, he, -⟩ := h1.target hx
          rw [he]
          exact h t ht
    exact ⟨hreg, h3 hreg⟩

/-! ### The assumptions can be met -/

namespace TinySynth
open TinyContract (toCurve)

/-- The permutation that maps everything to zero gives challenges that are zero. -/
theorem replay_zero {P S : Type} {pw : P → List N} {sv : S → N} : ∀ {evs : List (Event P S)} {s : Fin 3 → N} {b : List N},
    Replay TinyPoseidon.deaf pw sv s b evs → ∀ k, .challenge k ∈ evs → sv k = 0
  | [], _, _, _, k, hk => by simp at hk
  | .commonPoint _ :: l, _, _, h, k, hk => replay_zero (evs := l) h k (by simpa using hk)
  | .point _ :: l, _, _, h, k, hk => replay_zero (evs := l) h k (by simpa using hk)
  | .commonScalar _ :: l, _, _, h, k, hk => replay_zero (evs := l) h k (by simpa using hk)
  | .scalar _ :: l, _, _, h, k, hk => replay_zero (evs := l) h k (by simpa using hk)
  | .challenge k' :: l, s, b, h, k, hk => by
    rcases List.mem_cons.1 hk with e | hk
    · cases e
      rw [h.1, TinyPoseidon.deaf_absorb]
      rfl
    · exact replay_zero (evs := l) h.2 k hk

theorem wf : (vkN.map toCurve).WF where
  degree := by decide
  quotientDegree := by decide
  n := by decide
  phases := by decide
  advicePhase := by decide
  instanceQuery := by decide
  adviceQuery := by decide
  fixedQuery := by decide
  permColumns := by decide
  permSize := by simp [vkN, VK.map, chunks]
  gates := by simp [vkN, VK.map, Expr.Closed]
  lookups := by simp [vkN, VK.map]

theorem domain : (vkN.map toCurve).Domain where
  root := by
    show (-1 : N) ^ 2 = 1
    norm_num
  n := by
    show ((2 : ℕ) : N) ≠ 0
    decide +kernel
  basis := rfl

theorem vks : ∀ t ∈ targets, t.vk.WF ∧ t.vk.Domain := by
  intro t ht
  have : t.vk = vkN.map toCurve := by
    simp only [targets, targetsN, List.map_cons, List.map_nil, List.mem_cons, List.not_mem_nil, or_false] at ht
    rcases ht with rfl | rfl <;> rfl
  rw [this]
  exact ⟨wf, domain⟩

/-- The circuit of two proofs is built, the prover's assignment satisfies it, and every assumption of C72 holds of it. -/
example : ∃ rows ctx, (synthesize TinyPoseidon.deaf codec targets []).1 Ctx.empty = some (rows, ctx) ∧ Sat tables ctx ctx.wit ∧
    ((rows.drop 4).map fun c => c.val ctx.wit) = [4, 2] ∧
    ∃ xs ks ch, Aggregated ctx.wit TinyPoseidon.deaf codec targets xs ks ch ∧ Regular ctx.wit targets xs ∧
      Exposes ((rows.take 4).map fun c => c.val ctx.wit) (leftSide ctx.wit ch xs) (rightSide ctx.wit ch xs) := by
  obtain ⟨l, r, hl, hr, h⟩ := run_guarded
  obtain ⟨-, rows, ctx, h1, h2, -⟩ := C79_circuit_partial h hl hr (coherent := []) (by simp)
  obtain ⟨e, xs, ks, ch, h3, -, -, -, h4⟩ := C72_honest TinyPoseidon.deaf_wf (by decide) vks h1 h2 fun _ _ => rfl
  have hp : Plain ctx.wit targets xs := by
    refine ⟨?_, ?_, Or.inl ?_, fun x hx => ?_⟩
    · intro t ht p hp
      simp only [targets, targetsN, List.map_cons, List.map_nil, List.mem_cons, List.not_mem_nil, or_false] at ht
      rcases ht with rfl | rfl <;> (rw [List.mem_singleton.1 hp]; rfl)
    · show ["first", "second"].Nodup
      decide
    · show 2 ≤ 2
      exact le_rfl
    · obtain ⟨i, hi, rfl⟩ := List.getElem_of_mem hx
      obtain ⟨s, evs, v, -, e2, e3, -⟩ := List.Forall₂.get h3.hashed (i := i) hi (h3.hashed.length_eq ▸ hi)
      have hz : AV.val xs[i].params.x ctx.wit = 0 := by
        refine replay_zero e3 _ ?_
        rw [e2]
        unfold Params.layout
        simp
      obtain ⟨t, ht, hv, -⟩ := h3.target hx
      rw [hz, zero_pow]
      · exact zero_ne_one
      · rw [hv]
        have := (vks t ht).1.n
        omega
  obtain ⟨h5, -, -, h6⟩ := h4 hp
  exact ⟨rows, ctx, h1, h2, e.trans rfl, xs, ks, ch, h3, h5, h6⟩

end TinySynth

end Verif.Top
