import Verif.Api.VerifyProps
import Verif.Api.PoseidonCircuit

/-!
# Properties of the Poseidon transcript

C37, C68, C69, C70, and the hypotheses of C64 and C65 in the circuit.
-/

namespace Verif.Api

open Verif.Circuit Verif.Ecc

variable {F G : Type} {c : Chip F G} [Field F] [AddCommGroup G] [Module F G] {gen : G} {rate : ℕ}

/-! ### C37: the sponge -/

/-- `PoseidonChip::squeeze`: whatever chip runs it, the state is the Poseidon sponge (`PoseidonSpec.absorb`: pad with a one and zeros,
add blocks of `rate` words, permute) of the words absorbed since the last squeeze, from the state left by it; the challenge is the
second word of the state; nothing stays in the buffer. -/
theorem C37_squeeze (L : Logic c gen) {ps : PoseidonSpec F rate} (hps : ps.WF) (st : Sponge c.S rate) :
    L.Ens (spongeSqueeze c ps st) fun r =>
      L.vals r.2.s = ps.absorb (L.vals st.s) (st.absorbing.map L.sv) ∧ r.2.absorbing = [] ∧
      L.sv r.1 = ps.absorb (L.vals st.s) (st.absorbing.map L.sv) (Fin.ofNat (rate + 1) 1) := Logic.spongeSqueeze hps st

theorem C37_squeeze_mock {ps : PoseidonSpec F rate} (hps : ps.WF) (st : Sponge F rate) :
    spongeSqueeze (mock F gen) ps st =
      some (ps.absorb st.s st.absorbing (Fin.ofNat (rate + 1) 1), ⟨ps.absorb st.s st.absorbing, []⟩) := by
  obtain ⟨⟨k, s, a⟩, h, h1, h2, h3⟩ := C37_squeeze (mockLogic F gen) hps st
  have e : List.map (mockLogic F gen).sv st.absorbing = st.absorbing := List.map_id _
  have e1 : s = ps.absorb st.s st.absorbing := by rw [← e]; exact h1
  have e2 : a = [] := h2
  have e3 : k = ps.absorb st.s st.absorbing (Fin.ofNat (rate + 1) 1) := by rw [← e]; exact h3
  rw [h, e1, e2, e3]
  rfl

theorem C37_squeeze_circuit {adv : Advice N} {ps : PoseidonSpec N rate} (hps : ps.WF) (st : Sponge (AV N) rate)
    {ctx ctx' : Ctx N} {r : AV N × Sponge (AV N) rate} (hr : (spongeSqueeze circuitChip ps st).1 ctx = some (r, ctx'))
    (hsat : Sat tables ctx' adv) :
    (fun i => (r.2.s i).val adv) = ps.absorb (fun i => (st.s i).val adv) (st.absorbing.map fun a => a.val adv) ∧ r.2.absorbing = [] ∧
    r.1.val adv = ps.absorb (fun i => (st.s i).val adv) (st.absorbing.map fun a => a.val adv) (Fin.ofNat (rate + 1) 1) :=
  C37_squeeze (circuitLogic adv) hps st ctx r ctx' hr hsat

/-- Two squeezes: the state is kept. -/
theorem C37_twice {ps : PoseidonSpec F rate} (hps : ps.WF) (st : Sponge F rate) (l : List F) :
    (do
      let r ← spongeSqueeze (mock F gen) ps st
      spongeSqueeze (mock F gen) ps (Sponge.update (c := mock F gen) r.2 l)) =
      some (ps.absorb (ps.absorb st.s st.absorbing) l (Fin.ofNat (rate + 1) 1), ⟨ps.absorb (ps.absorb st.s st.absorbing) l, []⟩) := by
  rw [C37_squeeze_mock hps st]
  exact C37_squeeze_mock hps ⟨ps.absorb st.s st.absorbing, l⟩

theorem chunks_flatten {α : Type} {k : ℕ} (hk : 0 < k) : ∀ (n : ℕ) (l : List α), l.length ≤ n → (chunks k l).flatten = l
  | 0, l, hl => by
    rw [Logic.chunks_stop (.inr (List.eq_nil_of_length_eq_zero (by omega))), List.eq_nil_of_length_eq_zero (l := l) (by omega)]
    rfl
  | n + 1, l, hl => by
    rcases eq_or_ne l [] with rfl | h
    · rw [Logic.chunks_stop (.inr rfl)]
      rfl
    · have hp := List.length_pos_iff.2 h
      rw [Logic.chunks_step (by rintro (h' | h'); omega; exact h h'), List.flatten_cons,
        chunks_flatten hk n _ (by rw [List.length_drop]; omega), List.take_append_drop]

/-- A small instance, for the examples. -/
def demoPoseidon (F : Type) [Field F] : PoseidonSpec F 2 where
  rf := 2
  start := [![1, 2, 3], ![4, 5, 6]]
  partials := [7]
  ends := []
  mds := ![![2, 1, 1], ![1, 2, 1], ![1, 1, 3]]
  preSparse := ![![1, 0, 2], ![0, 1, 0], ![3, 0, 1]]
  sparse := [(![1, 2, 3], ![4, 5])]
  init := ![1, 0, 0]

theorem demoPoseidon_wf (F : Type) [Field F] : (demoPoseidon F).WF := ⟨by decide, by simp [demoPoseidon], by simp [demoPoseidon]⟩

instance : Fact (Nat.Prime 101) := ⟨by norm_num⟩

/-- One word, and the padding. -/
example (gen : ZMod 101) (st : Sponge (ZMod 101) 2) (hs : st.s = ![1, 0, 0]) (ha : st.absorbing = [10]) :
    (spongeSqueeze (mock (ZMod 101) gen) (demoPoseidon _) st).map Prod.fst = some (51 : ZMod 101) := by
  rw [C37_squeeze_mock (demoPoseidon_wf _) st, hs, ha]
  have e : (demoPoseidon (ZMod 101)).absorb ![1, 0, 0] [10] (Fin.ofNat 3 1) = 51 := by
    rw [PoseidonSpec.absorb_short _ _ (by decide)]
    decide +kernel
  exact congrArg some e

/-- The padding loses nothing: different inputs give different blocks. -/
theorem C37_injective {r : ℕ} (hr : 0 < r) {l l' : List F}
    (h : chunks r (PoseidonSpec.pad r l) = chunks r (PoseidonSpec.pad r l')) : l = l' := by
  have h' := congrArg List.flatten h
  rw [chunks_flatten hr _ _ le_rfl, chunks_flatten hr _ _ le_rfl] at h'
  exact PoseidonSpec.pad_injective h'

/-- But nothing separates two squeezes: squeezing twice after `rate - 1` words leaves the state that squeezing once after those words and
a one leaves. -/
theorem C37_history_ambiguous (ps : PoseidonSpec F rate) (hr : 0 < rate) (s : Fin (rate + 1) → F) {l : List F}
    (hl : l.length + 1 = rate) : ps.absorb s (l ++ [1]) = ps.absorb (ps.absorb s l) [] := by
  have h1 : (l ++ [1]).length = rate := by rw [List.length_append, List.length_singleton, hl]
  rw [PoseidonSpec.absorb_long ps hr s h1.ge, List.drop_of_length_le h1.le, List.take_of_length_le h1.le,
    PoseidonSpec.absorb_short ps s (l := l) (by omega)]
  congr 2
  refine PoseidonSpec.addBlock_congr (fun i hi => ?_) s
  rw [List.getD_append _ _ _ _ (by omega)]

/-! ### C68: the challenges are the hash of the transcript -/

/-- The specification of a Poseidon transcript: from the sponge state `s` with `b` absorbed since the last challenge, every value is
absorbed as the words `pw` or `sv` gives, and every challenge is the second word of the hash. -/
def Replay {P S : Type} (ps : PoseidonSpec F rate) (pw : P → List F) (sv : S → F) :
    (Fin (rate + 1) → F) → List F → List (Event P S) → Prop
  | _, _, [] => True
  | s, b, .commonPoint p :: l => Replay ps pw sv s (b ++ pw p) l
  | s, b, .point p :: l => Replay ps pw sv s (b ++ pw p) l
  | s, b, .commonScalar k :: l => Replay ps pw sv s (b ++ [sv k]) l
  | s, b, .scalar k :: l => Replay ps pw sv s (b ++ [sv k]) l
  | s, b, .challenge k :: l => sv k = ps.absorb s b (Fin.ofNat (rate + 1) 1) ∧ Replay ps pw sv (ps.absorb s b) [] l

/-- The sponge after the events: its state, and what was absorbed since the last challenge. -/
def spongeAfter {P S : Type} (ps : PoseidonSpec F rate) (pw : P → List F) (sv : S → F) :
    (Fin (rate + 1) → F) × List F → List (Event P S) → (Fin (rate + 1) → F) × List F
  | v, [] => v
  | v, .commonPoint p :: l => spongeAfter ps pw sv (v.1, v.2 ++ pw p) l
  | v, .point p :: l => spongeAfter ps pw sv (v.1, v.2 ++ pw p) l
  | v, .commonScalar k :: l => spongeAfter ps pw sv (v.1, v.2 ++ [sv k]) l
  | v, .scalar k :: l => spongeAfter ps pw sv (v.1, v.2 ++ [sv k]) l
  | v, .challenge _ :: l => spongeAfter ps pw sv (ps.absorb v.1 v.2, []) l

namespace Logic

/-- The encoder turns points that are `ok` into the words `pw`, and scalars into themselves. -/
structure Encodes (L : Logic c gen) (e : Encode c) (ok : c.P → Prop) (pw : c.P → List F) : Prop where
  point : ∀ p, L.Ens (e.point p) fun l => ok p → l.map L.sv = pw p
  scalar : ∀ s, L.Ens (e.scalar s) fun l => l.map L.sv = [L.sv s]
  decode : ∀ s, L.Ens (e.decode s) fun r => L.sv r = L.sv s

variable {L : Logic c gen} {e : Encode c} {ok : c.P → Prop} {pw : c.P → List F} {ps : PoseidonSpec F rate}

theorem Encodes.safe (h : L.Encodes e ok pw) (hps : ps.WF) : L.Safe (poseidonTranscript c ps e) where
  commonPoint _ p := L.bind (h.point p) fun _ _ => L.pure trivial
  commonScalar _ s := L.bind (h.scalar s) fun _ _ => L.pure trivial
  squeeze st := L.bind (L.spongeSqueeze hps st) fun r _ => L.bind (h.decode r.1) fun _ _ => L.pure trivial

/-- A sponge as its values. -/
def spongeVals (L : Logic c gen) (st : Sponge c.S rate) : (Fin (rate + 1) → F) × List F := (L.vals st.s, st.absorbing.map L.sv)

theorem Encodes.commonPoint (h : L.Encodes e ok pw) (st : Sponge c.S rate) {p : c.P} (hp : ok p) :
    L.Ens ((poseidonTranscript c ps e).commonPoint st p) fun st' =>
      L.spongeVals (rate := rate) st' = ((L.spongeVals st).1, (L.spongeVals st).2 ++ pw p) :=
  L.bind (h.point p) fun l hl => L.pure <| by
    unfold spongeVals Sponge.update
    dsimp only
    rw [List.map_append, hl hp]

theorem Encodes.commonScalar (h : L.Encodes e ok pw) (st : Sponge c.S rate) (k : c.S) :
    L.Ens ((poseidonTranscript c ps e).commonScalar st k) fun st' =>
      L.spongeVals (rate := rate) st' = ((L.spongeVals st).1, (L.spongeVals st).2 ++ [L.sv k]) :=
  L.bind (h.scalar k) fun l hl => L.pure <| by
    unfold spongeVals Sponge.update
    dsimp only
    rw [List.map_append, hl]

theorem Encodes.squeeze (h : L.Encodes e ok pw) (hps : ps.WF) (st : Sponge c.S rate) :
    L.Ens ((poseidonTranscript c ps e).squeeze st) fun r =>
      L.spongeVals (rate := rate) r.2 = (ps.absorb (L.spongeVals st).1 (L.spongeVals st).2, []) ∧
      L.sv r.1 = ps.absorb (L.spongeVals st).1 (L.spongeVals st).2 (Fin.ofNat (rate + 1) 1) :=
  L.bind (L.spongeSqueeze hps st) fun r hr => L.bind (h.decode r.1) fun k hk => L.pure <| by
    obtain ⟨h1, h2, h3⟩ := hr
    refine ⟨?_, by rw [hk, h3]; rfl⟩
    unfold spongeVals
    dsimp only
    rw [h1, h2]
    rfl

/-- What went through the transcript is replayed by the specification. -/
theorem Took.replay (he : L.Encodes e ok pw) (hps : ps.WF) (hw : ∀ p P, L.pwit p P → ok p) {d : Codec F G} {b b' : List UInt8}
    {st st' : (poseidonTranscript c ps e).St} {evs : List (Event c.P c.S)}
    (h : L.Took (T := poseidonTranscript c ps e) d b st evs b' st') (hc : ∀ p, .commonPoint p ∈ evs → ok p) :
    Replay ps pw L.sv (L.spongeVals (rate := rate) st).1 (L.spongeVals (rate := rate) st).2 evs ∧
      L.spongeVals (rate := rate) st' = spongeAfter ps pw L.sv (L.spongeVals (rate := rate) st) evs := by
  induction h with
  | nil => exact ⟨trivial, rfl⟩
  | point P b1 st1 h hp ha _ ih =>
    have h1 := ha _ (he.commonPoint _ (hw _ _ hp))
    rw [h1] at ih
    exact ih fun p hp => hc p (List.mem_cons_of_mem _ hp)
  | scalar k b1 st1 h hp ha _ ih =>
    have h1 := ha _ (he.commonScalar _ _)
    rw [h1] at ih
    exact ih fun p hp => hc p (List.mem_cons_of_mem _ hp)
  | commonPoint st1 ha _ ih =>
    have h1 := ha _ (he.commonPoint _ (hc _ List.mem_cons_self))
    rw [h1] at ih
    exact ih fun p hp => hc p (List.mem_cons_of_mem _ hp)
  | commonScalar st1 ha _ ih =>
    have h1 := ha _ (he.commonScalar _ _)
    rw [h1] at ih
    exact ih fun p hp => hc p (List.mem_cons_of_mem _ hp)
  | challenge st1 ha _ ih =>
    obtain ⟨h1, h2⟩ := ha _ (he.squeeze hps _)
    dsimp only at h1 h2
    rw [h1] at ih
    exact ⟨⟨h2, (ih fun p hp => hc p (List.mem_cons_of_mem _ hp)).1⟩, (ih fun p hp => hc p (List.mem_cons_of_mem _ hp)).2⟩

end Logic

/-! ### The encoders -/

/-- What `encode_point` makes of the cells of a point: the integers in the limbs of both coordinates, modulo the scalar-field prime. -/
def cellWords (adv : Advice N) (p : APt) : List N := [(limbsVal adv p.x.limbs : N), (limbsVal adv p.y.limbs : N)]

/-- What the native verifier absorbs for a point. -/
noncomputable def pointWords (P : Pt) : List N := [((coordX P).val : N), ((coordY P).val : N)]

theorem circuit_encodes (adv : Advice N) :
    (circuitLogic adv).Encodes circuitEncode (fun p : APt => NatOk adv p.x ∧ NatOk adv p.y) (cellWords adv) where
  point p := Holds.bind (Holds.of (Spec.native p.x)) fun x hx => Holds.bind (Holds.of (Spec.native p.y)) fun y hy =>
    Holds.pure fun ⟨h1, h2⟩ => by
      show [x.1.val adv, y.1.val adv] = _
      rw [(hx h1).1, (hy h2).1]
      rfl
  scalar s := Holds.pure rfl
  decode s := Holds.pure rfl

theorem mock_encodes : (mockLogic N Ecc.gen).Encodes mockEncode (fun _ => True) pointWords where
  point P := ⟨_, rfl, fun _ => rfl⟩
  scalar s := ⟨_, rfl, rfl⟩
  decode s := ⟨_, rfl, rfl⟩

theorem Fresh.natOk {adv : Advice N} {p : APt} (h : Fresh adv p) : NatOk adv p.x ∧ NatOk adv p.y := ⟨h.1.1.native, h.2.1.1.native⟩

theorem represents_natOk {adv : Advice N} {p : APt} {P : Pt} (h : Represents adv p P) : NatOk adv p.x ∧ NatOk adv p.y :=
  ⟨h.1.x.1.native, h.1.y.1.native⟩

/-- The Poseidon transcript of the circuit is safe in the sense of C62 to C65. -/
theorem circuit_safe (adv : Advice N) {ps : PoseidonSpec N rate} (hps : ps.WF) :
    (circuitLogic adv).Safe (poseidonTranscript circuitChip ps circuitEncode) := (circuit_encodes adv).safe hps

theorem mock_safe {ps : PoseidonSpec N rate} (hps : ps.WF) :
    (mockLogic N Ecc.gen).Safe (poseidonTranscript (mock N Ecc.gen) ps mockEncode) := mock_encodes.safe hps

/-! ### The points of a proof are read from it -/

theorem mem_onPhase {α : Type} {phases : List ℕ} {l : List α} (h : l.length ≤ phases.length) {a : α} (ha : a ∈ l) :
    ∃ φ ∈ phases, a ∈ onPhase φ phases l := by
  obtain ⟨i, hi, rfl⟩ := List.getElem_of_mem ha
  refine ⟨phases[i], List.getElem_mem _, ?_⟩
  unfold onPhase
  refine List.mem_map.2 ⟨(phases[i], l[i]), List.mem_filter.2 ⟨?_, by simp⟩, rfl⟩
  rw [List.mem_iff_getElem]
  exact ⟨i, by rw [List.length_zip]; omega, by rw [List.getElem_zip]⟩

/-- Every commitment of the record comes from a point of the transcript. -/
theorem Params.points_read {P S : Type} {vk : VK F G} (hvk : vk.WF) {ics : List (List P)} {pre : String} {p : Params P S}
    (hs : p.Shape vk ics pre) (s : S) {q : P} (hq : q ∈ p.points) : .point q ∈ p.layout vk s := by
  unfold Params.points at hq
  unfold Params.layout
  simp only [List.mem_append, List.mem_flatMap, List.mem_map, List.mem_singleton, List.mem_cons, List.not_mem_nil, or_false,
    reduceCtorEq, and_false, exists_false, or_self, false_or, Event.point.injEq, exists_eq_right] at hq ⊢
  rcases hq with ((((h | ⟨k, hk, h⟩) | h) | h) | rfl) | h
  · obtain ⟨r, hr, h⟩ := List.mem_flatten.1 h
    obtain ⟨φ, h1, h2⟩ := mem_onPhase (hs.adviceCommitments.2 r hr).le h
    exact .inl <| .inl <| .inl <| .inl <| .inl <| .inl ⟨φ, hvk.advicePhase φ h1, r, hr, h2⟩
  · rcases h with rfl | rfl | rfl
    · exact .inl <| .inl <| .inl <| .inl <| .inl <| .inr ⟨k, hk, .inl rfl⟩
    · exact .inl <| .inl <| .inl <| .inl <| .inl <| .inr ⟨k, hk, .inr rfl⟩
    · exact .inl <| .inl <| .inl <| .inr ⟨k, hk, rfl⟩
  · exact .inl <| .inl <| .inl <| .inl <| .inr h
  · exact .inl <| .inr h
  · exact .inl <| .inl <| .inr rfl
  · exact .inr h

theorem Params.layout_common {P S : Type} {vk : VK F G} {p : Params P S} {s : S} {q : P} (h : .commonPoint q ∈ p.layout vk s) :
    q ∈ p.instanceCommitments.flatten := by
  unfold Params.layout at h
  simp only [List.mem_append, List.mem_flatMap, List.mem_map, List.mem_singleton, List.mem_cons, List.not_mem_nil, or_false,
    reduceCtorEq, and_false, exists_false, or_self, false_or, Event.commonPoint.injEq, exists_eq_right] at h
  exact h

namespace Logic
variable {L : Logic c gen} {T : Transcript c} {d : Codec F G}

theorem Took.point_mem {b b' : List UInt8} {st st' : T.St} {evs : List (Event c.P c.S)} (h : L.Took d b st evs b' st') {q : c.P}
    (hq : .point q ∈ evs) : ∃ P, L.pwit q P := by
  induction h with
  | nil => exact absurd hq List.not_mem_nil
  | point P b1 st1 h hp ha _ ih =>
    rcases List.mem_cons.1 hq with h | h
    · cases h
      exact ⟨P, hp⟩
    · exact ih h
  | scalar P b1 st1 h hp ha _ ih => exact ih ((List.mem_cons.1 hq).resolve_left (by simp))
  | commonPoint st1 ha _ ih => exact ih ((List.mem_cons.1 hq).resolve_left (by simp))
  | commonScalar st1 ha _ ih => exact ih ((List.mem_cons.1 hq).resolve_left (by simp))
  | challenge st1 ha _ ih => exact ih ((List.mem_cons.1 hq).resolve_left (by simp))

theorem Run.read {vk : VK F G} (hvk : vk.WF) {instances : List (List (List F))} {key : String} {start : Reader T}
    {as : List (List (List c.S))} {p : Params c.P c.S} {r : Verified T} (h : L.Run d vk instances key start as p r) :
    ∀ q ∈ p.points, ∃ P, L.pwit q P := by
  intro q hq
  obtain ⟨s, evs, -, he, -, ht⟩ := h.trace
  have hm := p.points_read hvk h.shape s hq
  rw [← he] at hm
  exact ht.point_mem hm

theorem forall₂_flatten {α β : Type} {R : α → β → Prop} {l : List (List α)} {l' : List (List β)}
    (h : List.Forall₂ (List.Forall₂ R) l l') {a : α} (ha : a ∈ l.flatten) : ∃ b, R a b := by
  induction h with
  | nil => exact absurd ha (by simp)
  | cons h1 _ ih =>
    rw [List.flatten_cons, List.mem_append] at ha
    rcases ha with ha | ha
    · clear ih
      induction h1 with
      | nil => exact absurd ha List.not_mem_nil
      | cons h2 _ ih2 =>
        rcases List.mem_cons.1 ha with rfl | ha
        · exact ⟨_, h2⟩
        · exact ih2 ha
    · exact ih ha

theorem Run.replay {e : Encode c} {ok : c.P → Prop} {pw : c.P → List F} {ps : PoseidonSpec F rate} (he : L.Encodes e ok pw)
    (hps : ps.WF) (hw : ∀ p P, L.pwit p P → ok p) (hv : ∀ p P, L.pv p P → ok p) {vk : VK F G}
    {instances : List (List (List F))} {key : String} {start : Reader (poseidonTranscript c ps e)} {as : List (List (List c.S))}
    {p : Params c.P c.S} {r : Verified (poseidonTranscript c ps e)} (h : L.Run d vk instances key start as p r) :
    ∃ s evs, L.sv s = vk.digest ∧ evs = p.layout vk s ∧ r.reader.trace = start.trace ++ evs ∧
      Replay ps pw L.sv (L.spongeVals (rate := rate) start.st).1 (L.spongeVals (rate := rate) start.st).2 evs ∧
      L.spongeVals (rate := rate) r.reader.st = spongeAfter ps pw L.sv (L.spongeVals (rate := rate) start.st) evs := by
  obtain ⟨s, evs, hk, hevs, ht, hT⟩ := h.trace
  refine ⟨s, evs, L.known_sv hk, hevs, ht, hT.replay he hps hw fun q hq => ?_⟩
  rw [hevs] at hq
  obtain ⟨P, hP⟩ := forall₂_flatten h.commitments (Params.layout_common hq)
  exact hv q P hP

theorem Bound.words {e : Encode c} {ok : c.P → Prop} {pw : c.P → List F} {ps : PoseidonSpec F rate} (he : L.Encodes e ok pw)
    (hps : ps.WF) (hw : ∀ p P, L.pwit p P → ok p) (hv : ∀ p P, L.pv p P → ok p) {ks : List c.S} :
    ∀ {xs : List (Part (poseidonTranscript c ps e))}, L.Bound (xs.map Part.result) ks → (∀ x ∈ xs, x.Ran L d) →
    List.Forall₂ (fun x k => ∃ s evs v, L.sv s = x.vk.digest ∧ evs = x.params.layout x.vk s ∧
      Replay ps pw L.sv (L.spongeVals (rate := rate) x.data.reader.st).1 (L.spongeVals (rate := rate) x.data.reader.st).2 evs ∧
      v = spongeAfter ps pw L.sv (L.spongeVals (rate := rate) x.data.reader.st) evs ∧
      L.sv k = ps.absorb v.1 v.2 (Fin.ofNat (rate + 1) 1)) xs ks := by
  induction ks with
  | nil =>
    intro xs h _
    cases xs with
    | nil => exact .nil
    | cons x xs => cases h
  | cons k ks ih =>
    intro xs h hR
    cases xs with
    | nil => cases h
    | cons x xs =>
      obtain ⟨hk, ht⟩ := List.forall₂_cons.1 h
      refine .cons ?_ (ih ht fun y hy => hR y (List.mem_cons_of_mem _ hy))
      obtain ⟨st, hst⟩ := hk
      obtain ⟨s, evs, k1, k2, -, k4, k5⟩ := Run.replay he hps hw hv (hR x List.mem_cons_self)
      have hq := (hst _ (he.squeeze hps _)).2
      exact ⟨s, evs, _, k1, k2, k4, k5, hq⟩

theorem replay_scalars {P S : Type} {ps : PoseidonSpec F rate} {pw : P → List F} {sv : S → F} {ch : S} : ∀ {ks : List S}
    {evs : List (Event P S)} {s : Fin (rate + 1) → F} {b : List F}, evs = ks.map .commonScalar ++ [.challenge ch] →
    Replay ps pw sv s b evs → sv ch = ps.absorb s (b ++ ks.map sv) (Fin.ofNat (rate + 1) 1)
  | [], _, s, b, rfl, h => by
    rw [List.map_nil, List.append_nil]
    exact h.1
  | k :: ks, _, s, b, rfl, h => by
    rw [replay_scalars (ks := ks) rfl h, List.append_assoc]
    rfl

theorem no_points {P S : Type} {ks : List S} {ch : S} {evs : List (Event P S)} (h : evs = ks.map .commonScalar ++ [.challenge ch]) {q : P} :
    ¬ .commonPoint q ∈ evs := by
  rw [h]
  simp

end Logic

/-- The values of the words of a sponge in an assignment. -/
def cellSponge (adv : Advice N) (st : Sponge (AV N) rate) : (Fin (rate + 1) → N) × List N :=
  (fun i => (st.s i).val adv, st.absorbing.map fun a => a.val adv)

/-- One proof in the circuit with the Poseidon transcript. In every satisfying assignment the challenges are the Poseidon hash of the
cells that stand before them in the layout of the halo2 verifier. If moreover the identity flags of the points read are bits and `x` is
not in the domain, then the two returned points are the two sides of the opening check. -/
theorem C68_single_circuit {adv : Advice N} {ps : PoseidonSpec N rate} (hps : ps.WF) {d : Codec N Pt} (hd : 0 < d.pointLen)
    {circuit : CircuitProof (poseidonTranscript circuitChip ps circuitEncode)} (hvk : circuit.vk.WF) (hdom : circuit.vk.Domain)
    (start : Reader (poseidonTranscript circuitChip ps circuitEncode)) {ctx ctx' : Ctx N} {l r : APt} {is : List (AV N)}
    {advice : List APt} {rest : Reader (poseidonTranscript circuitChip ps circuitEncode)}
    (hr : (verifySingle d circuit start).1 ctx = some (((l, r, is, advice), rest), ctx')) (hsat : Sat tables ctx' adv) :
    ∃ (pr : ProofData (poseidonTranscript circuitChip ps circuitEncode)) (as : List (List (List (AV N)))) (p : Params APt (AV N))
      (proof : MultiOpen circuitChip) (s : AV N) (evs : List (Event circuitChip.P circuitChip.S)), circuit.proofs[0]? = some pr ∧
      (circuitLogic adv).Run d circuit.vk pr.instances "" start as p ⟨is, proof, advice, rest⟩ ∧
      s.val adv = circuit.vk.digest ∧ evs = p.layout circuit.vk s ∧ rest.trace = start.trace ++ evs ∧
      Replay ps (cellWords adv) (fun a : AV N => a.val adv) (cellSponge (rate := rate) adv start.st).1 (cellSponge (rate := rate) adv start.st).2 evs ∧
      (pr.instances.length = 1 → (∀ q ∈ p.points, q.z.val adv = 0 ∨ q.z.val adv = 1) → p.x.val adv ^ circuit.vk.n ≠ 1 →
        2 ≤ (circuit.vk.rotations 1).toFinset.card →
        Represents adv l ((circuitLogic adv).valueOf circuit.vk as p).left ∧
        Represents adv r (((circuitLogic adv).valueOf circuit.vk as p).right Ecc.gen)) := by
  obtain ⟨pr, as, p, proof, h1, h2, -, h3⟩ := C64_single_circuit (circuit_safe adv hps) hd hvk hdom start hr hsat
  obtain ⟨s, evs, k1, k2, k3, k4, -⟩ := h2.replay (circuit_encodes adv) hps (fun _ _ h => Fresh.natOk h) fun _ _ h => represents_natOk h
  exact ⟨pr, as, p, proof, s, evs, h1, h2, k1, k2, k3, k4, fun hi hz hx hw =>
    h3 hi ⟨fun q hq => (h2.read hvk q hq).elim fun _ hf => Fresh.represents hf (hz q hq), hx⟩ hw⟩

/-- Several proofs in the circuit. Every proof has its own sponge; a challenge squeezed from each goes into the main sponge, and the
challenge `ch` of that one combines the pairs. -/
theorem C68_aggregation_circuit {adv : Advice N} {ps : PoseidonSpec N rate} (hps : ps.WF) {d : Codec N Pt} (hd : 0 < d.pointLen)
    {circuits : List (CircuitProof (poseidonTranscript circuitChip ps circuitEncode))} (h : ∀ ci ∈ circuits, ci.vk.WF ∧ ci.vk.Domain)
    (start : Reader (poseidonTranscript circuitChip ps circuitEncode)) {ctx ctx' : Ctx N} {l r : APt} {is : List (AV N)}
    {advice : List (List APt)} {rest : Reader (poseidonTranscript circuitChip ps circuitEncode)}
    (hr : (verifyAggregation d circuits start).1 ctx = some (((l, r, is, advice), rest), ctx')) (hsat : Sat tables ctx' adv) :
    ∃ (xs : List (Logic.Part (poseidonTranscript circuitChip ps circuitEncode))) (ks : List (AV N)) (ch : AV N),
      (xs.map fun x => (x.vk, x.data)) = Logic.jobs circuits ∧ (∀ x ∈ xs, x.Ran (circuitLogic adv) d) ∧ xs ≠ [] ∧
      List.Forall₂ (fun x (k : AV N) => ∃ (s : AV N) (evs : List (Event APt (AV N))) (v : (Fin (rate + 1) → N) × List N),
        s.val adv = x.vk.digest ∧ evs = Params.layout x.vk s (P := APt) x.params ∧
        Replay ps (cellWords adv) (fun a : AV N => a.val adv) (cellSponge (rate := rate) adv x.data.reader.st).1
          (cellSponge (rate := rate) adv x.data.reader.st).2 evs ∧
        v = spongeAfter ps (cellWords adv) (fun a => a.val adv) (cellSponge (rate := rate) adv x.data.reader.st) evs ∧
        k.val adv = ps.absorb v.1 v.2 (Fin.ofNat (rate + 1) 1)) xs ks ∧
      ch.val adv = ps.absorb (cellSponge (rate := rate) adv start.st).1
        ((cellSponge (rate := rate) adv start.st).2 ++ ks.map fun k => k.val adv) (Fin.ofNat (rate + 1) 1) ∧
      is = xs.flatMap (fun x => x.scalars.flatten.flatten) ∧ advice = xs.map (fun x => x.result.advice) ∧
      ((∀ x ∈ xs, x.data.instances.length = 1) → (∀ x ∈ xs, ∃ n i, x.data.key = proofKey n i) → (xs.map fun x => x.data.key).Nodup →
        (2 ≤ xs.length ∨ ∀ x ∈ xs, 2 ≤ (x.vk.rotations 1).toFinset.card) →
        (∀ x ∈ xs, ∀ q ∈ Params.points (P := APt) x.params, q.z.val adv = 0 ∨ q.z.val adv = 1) →
        (∀ x ∈ xs, AV.val x.params.x adv ^ x.vk.n ≠ 1) →
        Represents adv l (powSum (ch.val adv) (xs.map fun x => (x.value (circuitLogic adv)).left).reverse) ∧
        Represents adv r (powSum (ch.val adv) (xs.map fun x => (x.value (circuitLogic adv)).right Ecc.gen).reverse)) := by
  obtain ⟨xs, ks, ch, evs, h1, h2, h3, h4, h5, -, h7, h8, h9, h10⟩ := C65_aggregation_circuit (circuit_safe adv hps) hd h start hr hsat
  have hvk : ∀ x ∈ xs, x.vk.WF := fun x hx => by
    have : (x.vk, x.data) ∈ Logic.jobs circuits := h1 ▸ List.mem_map.2 ⟨x, hx, rfl⟩
    obtain ⟨ci, hci, hm⟩ := List.mem_flatMap.1 this
    obtain ⟨pr, -, he⟩ := List.mem_map.1 hm
    have : ci.vk = x.vk := (Prod.mk.inj he).1
    rw [← this]
    exact (h ci hci).1
  have he := circuit_encodes adv
  refine ⟨xs, ks, ch, h1, h2, h3, ?_, ?_, h8, h9, fun a1 a2 a3 a4 a5 a6 => h10 ⟨fun x hx => ⟨fun q hq => ?_, a6 x hx⟩, a1, a2, a3, a4⟩⟩
  · exact h4.words he hps (fun _ _ h => Fresh.natOk h) (fun _ _ h => represents_natOk h) h2
  · exact Logic.replay_scalars h5 (h7.replay he hps (fun _ _ h => Fresh.natOk h) fun q hq => absurd hq (Logic.no_points h5)).1
  · exact (Logic.Run.read (hvk x hx) (h2 x hx) q hq).elim fun _ hf => Fresh.represents hf (a5 x hx q hq)

theorem mockPartial_encodes : (mockPartial N Ecc.gen).Encodes mockEncode (fun _ => True) pointWords where
  point P := of_total (mock_encodes.point P)
  scalar s := of_total (mock_encodes.scalar s)
  decode s := of_total (mock_encodes.decode s)

/-- The native verifier. -/
theorem C68_single_mock {ps : PoseidonSpec N rate} (hps : ps.WF) {d : Codec N Pt} (hd : 0 < d.pointLen)
    {circuit : CircuitProof (poseidonTranscript (mock N Ecc.gen) ps mockEncode)} (hvk : circuit.vk.WF) (hdom : circuit.vk.Domain)
    (start : Reader (poseidonTranscript (mock N Ecc.gen) ps mockEncode)) {l r : Pt} {is : List N} {advice : List Pt}
    {rest : Reader (poseidonTranscript (mock N Ecc.gen) ps mockEncode)}
    (hr : verifySingle (c := mock N Ecc.gen) d circuit start = some ((l, r, is, advice), rest)) :
    ∃ (pr : ProofData (poseidonTranscript (mock N Ecc.gen) ps mockEncode)) (as : List (List (List N))) (p : Params Pt N)
      (proof : MultiOpen (mock N Ecc.gen)) (evs : List (Event (mock N Ecc.gen).P (mock N Ecc.gen).S)), circuit.proofs[0]? = some pr ∧
      (mockPartial N Ecc.gen).Run d circuit.vk pr.instances "" start as p ⟨is, proof, advice, rest⟩ ∧
      evs = p.layout circuit.vk circuit.vk.digest ∧ rest.trace = start.trace ++ evs ∧
      Replay ps pointWords id (Sponge.s (rate := rate) start.st) (Sponge.absorbing (rate := rate) start.st) evs := by
  obtain ⟨pr, as, p, proof, h1, h2, -, -⟩ := C64_single (mockPartial N Ecc.gen) (Logic.mock_partial Ecc.gen)
    (mockPartial_encodes.safe hps) hd hvk hdom start _ hr
  obtain ⟨s, evs, k1, k2, k3, k4, -⟩ := h2.replay mockPartial_encodes hps (fun _ _ _ => trivial) fun _ _ _ => trivial
  have e : (mockPartial N Ecc.gen).spongeVals (rate := rate) start.st =
      (Sponge.s (rate := rate) start.st, Sponge.absorbing (rate := rate) start.st) := by
    unfold Logic.spongeVals
    exact congrArg _ (List.map_id _)
  rw [e] at k4
  have k1' : s = circuit.vk.digest := k1
  rw [k1'] at k2
  exact ⟨pr, as, p, proof, evs, h1, h2, k2, k3, k4⟩

namespace TinyPoseidon

/-- One advice column, queried at rotations 0 and 1, and one instance column; two rows. -/
def vk : VK N Pt where
  digest := 7
  omega := -1
  delta := 2
  n := 2
  blinding := 0
  degree := 3
  quotientDegree := 1
  phases := [0]
  advicePhase := [0]
  challengePhase := []
  numInstance := 1
  instanceQueries := [(0, 0)]
  adviceQueries := [(0, 0), (0, 1)]
  fixedQueries := []
  gates := [[.sum (.advice 0) (.negated (.instance 0))]]
  lookups := []
  permColumns := []
  fixedCommitments := []
  permutationCommitments := []
  gLagrange := [Ecc.gen, 0]

/-- One byte per value: a number, or the generator. -/
noncomputable def codec : Codec N Pt := ⟨1, 1, fun b => if b.headD 0 = 255 then none else some Ecc.gen, fun b => some ((b.headD 0).toNat : N)⟩

/-- The linear layer is zero, so all challenges are zero. -/
def deaf : PoseidonSpec N 2 := { demoPoseidon N with mds := fun _ _ => 0 }

theorem deaf_wf : deaf.WF := ⟨by decide, by simp [deaf, demoPoseidon], by simp [deaf, demoPoseidon]⟩

theorem deaf_permute (s : Fin 3 → N) : deaf.permute s = 0 := by
  unfold PoseidonSpec.permute PoseidonSpec.full
  funext i
  simp [Matrix.mulVec, dotProduct, deaf]

theorem foldl_permute : ∀ (l : List (List N)) (s : Fin 3 → N), l ≠ [] → l.foldl (fun s b => deaf.permute (PoseidonSpec.addBlock b s)) s = 0
  | [_], s, _ => deaf_permute _
  | _ :: b :: l, s, _ => by
    rw [List.foldl_cons]
    exact foldl_permute (b :: l) _ (by simp)

theorem deaf_absorb (s : Fin 3 → N) (l : List N) : deaf.absorb s l = 0 := by
  refine foldl_permute _ _ fun h => ?_
  have := congrArg List.flatten h
  rw [chunks_flatten (by decide) _ _ le_rfl] at this
  simp [PoseidonSpec.pad] at this

noncomputable abbrev T := poseidonTranscript (mock N Ecc.gen) deaf mockEncode

noncomputable def start : Reader T := ⟨[1, 2, 3, 4, 5, 6, 7, 8, 9], (⟨fun _ => (0 : N), []⟩ : Sponge N 2), []⟩

theorem wf : vk.WF where
  degree := by decide
  quotientDegree := by decide
  n := by decide
  phases := by decide
  advicePhase := by decide
  instanceQuery := by decide
  adviceQuery := by decide
  fixedQuery := by decide
  permColumns := by decide
  permSize := by simp [vk, chunks]
  gates := by simp [vk, Expr.Closed]
  lookups := by simp [vk]

theorem domain : vk.Domain where
  root := by
    norm_num [vk]
  n := by
    show ((2 : ℕ) : N) ≠ 0
    decide +kernel
  basis := rfl

theorem card : (vk.rotations 1).toFinset.card = 2 := by
  have : vk.rotations 1 = [0, 0, 1, 0, 0] := by simp [VK.rotations, vk, chunks]
  rw [this]
  decide

theorem parses : codec.Parses (vk.kinds 1 2) [1, 2, 3, 4, 5, 6, 7, 8, 9] := by
  rw [show vk.kinds 1 2 = [.point, .point, .point, .scalar, .scalar, .scalar, .scalar, .point, .point, .stop] by
    simp [VK.kinds, vk, chunks, rep, setKinds]]
  exact ⟨_, _, rfl, _, _, rfl, _, _, rfl, _, _, rfl, _, _, rfl, _, _, rfl, _, _, rfl, _, _, rfl, _, _, rfl, rfl, rfl⟩

theorem challenges {b b' : List UInt8} {st st' : T.St} {evs : List (Event (mock N Ecc.gen).P (mock N Ecc.gen).S)}
    (h : (mockLogic N Ecc.gen).Took codec b st evs b' st') (s : N) (hs : .challenge s ∈ evs) : s = 0 := by
  induction h with
  | nil => simp at hs
  | point P b1 st1 h hp ha _ ih => exact ih (by simpa using hs)
  | scalar P b1 st1 h hp ha _ ih => exact ih (by simpa using hs)
  | commonPoint st1 ha _ ih => exact ih (by simpa using hs)
  | commonScalar st1 ha _ ih => exact ih (by simpa using hs)
  | challenge st1 ha _ ih =>
    rcases List.mem_cons.1 hs with hs | hs
    · have : s = _ := Event.challenge.inj hs
      rw [this]
      exact ha (fun r => r.1 = (0 : N)) ((mockLogic N Ecc.gen).mono (mock_encodes.squeeze deaf_wf _) fun r hr => by
        have := hr.2
        rw [deaf_absorb] at this
        exact this)
    · exact ih hs

/-- The hypotheses of C68 can be met. -/
theorem accepts : ∃ r, verifySingle (c := mock N Ecc.gen) (T := T) codec ⟨vk, [⟨[[[4]]], start, ""⟩]⟩ start = some r := by
  obtain ⟨p, rest, h1, h2, h3, -, evs, h4, -, h5⟩ := Mock.exists_params (mock_safe deaf_wf) (d := codec) (by decide) wf domain
    (ics := [[vk.commit [4]]]) "" (start := start) (m := 2) (by exact parses)
  have hm : .challenge p.x ∈ p.layout vk vk.digest := by
    unfold Params.layout
    simp only [List.mem_append, List.mem_singleton, true_or, or_true]
  have hx : p.x = 0 := challenges h5 p.x (h4 ▸ hm)
  refine ⟨_, (C64_single_mock (mock_safe deaf_wf) (by decide) (circuit := ⟨vk, [⟨[[[4]]], start, ""⟩]⟩) (start := start) (p := p) (rest := rest) rfl
    ⟨wf, domain, ?_, rfl, by rw [card]; exact parses, h1, ?_⟩ (by rw [card])).1⟩
  · intro i hi
    rw [List.mem_singleton] at hi
    subst hi
    exact ⟨rfl, by simp [vk]⟩
  · rw [hx]
    simp [vk]

end TinyPoseidon

/-! ### C69: circuit and native verifier have the same challenges -/

/-- The cells hold what the bytes decode to. -/
def Decoded {P S : Type} (d : Codec F G) (pr : P → G → Prop) (sr : S → F → Prop) : List UInt8 → List (Event P S) → Prop
  | _, [] => True
  | b, .point p :: l => ∃ P b1, d.readPoint b = some (P, b1) ∧ pr p P ∧ Decoded d pr sr b1 l
  | b, .scalar s :: l => ∃ k b1, d.readScalar b = some (k, b1) ∧ sr s k ∧ Decoded d pr sr b1 l
  | b, .commonPoint _ :: l => Decoded d pr sr b l
  | b, .commonScalar _ :: l => Decoded d pr sr b l
  | b, .challenge _ :: l => Decoded d pr sr b l

theorem Logic.Took.decoded {L : Logic c gen} {T : Transcript c} {d : Codec F G} {b b' : List UInt8} {st st' : T.St}
    {evs : List (Event c.P c.S)} (h : L.Took d b st evs b' st') : Decoded d L.pwit L.wit b evs := by
  induction h with
  | nil => trivial
  | point P b1 st1 h hp ha _ ih => exact ⟨P, b1, h, hp, ih⟩
  | scalar P b1 st1 h hp ha _ ih => exact ⟨P, b1, h, hp, ih⟩
  | commonPoint st1 ha _ ih => exact ih
  | commonScalar st1 ha _ ih => exact ih
  | challenge st1 ha _ ih => exact ih

/-- Events of the same kind; what does not come from the bytes is absorbed as the same words. -/
inductive Alongside {P S P' S' : Type} (pw : P → List F) (sv : S → F) (pw' : P' → List F) (sv' : S' → F) :
    Event P S → Event P' S' → Prop
  | point (p p') : Alongside pw sv pw' sv' (.point p) (.point p')
  | scalar (s s') : Alongside pw sv pw' sv' (.scalar s) (.scalar s')
  | commonPoint (p p') (h : pw p = pw' p') : Alongside pw sv pw' sv' (.commonPoint p) (.commonPoint p')
  | commonScalar (s s') (h : sv s = sv' s') : Alongside pw sv pw' sv' (.commonScalar s) (.commonScalar s')
  | challenge (s s') : Alongside pw sv pw' sv' (.challenge s) (.challenge s')

/-- If both are challenges, they are equal. -/
def SameChallenge {P S P' S' : Type} (sv : S → F) (sv' : S' → F) : Event P S → Event P' S' → Prop
  | .challenge s, .challenge s' => sv s = sv' s'
  | _, _ => True

/-- Two runs over the same bytes, whose values are absorbed as the same words, have the same challenges. -/
theorem replay_agree {P S P' S' : Type} {ps : PoseidonSpec F rate} {d : Codec F G} {pw : P → List F} {sv : S → F} {pw' : P' → List F}
    {sv' : S' → F} {gw : G → List F} {evs : List (Event P S)} {evs' : List (Event P' S')}
    (h : List.Forall₂ (Alongside pw sv pw' sv') evs evs') : ∀ {bytes : List UInt8} {s : Fin (rate + 1) → F} {b : List F},
    Decoded d (fun p g => pw p = gw g) (fun a k => sv a = k) bytes evs → Decoded d (fun p g => pw' p = gw g) (fun a k => sv' a = k) bytes evs' →
    Replay ps pw sv s b evs → Replay ps pw' sv' s b evs' → List.Forall₂ (SameChallenge sv sv') evs evs' := by
  induction h with
  | nil => intros; exact .nil
  | cons h _ ih =>
    intro bytes s b h1 h2 r1 r2
    cases h with
    | point p p' =>
      obtain ⟨g, b1, a1, a2, a3⟩ := h1
      obtain ⟨g', b1', c1, c2, c3⟩ := h2
      rw [a1, Option.some.injEq, Prod.mk.injEq] at c1
      obtain ⟨rfl, rfl⟩ := c1
      unfold Replay at r1 r2
      rw [a2] at r1
      rw [c2] at r2
      exact .cons trivial (ih a3 c3 r1 r2)
    | scalar p p' =>
      obtain ⟨g, b1, a1, a2, a3⟩ := h1
      obtain ⟨g', b1', c1, c2, c3⟩ := h2
      rw [a1, Option.some.injEq, Prod.mk.injEq] at c1
      obtain ⟨rfl, rfl⟩ := c1
      unfold Replay at r1 r2
      rw [a2] at r1
      rw [c2] at r2
      exact .cons trivial (ih a3 c3 r1 r2)
    | commonPoint p p' h =>
      unfold Replay at r1 r2
      rw [h] at r1
      exact .cons trivial (ih h1 h2 r1 r2)
    | commonScalar p p' h =>
      unfold Replay at r1 r2
      rw [h] at r1
      exact .cons trivial (ih h1 h2 r1 r2)
    | challenge p p' => exact .cons (r1.1.trans r2.1.symm) (ih h1 h2 r1.2 r2.2)

section Layout
variable {P S P' S' : Type}

theorem forall₂_of_length {α β : Type} {R : α → β → Prop} (h : ∀ a b, R a b) : ∀ {l : List α} {l' : List β}, l.length = l'.length → List.Forall₂ R l l'
  | [], [], _ => .nil
  | _ :: _, _ :: _, hl => .cons (h _ _) (forall₂_of_length h (by simpa using hl))

theorem forall₂_flatMap {α β γ δ : Type} {Q : α → β → Prop} {R : γ → δ → Prop} {f : α → List γ} {g : β → List δ}
    (hf : ∀ a b, Q a b → List.Forall₂ R (f a) (g b)) {l : List α} {l' : List β} (h : List.Forall₂ Q l l') :
    List.Forall₂ R (l.flatMap f) (l'.flatMap g) := by
  induction h with
  | nil => exact .nil
  | cons h _ ih =>
    rw [List.flatMap_cons, List.flatMap_cons]
    exact List.rel_append (hf _ _ h) ih

theorem forall₂_map_any {α β γ δ : Type} {R : γ → δ → Prop} {f : α → γ} {g : β → δ} (hf : ∀ a b, R (f a) (g b)) {l : List α} {l' : List β}
    (h : l.length = l'.length) : List.Forall₂ R (l.map f) (l'.map g) := by
  rw [List.forall₂_map_left_iff, List.forall₂_map_right_iff]
  exact forall₂_of_length (fun _ _ => hf _ _) h

theorem onPhase_length {α β : Type} (φ : ℕ) : ∀ (phases : List ℕ) {l : List α} {l' : List β}, l.length = l'.length →
    (onPhase φ phases l).length = (onPhase φ phases l').length
  | [], _, _, _ => by simp [onPhase]
  | _ :: _, [], [], _ => by simp [onPhase]
  | a :: phases, x :: l, y :: l', h => by
    have ih := onPhase_length φ phases (l := l) (l' := l') (by simpa using h)
    unfold onPhase at ih ⊢
    rw [List.length_map, List.length_map] at ih ⊢
    rw [List.zip_cons_cons, List.zip_cons_cons, List.filter_cons, List.filter_cons]
    dsimp only
    split
    · rw [List.length_cons, List.length_cons, ih]
    · exact ih

theorem flatten_length {α β : Type} {m : ℕ} : ∀ {l : List (List α)} {l' : List (List β)}, l.length = l'.length →
    (∀ r ∈ l, r.length = m) → (∀ r ∈ l', r.length = m) → l.flatten.length = l'.flatten.length := by
  intro l l' h h1 h2
  rw [List.length_flatten, List.length_flatten, List.map_congr_left (g := fun _ => m) h1, List.map_congr_left (g := fun _ => m) h2,
    List.map_const', List.map_const', h]

theorem toList_length {α β : Type} : ∀ {a : Option α} {b : Option β}, a.isSome = b.isSome → a.toList.length = b.toList.length
  | none, none, _ => rfl
  | some _, some _, _ => rfl

theorem sets_alike {s : List (PermSet P S)} {s' : List (PermSet P' S')} (hl : s.length = s'.length)
    (h1 : ∀ t ∈ s.dropLast, t.last.isSome) (h2 : ∀ t ∈ s.getLast?, t.last = none) (h1' : ∀ t ∈ s'.dropLast, t.last.isSome)
    (h2' : ∀ t ∈ s'.getLast?, t.last = none) : List.Forall₂ (fun t t' => t.last.isSome = t'.last.isSome) s s' := by
  rcases List.eq_nil_or_concat s with rfl | ⟨i, a, rfl⟩
  · obtain rfl := List.length_eq_zero_iff.1 hl.symm
    exact .nil
  · rcases List.eq_nil_or_concat s' with rfl | ⟨i', a', rfl⟩
    · simp at hl
    · rw [List.concat_eq_append] at *
      rw [List.concat_eq_append] at *
      rw [List.dropLast_concat] at h1 h1'
      rw [List.getLast?_concat] at h2 h2'
      refine List.rel_append ?_ (.cons ?_ .nil)
      · have hl' : i.length = i'.length := by simpa using hl
        clear hl h2 h2'
        induction i generalizing i' with
        | nil =>
          obtain rfl := List.length_eq_zero_iff.1 hl'.symm
          exact .nil
        | cons x i ih =>
          cases i' with
          | nil => simp at hl'
          | cons y i' =>
            refine .cons ?_ (ih (fun t ht => h1 t (List.mem_cons_of_mem _ ht)) _ (fun t ht => h1' t (List.mem_cons_of_mem _ ht)) (by simpa using hl'))
            rw [h1 x List.mem_cons_self, h1' y List.mem_cons_self]
      · rw [h2 a rfl, h2' a' rfl]
        rfl

theorem Params.layout_alongside {vk : VK F G} {pw : P → List F} {sv : S → F} {pw' : P' → List F} {sv' : S' → F} {ics : List (List P)}
    {ics' : List (List P')} {pre pre' : String} {p : Params P S} {p' : Params P' S'} (hs : p.Shape vk ics pre) (hs' : p'.Shape vk ics' pre')
    {s : S} {s' : S'} (hd : sv s = sv' s') (hi : List.Forall₂ (List.Forall₂ fun a a' => pw a = pw' a') ics ics')
    (hw : p.w.length = p'.w.length) : List.Forall₂ (Alongside pw sv pw' sv') (p.layout vk s) (p'.layout vk s') := by
  have hn : ics.length = ics'.length := hi.length_eq
  have hps : List.Forall₂ (fun q q' => List.Forall₂ (fun t t' : PermSet _ _ => t.last.isSome = t'.last.isSome) q.sets q'.sets) p.perms p'.perms := by
    refine List.forall₂_iff_get.2 ⟨by rw [hs.permsLen, hs'.permsLen, hn], fun i h1 h2 => ?_⟩
    obtain ⟨-, -, -, -, a1, a2, a3, -⟩ := hs.perms i _ (List.getElem?_eq_getElem h1)
    obtain ⟨-, -, -, -, b1, b2, b3, -⟩ := hs'.perms i _ (List.getElem?_eq_getElem h2)
    exact sets_alike (by rw [List.get_eq_getElem, List.get_eq_getElem, a1, b1]) a2 a3 b2 b3
  have hk : p.lookups.flatten.length = p'.lookups.flatten.length := by
    refine flatten_length (m := vk.lookups.length) (by rw [hs.lookupsLen, hs'.lookupsLen, hn]) (fun r hr => ?_) fun r hr => ?_
    · obtain ⟨i, h1, rfl⟩ := List.getElem_of_mem hr
      exact (hs.lookups i _ (List.getElem?_eq_getElem h1)).1
    · obtain ⟨i, h1, rfl⟩ := List.getElem_of_mem hr
      exact (hs'.lookups i _ (List.getElem?_eq_getElem h1)).1
  unfold Params.layout
  refine List.rel_append ?_ (.cons (.challenge _ _) .nil)
  refine List.rel_append ?_ (forall₂_map_any .point hw)
  refine List.rel_append ?_ (.cons (.challenge _ _) .nil)
  refine List.rel_append ?_ (forall₂_flatMap (Q := fun _ _ => True) (fun _ _ _ =>
    .cons (.scalar _ _) (.cons (.scalar _ _) (.cons (.scalar _ _) (.cons (.scalar _ _) (.cons (.scalar _ _) .nil))))) (forall₂_of_length (fun _ _ => trivial) hk))
  refine List.rel_append ?_ (forall₂_flatMap (fun q q' hq => forall₂_flatMap (fun t t' ht =>
    List.rel_append (.cons (.scalar _ _) (.cons (.scalar _ _) .nil)) (forall₂_map_any .scalar ?_)) hq) hps)
  refine List.rel_append ?_ (forall₂_map_any .scalar (by rw [hs.permutationEvals, hs'.permutationEvals]))
  refine List.rel_append ?_ (.cons (.scalar _ _) .nil)
  refine List.rel_append ?_ (forall₂_map_any .scalar (by rw [hs.fixedEvals, hs'.fixedEvals]))
  refine List.rel_append ?_ (forall₂_map_any .scalar
    (flatten_length (by rw [hs.adviceEvals.1, hs'.adviceEvals.1, hn]) hs.adviceEvals.2 hs'.adviceEvals.2))
  refine List.rel_append ?_ (forall₂_map_any .scalar
    (flatten_length (by rw [hs.instanceEvals.1, hs'.instanceEvals.1, hn]) hs.instanceEvals.2 hs'.instanceEvals.2))
  refine List.rel_append ?_ (.cons (.challenge _ _) .nil)
  refine List.rel_append ?_ (forall₂_map_any .point (by rw [hs.vanish, hs'.vanish]))
  refine List.rel_append ?_ (.cons (.challenge _ _) .nil)
  refine List.rel_append ?_ (.cons (.point _ _) .nil)
  refine List.rel_append ?_ (forall₂_map_any (fun _ _ => .point _ _) hk)
  refine List.rel_append ?_ (forall₂_flatMap (fun q q' hq => forall₂_map_any (fun _ _ => .point _ _) hq.length_eq) hps)
  refine List.rel_append ?_ (.cons (.challenge _ _) (.cons (.challenge _ _) .nil))
  refine List.rel_append ?_ (forall₂_flatMap (Q := fun _ _ => True) (fun _ _ _ => .cons (.point _ _) (.cons (.point _ _) .nil)) (forall₂_of_length (fun _ _ => trivial) hk))
  refine List.rel_append ?_ (.cons (.challenge _ _) .nil)
  refine List.rel_append ?_ (forall₂_flatMap (Q := Eq) ?_ (List.forall₂_same.2 fun _ _ => rfl))
  refine List.rel_append (.cons (.commonScalar _ _ hd) .nil) ?_
  · rw [hs.instanceCommitments, hs'.instanceCommitments, List.forall₂_map_left_iff, List.forall₂_map_right_iff]
    exact (List.rel_flatten hi).imp fun a b h => .commonPoint _ _ h
  · rintro φ _ rfl
    refine List.rel_append (forall₂_flatMap (Q := fun r r' => r.length = r'.length) (fun r r' h => forall₂_map_any .point (onPhase_length φ _ h)) ?_)
      (forall₂_map_any .challenge (onPhase_length φ _ (by rw [hs.challenges, hs'.challenges])))
    refine List.forall₂_iff_get.2 ⟨by rw [hs.adviceCommitments.1, hs'.adviceCommitments.1, hn], fun i h1 h2 => ?_⟩
    rw [hs.adviceCommitments.2 _ (List.get_mem _ _), hs'.adviceCommitments.2 _ (List.get_mem _ _)]
  · exact toList_length ht

end Layout

theorem Decoded.mono {P S : Type} {d : Codec F G} {pr pr' : P → G → Prop} {sr sr' : S → F → Prop} (hp : ∀ p g, pr p g → pr' p g)
    (hs : ∀ s k, sr s k → sr' s k) : ∀ {evs : List (Event P S)} {b : List UInt8}, Decoded d pr sr b evs → Decoded d pr' sr' b evs
  | [], _, _ => trivial
  | .point _ :: _, _, ⟨P, b1, h1, h2, h3⟩ => ⟨P, b1, h1, hp _ _ h2, Decoded.mono hp hs h3⟩
  | .scalar _ :: _, _, ⟨P, b1, h1, h2, h3⟩ => ⟨P, b1, h1, hs _ _ h2, Decoded.mono hp hs h3⟩
  | .commonPoint _ :: l, _, h => Decoded.mono (evs := l) hp hs h
  | .commonScalar _ :: l, _, h => Decoded.mono (evs := l) hp hs h
  | .challenge _ :: l, _, h => Decoded.mono (evs := l) hp hs h

/-- The circuit and the native verifier run on the same proof. If the cells hold what the bytes decode to, with canonical coordinates
(`Decoded`), and so do the cells of the instance commitments, then every challenge of the circuit is the challenge of the native verifier. -/
theorem C69_challenges {adv : Advice N} {ps : PoseidonSpec N rate} (hps : ps.WF) {d : Codec N Pt} (hd : 0 < d.pointLen)
    {circuit : CircuitProof (poseidonTranscript circuitChip ps circuitEncode)}
    {native : CircuitProof (poseidonTranscript (mock N Ecc.gen) ps mockEncode)} (hvk : circuit.vk.WF) (hdom : circuit.vk.Domain)
    (hsame : native.vk = circuit.vk) {start : Reader (poseidonTranscript circuitChip ps circuitEncode)}
    {start' : Reader (poseidonTranscript (mock N Ecc.gen) ps mockEncode)} (hb : start'.bytes = start.bytes)
    (hst : cellSponge (rate := rate) adv start.st = (Sponge.s (rate := rate) start'.st, Sponge.absorbing (rate := rate) start'.st))
    {ctx ctx' : Ctx N} {l r : APt} {is : List (AV N)} {advice : List APt} {rest : Reader (poseidonTranscript circuitChip ps circuitEncode)}
    {l' r' : Pt} {is' : List N} {advice' : List Pt} {rest' : Reader (poseidonTranscript (mock N Ecc.gen) ps mockEncode)}
    (hr : (verifySingle d circuit start).1 ctx = some (((l, r, is, advice), rest), ctx')) (hsat : Sat tables ctx' adv)
    (hr' : verifySingle (c := mock N Ecc.gen) d native start' = some ((l', r', is', advice'), rest')) :
    ∃ (p : Params APt (AV N)) (s : AV N) (evs : List (Event circuitChip.P circuitChip.S)) (p' : Params Pt N)
      (evs' : List (Event (mock N Ecc.gen).P (mock N Ecc.gen).S)), evs = p.layout circuit.vk s ∧ rest.trace = start.trace ++ evs ∧
      evs' = p'.layout circuit.vk circuit.vk.digest ∧ rest'.trace = start'.trace ++ evs' ∧
      (p.w.length = p'.w.length →
        List.Forall₂ (List.Forall₂ fun a A => cellWords adv a = pointWords A) p.instanceCommitments p'.instanceCommitments →
        Decoded d (fun a A => cellWords adv a = pointWords A) (fun (a : AV N) k => a.val adv = k) start.bytes evs →
        List.Forall₂ (SameChallenge (fun a : AV N => a.val adv) id) evs evs') := by
  obtain ⟨pr, as, p, proof, s, evs, -, h2, h3, h4, h5, h6, -⟩ := C68_single_circuit hps hd hvk hdom start hr hsat
  obtain ⟨pr', as', p', proof', evs', -, k2, k4, k5, k6⟩ := C68_single_mock hps hd (hsame ▸ hvk) (hsame ▸ hdom) start' hr'
  have hs' := k2.shape
  obtain ⟨s', evs'', -, -, t1, t2⟩ := k2.trace
  have e : evs'' = evs' := List.append_cancel_left (t1.symm.trans k5)
  rw [e, hb] at t2
  rw [hsame] at k4 hs'
  refine ⟨p, s, evs, p', evs', h4, h5, k4, k5, fun hw hi hdec => ?_⟩
  have hA : List.Forall₂ (Alongside (cellWords adv) (fun a : AV N => a.val adv) pointWords id) evs evs' := by
    rw [h4, k4]
    exact Params.layout_alongside h2.shape hs' h3 hi hw
  rw [hst] at h6
  refine replay_agree hA hdec (t2.decoded.mono (pr' := fun p g => pointWords p = pointWords g) (sr' := fun a k => id a = k) ?_ ?_) h6 k6
  · intro p g h
    exact congrArg pointWords h
  · intro a k h
    exact h

/-- Honest cells are canonical: assigning a point read from the proof, wherever in the circuit, gives cells that are absorbed as the
native verifier absorbs the point. -/
theorem C69_honest (P : Pt) {ctx : Ctx N} (hg : Good tables ctx) : ∃ p ctx', (circuitChip.pAssignVar P).1 ctx = some (p, ctx') ∧
    Good tables ctx' ∧ cellWords ctx'.wit p = pointWords P := by
  obtain ⟨p, ctx', h1, g1, -, h2, ox, oy, -⟩ := (CSpec.assignPointRaw _ _ _ (assign_ok P)).run ctx hg trivial
  refine ⟨p, ctx', h1, g1, ?_⟩
  have hx : limbsVal ctx'.wit p.x.limbs = (coordX P).val := by
    rw [← h2.x.val]
    unfold residue
    rw [ZMod.val_natCast, Nat.mod_eq_of_lt (h2.x.h.canon ox)]
  have hy : limbsVal ctx'.wit p.y.limbs = (coordY P).val := by
    rw [← h2.y.val]
    unfold residue
    rw [ZMod.val_natCast, Nat.mod_eq_of_lt (h2.y.h.canon oy)]
  unfold cellWords pointWords
  rw [hx, hy]

/-! ### C70: the prover chooses the words of a point -/

/-- Read the point `P` into a fresh Poseidon transcript and squeeze a challenge. -/
def pointChallenge (c : Chip F G) (ps : PoseidonSpec F rate) (e : Encode c) (P : G) : c.m (c.P × c.S) := do
  let st ← spongeNew c ps
  let p ← Rd.acceptPoint (T := poseidonTranscript c ps e) P ⟨[], st, []⟩
  let k ← Rd.squeeze p.2
  return (p.1, k.1)

namespace Logic
variable {L : Logic c gen}

theorem pointChallenge {e : Encode c} {ok : c.P → Prop} {pw : c.P → List F} {ps : PoseidonSpec F rate} (he : L.Encodes e ok pw)
    (hps : ps.WF) (hw : ∀ p P, L.pwit p P → ok p) (P : G) :
    L.Ens (Api.pointChallenge c ps e P) fun r =>
      L.pwit r.1 P ∧ L.sv r.2 = ps.absorb ps.init (pw r.1) (Fin.ofNat (rate + 1) 1) := by
  refine L.bind (Logic.spongeNew ps) fun st hst => ?_
  have h1 : L.Ens (Rd.acceptPoint (T := poseidonTranscript c ps e) P ⟨[], st, []⟩) fun r =>
      L.pwit r.1 P ∧ L.spongeVals (rate := rate) r.2.st = (ps.init, pw r.1) := by
    refine L.bind (L.bind (L.pAssignVar P) fun p hp => L.pure
      (Q := fun r : c.P × Reader (poseidonTranscript c ps e) => L.pwit r.1 P ∧ r.2.st = st) ⟨hp, rfl⟩) fun r hr => ?_
    refine L.bind (L.bind (he.commonPoint (ps := ps) r.2.st (hw _ _ hr.1)) fun s hs => L.pure
      (Q := fun q : Unit × Reader (poseidonTranscript c ps e) => L.spongeVals (rate := rate) q.2.st = (ps.init, pw r.1)) ?_) fun q hq => L.pure ⟨hr.1, hq⟩
    rw [hs, hr.2]
    unfold Logic.spongeVals
    rw [hst.1, hst.2]
    rfl
  refine L.bind h1 fun r hr => ?_
  refine L.bind (L.bind (he.squeeze hps r.2.st) fun k hk => L.pure
    (Q := fun q : c.S × Reader (poseidonTranscript c ps e) => L.sv q.1 = ps.absorb ps.init (pw r.1) (Fin.ofNat (rate + 1) 1)) ?_) fun q hq => L.pure ⟨hr.1, hq⟩
  rw [hk.2, hr.2]

end Logic

/-- In the circuit: the challenge is the hash of the cells. -/
theorem pointChallenge_sound {adv : Advice N} {ps : PoseidonSpec N rate} (hps : ps.WF) (P : Pt) :
    Holds adv (pointChallenge circuitChip ps circuitEncode P) fun (r : APt × AV N) =>
      Fresh adv r.1 ∧ r.2.val adv = ps.absorb ps.init (cellWords adv r.1) (Fin.ofNat (rate + 1) 1) :=
  Logic.pointChallenge (circuit_encodes adv) hps (fun _ _ h => Fresh.natOk h) P

/-- The native verifier: the challenge is the hash of the coordinates. -/
theorem C70_native {ps : PoseidonSpec N rate} (hps : ps.WF) (P : Pt) : pointChallenge (mock N Ecc.gen) ps mockEncode P =
    some (P, ps.absorb ps.init (pointWords P) (Fin.ofNat (rate + 1) 1)) := by
  obtain ⟨⟨p, k⟩, h, h1, h2⟩ := Logic.pointChallenge (mock_encodes) hps (fun _ _ _ => trivial) P
  have e1 : p = P := h1
  have e2 : k = ps.absorb ps.init (pointWords p) (Fin.ofNat (rate + 1) 1) := h2
  rw [h, e2, e1]
  rfl

theorem _root_.Verif.Circuit.Spec.seq {α β : Type} {x : M N α} {f : α → M N β} {Q : Advice N → α → Prop} (hx : Spec tables x Q)
    (hf : ∀ a, Spec tables (f a) fun _ _ => True) : Spec tables (x >>= f) fun _ _ => True := (hx.bind hf).mono fun _ _ _ => trivial

theorem assignPointLimbs_spec (vx vy : ℕ) (vz : N) : Spec tables (assignPointLimbs vx vy vz) fun _ _ => True := by
  have hl : ∀ x, Spec tables (assignLimbs x) fun _ _ => True := fun x =>
    (Spec.assignWCeilLeadingLimb _).seq fun _ => (Spec.assignNonleadingLimb _).seq fun _ => (Spec.assignNonleadingLimb _).seq fun _ =>
    (Spec.assignNonleadingLimb _).seq fun _ => (Spec.pure _).mono fun _ _ _ => trivial
  exact (hl _).seq fun _ => (hl _).seq fun _ => (Spec.assign _).seq fun _ => (Spec.iassignConstant _).seq fun _ =>
    (Spec.isquare _).seq fun _ => (Spec.isquare _).seq fun _ => (Spec.imul _ _).seq fun _ => (Spec.iadd _ _).seq fun _ =>
    (Spec.iisEqual _ _).seq fun _ => (Spec.or _ _).seq fun _ => (Spec.assertConstant _ _).seq fun _ =>
    (Spec.pure _).mono fun _ _ _ => trivial

instance (x : ℕ) : Grows (assignLimbs x) := by
  unfold assignLimbs
  grows

instance (vx vy : ℕ) (vz : N) : Grows (assignPointLimbs vx vy vz) := by
  unfold assignPointLimbs
  grows

/-- The same circuit, the point assigned by `x`. -/
noncomputable def challengeOf (ps : PoseidonSpec N rate) (x : Build APt) : Build (APt × AV N) := do
  let st ← spongeNew circuitChip ps
  let p ← (do
    let p ← Rd.lift (T := poseidonTranscript circuitChip ps circuitEncode) x
    Rd.absorbPoint .point p
    return p : Rd _ APt) ⟨[], st, []⟩
  let k ← Rd.squeeze p.2
  return (p.1, k.1)

theorem challengeOf_point (ps : PoseidonSpec N rate) (P : Pt) :
    pointChallenge circuitChip ps circuitEncode P = challengeOf ps (circuitChip.pAssignVar P) := rfl

theorem challengeOf_alike (ps : PoseidonSpec N rate) {x y : Build APt} (h : Alike x y SamePt) :
    Alike (challengeOf ps x) (challengeOf ps y) fun a b => SamePt a.1 b.1 ∧ SameCell a.2 b.2 := by
  refine Alike.bind (Alike.spongeNew ps) fun st st' hst => ?_
  refine Alike.bind (R := fun a b => SamePt a.1 b.1 ∧ Alike.Words (n := rate + 1) (Sponge.s (rate := rate) a.2.st) (Sponge.s (rate := rate) b.2.st) ∧
    List.Forall₂ SameCell (Sponge.absorbing (rate := rate) a.2.st) (Sponge.absorbing (rate := rate) b.2.st)) ?_ fun p p' hp => ?_
  · refine Alike.bind (R := fun a b => SamePt a.1 b.1 ∧ a.2 = ⟨[], st, []⟩ ∧ b.2 = ⟨[], st', []⟩) (Alike.bind h fun p p' hp =>
      Alike.pure ⟨hp, rfl, rfl⟩) fun r r' hr => ?_
    obtain ⟨h1, h2, h3⟩ := hr
    refine Alike.bind (R := fun a b => Alike.Words (n := rate + 1) (Sponge.s (rate := rate) a.2.st) (Sponge.s (rate := rate) b.2.st) ∧
      List.Forall₂ SameCell (Sponge.absorbing (rate := rate) a.2.st) (Sponge.absorbing (rate := rate) b.2.st)) ?_
      fun q q' hq => Alike.pure ⟨h1, hq⟩
    refine Alike.bind (R := fun a b => Alike.Words (n := rate + 1) (Sponge.s (rate := rate) a) (Sponge.s (rate := rate) b) ∧
      List.Forall₂ SameCell (Sponge.absorbing (rate := rate) a) (Sponge.absorbing (rate := rate) b)) ?_ fun s s' hs => Alike.pure hs
    refine Alike.bind (R := List.Forall₂ SameCell) ?_ fun l l' hl => Alike.pure ?_
    · exact Alike.bind (Rel.native h1.x) fun a a' ha => Alike.bind (Rel.native h1.y) fun b b' hb =>
        Alike.pure (.cons ha.1 (.cons hb.1 .nil))
    · rw [h2, h3]
      refine ⟨hst.1, ?_⟩
      have e : ∀ {st : Sponge circuitChip.S rate} {l : List circuitChip.S}, st.absorbing = [] → (st.update l).absorbing = l := by
        intro st l h
        unfold Sponge.update
        rw [h]
        rfl
      exact (e hst.2.1 (l := l)).symm ▸ (e hst.2.2 (l := l')).symm ▸ hl
  · refine Alike.bind (R := fun a b => SameCell a.1 b.1) ?_ fun k k' hk => Alike.pure ⟨hp.1, hk⟩
    refine Alike.bind (R := fun a b => SameCell a.1 b.1) ?_ fun k k' hk => Alike.pure hk
    exact Alike.bind (Alike.spongeSqueeze ps hp.2.1 hp.2.2) fun k k' hk => Alike.bind (R := SameCell) (Alike.pure hk.1) fun _ _ h => Alike.pure h

theorem build_bind {α β : Type} {x : Build α} {f : α → Build β} {ctx c1 : Ctx N} {a : α} {r : Option (β × Ctx N)}
    (h : x.1 ctx = some (a, c1)) (h' : (f a).1 c1 = r) : (x >>= f).1 ctx = r := by
  rw [← h']
  exact Circuit.bind_some (k := fun a => (f a).1) h

theorem challengeOf_run {ps : PoseidonSpec N rate} (hps : ps.WF) {x : Build APt} {Q : Ctx N → APt → Prop}
    (hx : Comp x (fun _ => True) fun c p => VInt c p.x ∧ VInt c p.y ∧ Q c p) (hQ : ∀ p, Stable fun c => Q c p) :
    ∃ p k ctx, (challengeOf ps x).1 Ctx.empty = some ((p, k), ctx) ∧ Good tables ctx ∧ Q ctx p := by
  obtain ⟨st, c1, f1, g1, -, v1, a1⟩ := (Comp.spongeNew (P := fun _ => True) (fun _ _ _ h => h) ps).run Ctx.empty good_empty trivial
  obtain ⟨p, c2, f2, g2, e2, hpx, hpy, hq⟩ := hx.run c1 g1 trivial
  obtain ⟨a, c3, f3, g3, e3, va, -⟩ := (CSpec.native p.x).run c2 g2 hpx
  obtain ⟨b, c4, f4, g4, e4, vb, -⟩ := (CSpec.native p.y).run c3 g3 (hpy.ext e3)
  let st' : Sponge (AV N) rate := Sponge.update (c := circuitChip) st [a.1, b.1]
  have habs : st'.absorbing = [a.1, b.1] := by
    show (Sponge.update (c := circuitChip) st [a.1, b.1]).absorbing = _
    unfold Sponge.update
    rw [a1]
    rfl
  obtain ⟨k, c5, f5, g5, e5, -, -⟩ := (Comp.spongeSqueeze (P := fun c => (∀ i, ValidAV c (st'.s i)) ∧ ∀ a ∈ st'.absorbing, ValidAV c a)
    (fun c c' he h => ⟨fun i => (h.1 i).ext he, fun a ha => (h.2 a ha).ext he⟩) hps (fun _ h => h.1) (fun _ h => h.2)).run c4 g4
    ⟨fun i => (((v1 i).ext e2).ext e3).ext e4, fun q hq => by
      rw [habs] at hq
      rcases List.mem_cons.1 hq with rfl | hq
      · exact va.ext e4
      · rw [List.mem_singleton.1 hq]
        exact vb⟩
  refine ⟨p, k.1, c5, ?_, g5, hQ p _ _ (e3.trans (e4.trans e5)) hq⟩
  refine build_bind f1 ?_
  refine build_bind (a := (p, ⟨[], st', [.point p]⟩)) (c1 := c4) ?_ ?_
  · refine build_bind (a := (p, ⟨[], st, []⟩)) (c1 := c2) (build_bind f2 rfl) ?_
    refine build_bind (a := ((), ⟨[], st', [.point p]⟩)) (c1 := c4) ?_ rfl
    refine build_bind (a := st') (c1 := c4) ?_ rfl
    refine build_bind (a := [a.1, b.1]) (c1 := c4) ?_ rfl
    exact build_bind f3 (build_bind f4 rfl)
  · refine build_bind (a := (k.1, ⟨[], k.2, [.point p] ++ [.challenge k.1]⟩)) (c1 := c5) ?_ rfl
    refine build_bind (a := (k.1, k.2)) (c1 := c5) ?_ rfl
    exact build_bind f5 rfl

/-- The circuit exists, with an honest assignment, for every point. -/
theorem pointChallenge_run {ps : PoseidonSpec N rate} (hps : ps.WF) (P : Pt) :
    ∃ p k ctx, (pointChallenge circuitChip ps circuitEncode P).1 Ctx.empty = some ((p, k), ctx) ∧ Sat tables ctx ctx.wit := by
  have h : Comp (circuitChip.pAssignVar P) (fun _ => True) fun c (p : APt) => VInt c p.x ∧ VInt c p.y ∧ True :=
    (CSpec.assignPointRaw _ _ _ (assign_ok P)).mono (fun _ h => h) fun c p hp => ⟨⟨hp.1.x.h.valid, hp.1.x.h.validN, hp.1.x.h.ann.native⟩,
      ⟨hp.1.y.h.valid, hp.1.y.h.validN, hp.1.y.h.ann.native⟩, trivial⟩
  obtain ⟨p, k, ctx, h1, h2, -⟩ := challengeOf_run hps h fun _ _ _ _ h => h
  exact ⟨p, k, ctx, h1, h2.sat⟩

/-- C70 as stated is false: from the circuit that reads a point and squeezes a challenge, whatever the point `P` in the proof, and for any
numbers `x, y < 2^254` that modulo the base-field prime are on the curve (or any at all, with the identity flag set), a satisfying
assignment has the hash of `[x, y]` as challenge. -/
theorem C70_forgeable {ps : PoseidonSpec N rate} (hps : ps.WF) (P : Pt) {x y : ℕ} (hx : x < 2 ^ 254) (hy : y < 2 ^ 254) (z : N)
    (h : (y : W) ^ 2 = (x : W) ^ 3 + 3 ∨ z = 1) {p : APt} {k : AV N} {ctx : Ctx N}
    (hr : (pointChallenge circuitChip ps circuitEncode P).1 Ctx.empty = some ((p, k), ctx)) :
    ∃ adv, Sat tables ctx adv ∧ p.z.val adv = z ∧ residue adv p.x = x ∧ residue adv p.y = y ∧ Fresh adv p ∧
      k.val adv = ps.absorb ps.init [(x : N), (y : N)] (Fin.ofNat (rate + 1) 1) := by
  obtain ⟨q, k', d, h2, g2, hqx, hqy, hqz⟩ := challengeOf_run hps (x := .of (assignPointLimbs x y z) (assignPointLimbs_spec x y z))
    (Q := fun c p => Holding c p.x x ∧ Holding c p.y y ∧ ValidAV c p.z ∧ p.z.value = z)
    ((CSpec.assignPointLimbs hx hy z h).mono (fun _ h => h) fun c p hp => ⟨hp.1.v, hp.2.1.v, hp.1, hp.2.1, hp.2.2.1, hp.2.2.2.1⟩)
    fun p c c' he h => ⟨h.1.ext he, h.2.1.ext he, h.2.2.1.ext he, h.2.2.2⟩
  replace hqx := hqx.val
  replace hqy := hqy.val
  replace hqz : q.z.val d.wit = z := by rw [val_wit hqz.1, hqz.2]
  rw [challengeOf_point] at hr
  have hA : Alike (circuitChip.pAssignVar P) (Build.of (assignPointLimbs x y z) (assignPointLimbs_spec x y z)) SamePt :=
    Rel.assignPointLimbs _ _ _ _ _ _
  obtain ⟨hsame, hp, -⟩ := (challengeOf_alike ps hA).run _ _ (SameCircuit.refl _) _ _ _ _ hr h2
  obtain ⟨s1, s2⟩ := g2.sat
  have hsat : Sat tables ctx d.wit := ⟨by rw [hsame.rows]; exact s1, by rw [hsame.copies]; exact s2⟩
  have ex : limbsVal d.wit p.x.limbs = x := by
    rw [← hqx]
    exact limbsVal_congr fun i => by
      unfold lv
      rw [val_sameCell (hp.x.limbs i)]
  have ey : limbsVal d.wit p.y.limbs = y := by
    rw [← hqy]
    exact limbsVal_congr fun i => by
      unfold lv
      rw [val_sameCell (hp.y.limbs i)]
  obtain ⟨hf, hk⟩ := pointChallenge_sound hps P _ _ _ hr hsat
  refine ⟨d.wit, hsat, ?_, ?_, ?_, hf, ?_⟩
  · rw [val_sameCell hp.z, hqz]
  · unfold residue
    rw [ex]
  · unfold residue
    rw [ey]
  · rw [hk]
    unfold cellWords
    rw [ex, ey]

/-- In particular, with the generator in the proof there are two assignments of the same circuit in which the point read is the
generator, but which absorb different words. -/
theorem C70_two_encodings {ps : PoseidonSpec N rate} (hps : ps.WF) :
    ∃ p k ctx, (pointChallenge circuitChip ps circuitEncode Ecc.gen).1 Ctx.empty = some ((p, k), ctx) ∧
      ∃ adv adv', Sat tables ctx adv ∧ Sat tables ctx adv' ∧ Represents adv p Ecc.gen ∧ Represents adv' p Ecc.gen ∧
        k.val adv = ps.absorb ps.init [1, 2] (Fin.ofNat (rate + 1) 1) ∧
        k.val adv' = ps.absorb ps.init [1 + (fqMod : N), 2] (Fin.ofNat (rate + 1) 1) ∧ [1 + (fqMod : N), 2] ≠ [1, 2] := by
  obtain ⟨p, k, ctx, hr, -⟩ := pointChallenge_run hps Ecc.gen
  have h1 : ((2 : ℕ) : W) ^ 2 = ((1 : ℕ) : W) ^ 3 + 3 := by norm_num
  have h2 : ((2 : ℕ) : W) ^ 2 = ((1 + fqMod : ℕ) : W) ^ 3 + 3 := by
    rw [Nat.cast_add, ZMod.natCast_self]
    norm_num
  have rep : ∀ {adv : Advice N}, Fresh adv p → p.z.val adv = 0 → residue adv p.x = 1 → residue adv p.y = 2 → Represents adv p Ecc.gen := by
    intro adv hf hz hx hy
    refine ⟨⟨hf.1, hf.2.1, fun h => absurd h gen_ne_zero, fun _ => ⟨hz, ?_⟩, by rw [hf.2.2.1]; rintro _ ⟨⟩⟩, tangentOk_none hf.2.2.1⟩
    rw [hx, hy]
    exact coords_aff gen_ne_zero
  obtain ⟨a, s1, z1, x1, y1, f1, k1⟩ := C70_forgeable hps Ecc.gen (by norm_num) (by norm_num) 0 (.inl h1) hr
  obtain ⟨b, s2, z2, x2, y2, f2, k2⟩ := C70_forgeable hps Ecc.gen (by decide +kernel) (by norm_num) 0 (.inl h2) hr
  refine ⟨p, k, ctx, hr, a, b, s1, s2, rep f1 z1 (by rw [x1]; norm_num) (by rw [y1]; norm_num), rep f2 z2 ?_ (by rw [y2]; norm_num), ?_, ?_, ?_⟩
  · rw [x2, Nat.cast_add, ZMod.natCast_self]
    norm_num
  · rw [k1]
    norm_num
  · rw [k2]
    norm_num
  · intro h
    have h' : (fqMod : N) = 0 := by
      have := (List.cons.inj h).1
      linear_combination this
    rw [ZMod.natCast_eq_zero_iff] at h'
    revert h'
    decide +kernel

/-- So the challenge depends on the assignment. -/
example : ∃ p k ctx, (pointChallenge circuitChip (demoPoseidon N) circuitEncode Ecc.gen).1 Ctx.empty = some ((p, k), ctx) ∧
    ∃ adv adv', Sat tables ctx adv ∧ Sat tables ctx adv' ∧ Represents adv p Ecc.gen ∧ Represents adv' p Ecc.gen ∧ k.val adv ≠ k.val adv' := by
  obtain ⟨p, k, ctx, h, a, b, s1, s2, r1, r2, k1, k2, -⟩ := C70_two_encodings (demoPoseidon_wf N)
  refine ⟨p, k, ctx, h, a, b, s1, s2, r1, r2, ?_⟩
  rw [k1, k2, PoseidonSpec.absorb_long _ (by decide) _ (by simp), PoseidonSpec.absorb_short _ _ (by simp),
    PoseidonSpec.absorb_long _ (by decide) _ (by simp), PoseidonSpec.absorb_short _ _ (by simp)]
  decide +kernel

/-- What remains true: the challenge is the hash of the cells, and cells with canonical coordinates are absorbed like the point they stand
for. Missing from C70: nothing forces the coordinates to be canonical, or the identity to be encoded as zeros. -/
theorem C70_challenge_partial {adv : Advice N} {ps : PoseidonSpec N rate} (hps : ps.WF) (P : Pt) {p : APt} {k : AV N} {ctx ctx' : Ctx N}
    (hr : (pointChallenge circuitChip ps circuitEncode P).1 ctx = some ((p, k), ctx')) (hsat : Sat tables ctx' adv) {Q : Pt}
    (hQ : Represents adv p Q) (h0 : Q ≠ 0) (hx : limbsVal adv p.x.limbs < fqMod) (hy : limbsVal adv p.y.limbs < fqMod) :
    k.val adv = ps.absorb ps.init (pointWords Q) (Fin.ofNat (rate + 1) 1) := by
  rw [(pointChallenge_sound hps P _ _ _ hr hsat).2]
  congr 2
  have ha := (hQ.1.affine h0).2
  have hb := coords_aff h0
  have ex : residue adv p.x = coordX Q := (ha.unique hb).1
  have ey : residue adv p.y = coordY Q := (ha.unique hb).2
  unfold cellWords pointWords
  rw [← ex, ← ey]
  unfold residue
  rw [ZMod.val_natCast, Nat.mod_eq_of_lt hx, ZMod.val_natCast, Nat.mod_eq_of_lt hy]

end Verif.Api
