import Verif.Api.Poseidon
import Verif.Ecc.Noncanonical

/-!
# The Poseidon transcript in the circuit

The encoders of the circuit and of the mock chip, and two facts about the hash in the circuit: honest cells make it run and be
satisfied (completeness), and the rows it builds do not depend on the values hashed (shape).
-/

namespace Verif.Api

open Verif.Circuit Verif.Ecc

/-! ### Model -/

/-- halo2-snark-aggregator-circuit/src/chips/encode_chip.rs lines 14-51: the native values of both coordinates. The identity flag is
not encoded. The coordinates are cloned, so what `native` caches is dropped. -/
noncomputable def circuitEncode : Encode circuitChip where
  point p := do
    let x ← Build.of (Circuit.native p.x) (Spec.native p.x)
    let y ← Build.of (Circuit.native p.y) (Spec.native p.y)
    return [x.1, y.1]
  scalar s := return [s]
  decode s := return s

/-- halo2-snark-aggregator-api/src/mock/transcript_encode.rs lines 28-76: the coordinates (zeros for the identity) as integers, taken
modulo the scalar-field prime. -/
noncomputable def mockEncode : Encode (mock N gen) where
  point := fun (P : Pt) => some [((coordX P).val : N), ((coordY P).val : N)]
  scalar := fun (s : N) => some [s]
  decode := fun (s : N) => some s

/-! ### Completeness -/

theorem chunks_length_le {α : Type} {k : ℕ} : ∀ (n : ℕ) (l : List α), l.length ≤ n → ∀ ch ∈ chunks k l, ch.length ≤ k
  | 0, l, hl, ch, h => by
    rw [Logic.chunks_stop (.inr (List.eq_nil_of_length_eq_zero (by omega)))] at h
    simp at h
  | n + 1, l, hl, ch, h => by
    by_cases hk : k = 0 ∨ l = []
    · rw [Logic.chunks_stop hk] at h
      simp at h
    · rw [Logic.chunks_step hk, List.mem_cons] at h
      rcases h with rfl | h
      · exact List.length_take_le _ _
      · refine chunks_length_le n _ ?_ ch h
        have := List.length_pos_iff.2 (not_or.1 hk).2
        rw [List.length_drop]
        omega

theorem mem_of_chunks {α : Type} {k : ℕ} : ∀ (n : ℕ) (l : List α), l.length ≤ n → ∀ ch ∈ chunks k l, ∀ a ∈ ch, a ∈ l
  | 0, l, hl, ch, h, a, ha => by
    rw [Logic.chunks_stop (.inr (List.eq_nil_of_length_eq_zero (by omega)))] at h
    simp at h
  | n + 1, l, hl, ch, h, a, ha => by
    by_cases hk : k = 0 ∨ l = []
    · rw [Logic.chunks_stop hk] at h
      simp at h
    · rw [Logic.chunks_step hk, List.mem_cons] at h
      rcases h with rfl | h
      · exact List.mem_of_mem_take ha
      · refine List.mem_of_mem_drop (mem_of_chunks n _ ?_ ch h a ha)
        have := List.length_pos_iff.2 (not_or.1 hk).2
        rw [List.length_drop]
        omega

/-- Kept when the circuit grows. -/
def Stable (P : Ctx N → Prop) : Prop := ∀ c c', Ext c c' → P c → P c'

/-- With honest cells the computation runs and leaves a circuit satisfied by the honest assignment. -/
def Comp {α : Type} (x : Build α) (P : Ctx N → Prop) (Q : Ctx N → α → Prop) : Prop := CSpec tables x.1 P Q

theorem stable_valid (a : AV N) : Stable fun c => ValidAV c a := fun _ _ he h => h.ext he

theorem Stable.and {P Q : Ctx N → Prop} (hP : Stable P) (hQ : Stable Q) : Stable fun c => P c ∧ Q c :=
  fun c c' he h => ⟨hP c c' he h.1, hQ c c' he h.2⟩

theorem Stable.all {ι : Type} {P : ι → Ctx N → Prop} (h : ∀ i, Stable (P i)) : Stable fun c => ∀ i, P i c :=
  fun c c' he hc i => h i c c' he (hc i)

namespace Comp
variable {α β : Type} {P : Ctx N → Prop}

theorem bind {x : Build α} {f : α → Build β} {Q : Ctx N → α → Prop} {R : Ctx N → β → Prop} (hP : Stable P) (hx : Comp x P Q)
    (hf : ∀ a, Comp (f a) (fun c => P c ∧ Q c a) R) : Comp (x >>= f) P R :=
  CSpec.bind hx hf fun c c' _ h he hq => ⟨hP c c' he h, hq⟩

theorem pure {a : α} {Q : Ctx N → α → Prop} (h : ∀ c, P c → Q c a) : Comp (Pure.pure a : Build α) P Q :=
  (CSpec.pure a P).mono (fun _ h => h) fun c r hr => hr.2 ▸ h c hr.1

theorem mono {x : Build α} {P' : Ctx N → Prop} {Q Q' : Ctx N → α → Prop} (hx : Comp x P Q) (h : ∀ c, P' c → P c)
    (h' : ∀ c a, Q c a → Q' c a) : Comp x P' Q' := CSpec.mono hx h h'

theorem mul {a b : AV N} (h : ∀ c, P c → ValidAV c a ∧ ValidAV c b) : Comp (circuitChip.mul a b) P fun c r => ValidAV c r :=
  (CSpec.mul a b).mono h fun _ _ h => h.1

theorem mulAddConstant {a b : AV N} {k : N} (h : ∀ c, P c → ValidAV c a ∧ ValidAV c b) :
    Comp (circuitChip.mulAddConstant a b k) P fun c r => ValidAV c r :=
  (CSpec.mulAddConstant a b k).mono h fun _ _ h => h.1

theorem sumWithCoeff {l : List (AV N × N)} {k : N} (h : ∀ c, P c → ∀ p ∈ l, ValidAV c p.1) :
    Comp (circuitChip.sumWithCoeff l k) P fun c r => ValidAV c r :=
  (CSpec.sumWithConstant l k).mono h fun _ _ h => h.1

theorem assignConst (k : N) : Comp (circuitChip.assignConst k) P fun c r => ValidAV c r :=
  (CSpec.assignConstant k).mono (fun _ _ => trivial) fun _ _ h => h.1

variable {rate : ℕ}

theorem tabM : ∀ {P : Ctx N → Prop} (_ : Stable P) {n : ℕ} {f : Fin n → Build (AV N)}, (∀ i, Comp (f i) P fun c r => ValidAV c r) →
    Comp (Api.tabM circuitChip f) P fun c r => ∀ i, ValidAV c (r i)
  | _, _, 0, _, _ => pure fun _ _ i => i.elim0
  | _, hP, n + 1, f, h => bind hP (h 0) fun a => bind (hP.and (stable_valid a))
      (tabM (hP.and (stable_valid a)) fun i => (h i.succ).mono (fun _ h => h.1) fun _ _ h => h) fun l => pure fun c hc i => by
        refine Fin.cases ?_ (fun i => ?_) i
        · exact hc.1.2
        · exact hc.2 i

theorem xPower5 (hP : Stable P) {x : AV N} {k : N} (hx : ∀ c, P c → ValidAV c x) :
    Comp (Api.xPower5 circuitChip x k) P fun c r => ValidAV c r :=
  bind hP (mul fun c h => ⟨hx c h, hx c h⟩) fun a => bind (hP.and (stable_valid a)) (mul fun c h => ⟨h.2, h.2⟩) fun b =>
    mulAddConstant fun c h => ⟨hx c h.1.1, h.2⟩

theorem sboxFull (hP : Stable P) {ks : Fin (rate + 1) → N} {s : Fin (rate + 1) → AV N} (hs : ∀ c, P c → ∀ i, ValidAV c (s i)) :
    Comp (Api.sboxFull circuitChip ks s) P fun c r => ∀ i, ValidAV c (r i) :=
  tabM hP fun i => xPower5 hP fun c h => hs c h i

theorem applyMds (hP : Stable P) {m : Fin (rate + 1) → Fin (rate + 1) → N} {s : Fin (rate + 1) → AV N}
    (hs : ∀ c, P c → ∀ i, ValidAV c (s i)) : Comp (Api.applyMds circuitChip m s) P fun c r => ∀ i, ValidAV c (r i) :=
  tabM hP fun i => sumWithCoeff fun c h p hp => by
    obtain ⟨j, rfl⟩ := (List.mem_ofFn' _ _).1 hp
    exact hs c h j

theorem round (hP : Stable P) {m : Fin (rate + 1) → Fin (rate + 1) → N} {k : Fin (rate + 1) → N} {s : Fin (rate + 1) → AV N}
    (hs : ∀ c, P c → ∀ i, ValidAV c (s i)) {f : (Fin (rate + 1) → AV N) → Build β} {R : Ctx N → β → Prop}
    (hf : ∀ r, Comp (f r) (fun c => ∀ i, ValidAV c (r i)) R) :
    Comp (Api.sboxFull circuitChip k s >>= fun s => Api.applyMds circuitChip m s >>= f) P R :=
  bind hP (sboxFull hP hs) fun s1 => bind (hP.and (.all fun i => stable_valid _)) (applyMds (hP.and (.all fun i => stable_valid _)) fun c h => h.2)
    fun s2 => (hf s2).mono (fun c h => h.2) fun _ _ h => h

theorem fullRounds {m : Fin (rate + 1) → Fin (rate + 1) → N} : ∀ (ks : List (Fin (rate + 1) → N)) (s : Fin (rate + 1) → AV N),
    Comp (Api.fullRounds circuitChip m ks s) (fun c => ∀ i, ValidAV c (s i)) fun c r => ∀ i, ValidAV c (r i)
  | [], s => pure fun c h => h
  | k :: ks, s => round (.all fun i => stable_valid _) (fun c h => h) fun r => fullRounds ks r

theorem sboxPart (hP : Stable P) {k : N} {s : Fin (rate + 1) → AV N} (hs : ∀ c, P c → ∀ i, ValidAV c (s i)) :
    Comp (Api.sboxPart circuitChip k s) P fun c r => ∀ i, ValidAV c (r i) :=
  bind hP (xPower5 hP fun c h => hs c h 0) fun x => pure fun c h i => by
    refine Fin.cases ?_ (fun i => ?_) i
    · exact h.2
    · exact hs c h.1 i.succ

theorem applySparse (hP : Stable P) {m : (Fin (rate + 1) → N) × (Fin rate → N)} {s : Fin (rate + 1) → AV N}
    (hs : ∀ c, P c → ∀ i, ValidAV c (s i)) : Comp (Api.applySparse circuitChip m s) P fun c r => ∀ i, ValidAV c (r i) :=
  bind hP (sumWithCoeff fun c h p hp => by
      obtain ⟨j, rfl⟩ := (List.mem_ofFn' _ _).1 hp
      exact hs c h j) fun s0 =>
    bind (hP.and (stable_valid _)) (tabM (hP.and (stable_valid _)) fun i => sumWithCoeff fun c h p hp => by
      rcases List.mem_cons.1 hp with rfl | hp
      · exact hs c h.1 0
      · rw [List.mem_singleton.1 hp]
        exact hs c h.1 i.succ) fun l => pure fun c h i => by
        refine Fin.cases ?_ (fun i => ?_) i
        · exact h.1.2
        · exact h.2 i

theorem partialRounds : ∀ (l : List (N × ((Fin (rate + 1) → N) × (Fin rate → N)))) (s : Fin (rate + 1) → AV N),
    Comp (Api.partialRounds circuitChip l s) (fun c => ∀ i, ValidAV c (s i)) fun c r => ∀ i, ValidAV c (r i)
  | [], s => pure fun c h => h
  | (k, m) :: l, s =>
    have hS (s : Fin (rate + 1) → AV N) : Stable fun c => ∀ i, ValidAV c (s i) := .all fun i => stable_valid _
    bind (hS _) (sboxPart (hS _) fun c h => h) fun s1 => bind ((hS _).and (hS _)) (applySparse ((hS _).and (hS _)) fun c h => h.2)
      fun s2 => (partialRounds l s2).mono (fun c h => h.2) fun _ _ h => h

theorem absorbPre (hP : Stable P) {inputs : List (AV N)} (hi : inputs.length ≤ rate) {ks : Fin (rate + 1) → N} {s : Fin (rate + 1) → AV N}
    (hs : ∀ c, P c → ∀ i, ValidAV c (s i)) (hin : ∀ c, P c → ∀ a ∈ inputs, ValidAV c a) :
    Comp (Api.absorbPre circuitChip inputs ks s) P fun c r => ∀ i, ValidAV c (r i) := by
  unfold Api.absorbPre
  have hi' : List.length (α := circuitChip.S) inputs < rate + 1 := Nat.lt_succ_of_le hi
  rw [if_pos hi']
  refine bind hP (sumWithCoeff fun c h p hp => ?_) fun s0 => bind (hP.and (stable_valid _))
    (tabM (hP.and (stable_valid _)) fun i => ?_) fun l => pure fun c h i => ?_
  · rw [List.mem_singleton.1 hp]
    exact hs c h 0
  · unfold Api.absorbWord
    split
    · next x hx =>
      refine sumWithCoeff fun c h p hp => ?_
      rcases List.mem_cons.1 hp with rfl | hp
      · exact hs c h.1 i.succ
      · rw [List.mem_singleton.1 hp]
        exact hin c h.1 _ (List.mem_of_getElem? hx)
    · refine sumWithCoeff fun c h p hp => ?_
      rw [List.mem_singleton.1 hp]
      exact hs c h.1 i.succ
  · refine Fin.cases ?_ (fun i => ?_) i
    · exact h.1.2
    · exact h.2 i

theorem permutation (hP : Stable P) {ps : PoseidonSpec N rate} (hps : ps.WF) {inputs : List (AV N)} (hi : inputs.length ≤ rate)
    {s : Fin (rate + 1) → AV N} (hs : ∀ c, P c → ∀ i, ValidAV c (s i)) (hin : ∀ c, P c → ∀ a ∈ inputs, ValidAV c a) :
    Comp (Api.permutation circuitChip ps inputs s) P fun c r => ∀ i, ValidAV c (r i) := by
  have hS (s : Fin (rate + 1) → AV N) : Stable fun c => ∀ i, ValidAV c (s i) := .all fun i => stable_valid _
  obtain ⟨k0, hk0⟩ : ∃ k, ps.start[0]? = some k := ⟨_, List.getElem?_eq_getElem (by have := hps.start; omega)⟩
  obtain ⟨kl, hkl⟩ : ∃ k, ps.start.getLast? = some k := by
    rcases h : ps.start.getLast? with _ | k
    · rw [List.getLast?_eq_none_iff] at h
      have := hps.start
      rw [h] at this
      simp at this
    · exact ⟨k, rfl⟩
  unfold Api.permutation Api.index Api.unwrap
  rw [hk0, hkl]
  simp only [if_pos hps.half]
  refine bind (Q := fun _ r => r = k0) hP (pure fun _ _ => rfl) fun k => ?_
  refine bind (Q := fun c r => ∀ i, ValidAV c (r i)) (hP.and fun _ _ _ h => h)
    (absorbPre (hP.and fun _ _ _ h => h) hi (fun c h => hs c h.1) fun c h => hin c h.1) fun s1 => ?_
  refine (bind (Q := fun _ _ => True) (hS s1) (pure fun _ _ => trivial) fun half => ?_).mono (fun c h => h.2) fun _ _ h => h
  refine bind (Q := fun c r => ∀ i, ValidAV c (r i)) ((hS s1).and fun _ _ _ h => h)
    ((fullRounds _ s1).mono (fun c h => h.1) fun _ _ h => h) fun s2 => ?_
  refine (bind (Q := fun _ _ => True) (hS s2) (pure fun _ _ => trivial) fun kl => ?_).mono (fun c h => h.2) fun _ _ h => h
  refine round ((hS s2).and fun _ _ _ h => h) (fun c h => h.1) fun s3 => ?_
  refine bind (hS _) (partialRounds _ s3) fun s4 => ?_
  refine (bind (hS s4) (fullRounds _ s4) fun s5 => ?_).mono (fun c h => h.2) fun _ _ h => h
  refine (bind (hS s5) (sboxFull (hS s5) fun c h => h) fun s6 => ?_).mono (fun c h => h.2) fun _ _ h => h
  exact (applyMds (hS s6) fun c h => h).mono (fun c h => h.2) fun _ _ h => h

theorem squeezeLoop {ps : PoseidonSpec N rate} (hps : ps.WF) : ∀ {P : Ctx N → Prop} (_ : Stable P) (l : List (List (AV N))) (off : ℕ) (s : Fin (rate + 1) → AV N),
    (∀ ch ∈ l, ch.length ≤ rate) → (∀ c, P c → ∀ ch ∈ l, ∀ a ∈ ch, ValidAV c a) → (∀ c, P c → ∀ i, ValidAV c (s i)) →
    Comp (Api.squeezeLoop circuitChip ps l off s) P fun c r => ∀ i, ValidAV c (r.2 i)
  | _, _, [], off, s, _, _, hs => pure hs
  | _, hP, ch :: l, _, s, h1, h2, hs => bind (Q := fun c r => ∀ i, ValidAV c (r i)) hP
      (permutation hP hps (h1 ch (by simp)) hs fun c h => h2 c h ch (by simp)) fun s1 =>
      squeezeLoop hps (hP.and (.all fun i => stable_valid _)) l _ s1 (fun c h => h1 c (by simp [h]))
        (fun c h c' hc' => h2 c h.1 c' (by simp [hc'])) fun c h => h.2

theorem spongeSqueeze (hP : Stable P) {ps : PoseidonSpec N rate} (hps : ps.WF) {st : Sponge (AV N) rate}
    (hs : ∀ c, P c → ∀ i, ValidAV c (st.s i)) (ha : ∀ c, P c → ∀ a ∈ st.absorbing, ValidAV c a) :
    Comp (Api.spongeSqueeze circuitChip ps st) P fun c r => ValidAV c r.1 ∧ ∀ i, ValidAV c (r.2.s i) := by
  unfold Api.spongeSqueeze chunksM
  rw [if_neg (by have := hps.rate; omega)]
  refine bind (Q := fun _ r => r = chunks rate st.absorbing) hP (pure fun _ _ => rfl) fun ch => ?_
  by_cases hch : ch = chunks rate st.absorbing
  · subst hch
    refine bind (Q := fun c r => ∀ i, ValidAV c (r.2 i)) (hP.and fun _ _ _ h => h)
      (squeezeLoop hps (hP.and fun _ _ _ h => h) _ _ _ (fun ch h => ?_) (fun c h ch hch a haa => ?_) fun c h => hs c h.1) fun r => ?_
    · exact chunks_length_le _ _ le_rfl ch h
    · exact ha c h.1 a (mem_of_chunks _ _ le_rfl ch hch a haa)
    · refine (bind (Q := fun c r => ∀ i, ValidAV c (r i)) (.all fun i => stable_valid _) ?_ fun s =>
        pure fun c h => ⟨h.2 _, h.2⟩).mono (P := fun c => ∀ i, ValidAV c (r.2 i : AV N)) (fun c h => h.2) fun _ _ h => h
      unfold squeezeEnd
      split
      · exact permutation (.all fun i => stable_valid _) hps (Nat.zero_le _) (fun c h => h) (fun c _ a ha => absurd ha (List.not_mem_nil))
      · exact pure fun c h => h
  · refine CSpec.mk fun ctx _ h => absurd h.2 hch

theorem spongeNew (hP : Stable P) (ps : PoseidonSpec N rate) :
    Comp (Api.spongeNew circuitChip ps) P fun c r => (∀ i, ValidAV c (r.s i)) ∧ r.absorbing = [] :=
  bind hP (tabM hP fun i => assignConst _) fun s => pure fun c h => ⟨h.2, rfl⟩

end Comp

/-! ### Shape -/

/-- The same rows and copy constraints, whatever the values. -/
def Alike {α β : Type} (x : Build α) (y : Build β) (R : α → β → Prop) : Prop := Rel x.1 y.1 R

namespace Alike
variable {rate : ℕ}

theorem bind {α β γ δ : Type} {x : Build α} {y : Build β} {f : α → Build γ} {g : β → Build δ} {R : α → β → Prop} {S : γ → δ → Prop}
    (h : Alike x y R) (hk : ∀ a b, R a b → Alike (f a) (g b) S) : Alike (x >>= f) (y >>= g) S := Rel.bind h hk

theorem pure {α β : Type} {a : α} {b : β} {R : α → β → Prop} (h : R a b) : Alike (Pure.pure a : Build α) (Pure.pure b : Build β) R :=
  Rel.pure h

theorem panic {α β : Type} {R : α → β → Prop} {y : Build β} : Alike (circuitChip.panic : Build α) y R :=
  ⟨fun _ _ _ _ _ _ _ h => absurd h (by simp [circuitChip, Build.of])⟩

/-- The same cells. -/
def Words {n : ℕ} (s s' : Fin n → AV N) : Prop := ∀ i, SameCell (s i) (s' i)

theorem mul {a b a' b' : AV N} (ha : SameCell a a') (hb : SameCell b b') : Alike (circuitChip.mul a b) (circuitChip.mul a' b') SameCell :=
  Rel.mul ha hb

theorem mulAddConstant {a b a' b' : AV N} (ha : SameCell a a') (hb : SameCell b b') (k : N) :
    Alike (circuitChip.mulAddConstant a b k) (circuitChip.mulAddConstant a' b' k) SameCell := Rel.mulAddConstant ha hb k

theorem sumWithCoeff {l l' : List (AV N × N)} (h : SameTerms l l') (k : N) :
    Alike (circuitChip.sumWithCoeff l k) (circuitChip.sumWithCoeff l' k) SameCell := Rel.sumWithConstant h k

theorem tabM : ∀ {n : ℕ} {f g : Fin n → Build (AV N)}, (∀ i, Alike (f i) (g i) SameCell) →
    Alike (Api.tabM circuitChip f) (Api.tabM circuitChip g) Words
  | 0, _, _, _ => pure fun i => i.elim0
  | n + 1, f, g, h => bind (h 0) fun a b hab => bind (tabM fun i => h i.succ) fun l l' hl => pure fun i => by
    refine Fin.cases ?_ (fun i => ?_) i
    · exact hab
    · exact hl i

theorem xPower5 {x x' : AV N} (h : SameCell x x') (k : N) : Alike (Api.xPower5 circuitChip x k) (Api.xPower5 circuitChip x' k) SameCell :=
  bind (mul h h) fun _ _ h2 => bind (mul h2 h2) fun _ _ h4 => mulAddConstant h h4 k

theorem sboxFull {s s' : Fin (rate + 1) → AV N} (h : Words s s') (ks : Fin (rate + 1) → N) :
    Alike (Api.sboxFull circuitChip ks s) (Api.sboxFull circuitChip ks s') Words := tabM fun i => xPower5 (h i) _

theorem sameTerms_ofFn {n : ℕ} {s s' : Fin n → AV N} (h : Words s s') (k : Fin n → N) :
    SameTerms (List.ofFn fun j => (s j, k j)) (List.ofFn fun j => (s' j, k j)) := by
  unfold SameTerms
  rw [List.forall₂_iff_get]
  refine ⟨by simp, fun i h1 h2 => ?_⟩
  simp only [List.get_ofFn]
  exact ⟨h _, rfl⟩

theorem one {a a' : AV N} (h : SameCell a a') (k : N) : SameTerms [(a, k)] [(a', k)] := .cons ⟨h, rfl⟩ .nil

theorem two {a a' b b' : AV N} (h : SameCell a a') (h' : SameCell b b') (k k' : N) : SameTerms [(a, k), (b, k')] [(a', k), (b', k')] :=
  .cons ⟨h, rfl⟩ (one h' k')

theorem applyMds {s s' : Fin (rate + 1) → AV N} (h : Words s s') (m : Fin (rate + 1) → Fin (rate + 1) → N) :
    Alike (Api.applyMds circuitChip m s) (Api.applyMds circuitChip m s') Words := tabM fun i => sumWithCoeff (sameTerms_ofFn h _) 0

theorem fullRounds (m : Fin (rate + 1) → Fin (rate + 1) → N) : ∀ (ks : List (Fin (rate + 1) → N)) {s s' : Fin (rate + 1) → AV N}, Words s s' →
    Alike (Api.fullRounds circuitChip m ks s) (Api.fullRounds circuitChip m ks s') Words
  | [], _, _, h => pure h
  | k :: ks, _, _, h => bind (sboxFull h k) fun _ _ h1 => bind (applyMds h1 m) fun _ _ h2 => fullRounds m ks h2

theorem sboxPart {s s' : Fin (rate + 1) → AV N} (h : Words s s') (k : N) :
    Alike (Api.sboxPart circuitChip k s) (Api.sboxPart circuitChip k s') Words :=
  bind (xPower5 (h 0) k) fun _ _ hx => pure fun i => by
    refine Fin.cases ?_ (fun i => ?_) i
    · exact hx
    · exact h i.succ

theorem applySparse {s s' : Fin (rate + 1) → AV N} (h : Words s s') (m : (Fin (rate + 1) → N) × (Fin rate → N)) :
    Alike (Api.applySparse circuitChip m s) (Api.applySparse circuitChip m s') Words :=
  bind (sumWithCoeff (sameTerms_ofFn h _) 0) fun _ _ h0 => bind (tabM fun i => sumWithCoeff (two (h 0) (h i.succ) _ _) 0)
    fun _ _ hl => pure fun i => by
      refine Fin.cases ?_ (fun i => ?_) i
      · exact h0
      · exact hl i

theorem partialRounds : ∀ (l : List (N × ((Fin (rate + 1) → N) × (Fin rate → N)))) {s s' : Fin (rate + 1) → AV N}, Words s s' →
    Alike (Api.partialRounds circuitChip l s) (Api.partialRounds circuitChip l s') Words
  | [], _, _, h => pure h
  | (k, m) :: l, _, _, h => bind (sboxPart h k) fun _ _ h1 => bind (applySparse h1 m) fun _ _ h2 => partialRounds l h2

theorem absorbPre {inputs inputs' : List (AV N)} (hi : List.Forall₂ SameCell inputs inputs') {s s' : Fin (rate + 1) → AV N} (h : Words s s')
    (ks : Fin (rate + 1) → N) : Alike (Api.absorbPre circuitChip inputs ks s) (Api.absorbPre circuitChip inputs' ks s') Words := by
  have hl : List.length (α := circuitChip.S) inputs = List.length (α := circuitChip.S) inputs' := hi.length_eq
  unfold Api.absorbPre
  rw [hl]
  split
  · refine bind (sumWithCoeff (one (h 0) _) _) fun _ _ h0 => bind (tabM fun i => ?_) fun _ _ hl => pure fun i => ?_
    · unfold Api.absorbWord
      rw [hl]
      generalize (if i.1 = List.length (α := circuitChip.S) inputs' then ks i.succ + 1 else ks i.succ) = k
      split
      · next x hx =>
        obtain ⟨hlt, hx⟩ := List.getElem?_eq_some_iff.1 hx
        split
        · next y hy =>
          obtain ⟨hlt', hy⟩ := List.getElem?_eq_some_iff.1 hy
          rw [← hx, ← hy]
          exact sumWithCoeff (two (h i.succ) (List.Forall₂.get hi hlt hlt') _ _) _
        · next hy =>
          have := List.getElem?_eq_none_iff.1 hy
          omega
      · next hx =>
        have := List.getElem?_eq_none_iff.1 hx
        split
        · next y hy =>
          obtain ⟨hlt', hy⟩ := List.getElem?_eq_some_iff.1 hy
          omega
        · exact sumWithCoeff (one (h i.succ) _) _
    · refine Fin.cases ?_ (fun i => ?_) i
      · exact h0
      · exact hl i
  · exact panic

theorem permutation (ps : PoseidonSpec N rate) {inputs inputs' : List (AV N)} (hi : List.Forall₂ SameCell inputs inputs')
    {s s' : Fin (rate + 1) → AV N} (h : Words s s') :
    Alike (Api.permutation circuitChip ps inputs s) (Api.permutation circuitChip ps inputs' s') Words := by
  unfold Api.permutation
  refine bind (R := fun a b => a = b) ?_ fun k _ hk => ?_
  · unfold Api.index
    split
    · exact pure rfl
    · exact panic
  · subst hk
    refine bind (absorbPre hi h k) fun _ _ h1 => ?_
    dsimp only
    split
    · refine bind (R := fun a b => a = b) (pure rfl) fun half _ hh => ?_
      subst hh
      refine bind (fullRounds _ _ h1) fun _ _ h2 => ?_
      refine bind (R := fun a b => a = b) ?_ fun kl _ hk => ?_
      · unfold Api.unwrap
        split
        · exact pure rfl
        · exact panic
      · subst hk
        exact bind (sboxFull h2 _) fun _ _ h3 => bind (applyMds h3 _) fun _ _ h4 => bind (partialRounds _ h4) fun _ _ h5 =>
          bind (fullRounds _ _ h5) fun _ _ h6 => bind (sboxFull h6 _) fun _ _ h7 => applyMds h7 _
    · exact bind (R := fun _ _ => False) panic fun _ _ h => h.elim

theorem squeezeLoop (ps : PoseidonSpec N rate) : ∀ {l l' : List (List (AV N))} (off : ℕ) {s s' : Fin (rate + 1) → AV N},
    List.Forall₂ (List.Forall₂ SameCell) l l' → Words s s' →
    Alike (Api.squeezeLoop circuitChip ps l off s) (Api.squeezeLoop circuitChip ps l' off s') fun a b => a.1 = b.1 ∧ Words a.2 b.2
  | _, _, off, _, _, .nil, h => pure ⟨rfl, h⟩
  | ch :: _, ch' :: _, _, _, _, .cons hc hl, h => bind (permutation ps hc h) fun _ _ h1 => by
      have : List.length (α := circuitChip.S) ch = List.length (α := circuitChip.S) ch' := hc.length_eq
      rw [this]
      exact squeezeLoop ps _ hl h1

theorem chunks_forall₂ {α β : Type} {R : α → β → Prop} {k : ℕ} : ∀ (n : ℕ) {l : List α} {l' : List β}, l.length ≤ n → List.Forall₂ R l l' →
    List.Forall₂ (List.Forall₂ R) (chunks k l) (chunks k l')
  | 0, l, l', hl, h => by
    obtain rfl := List.length_eq_zero_iff.1 (Nat.le_zero.1 hl)
    cases h
    rw [Logic.chunks_stop (.inr rfl), Logic.chunks_stop (.inr rfl)]
    exact .nil
  | n + 1, l, l', hl, h => by
    by_cases hk : k = 0 ∨ l = []
    · rw [Logic.chunks_stop hk, Logic.chunks_stop (hk.imp id (by rintro rfl; cases h; rfl))]
      exact .nil
    · have hk' : ¬ (k = 0 ∨ l' = []) := fun hk' => hk (hk'.imp id (by rintro rfl; cases h; rfl))
      rw [Logic.chunks_step hk, Logic.chunks_step hk']
      refine .cons (List.forall₂_take k h) (chunks_forall₂ n ?_ (List.forall₂_drop k h))
      have := List.length_pos_iff.2 (not_or.1 hk).2
      rw [List.length_drop]
      omega

theorem spongeSqueeze (ps : PoseidonSpec N rate) {st st' : Sponge (AV N) rate} (hs : Words st.s st'.s)
    (ha : List.Forall₂ SameCell st.absorbing st'.absorbing) :
    Alike (Api.spongeSqueeze circuitChip ps st) (Api.spongeSqueeze circuitChip ps st') fun a b =>
      SameCell a.1 b.1 ∧ Words a.2.s b.2.s ∧ a.2.absorbing = [] ∧ b.2.absorbing = [] := by
  unfold Api.spongeSqueeze
  refine bind (R := List.Forall₂ (List.Forall₂ SameCell)) ?_ fun ch ch' hc => bind (squeezeLoop ps 0 hc hs) fun r r' hr =>
    bind (R := Words) ?_ fun s s' h => pure ⟨h _, h, rfl, rfl⟩
  · unfold chunksM
    split
    · exact panic
    · exact pure (chunks_forall₂ _ le_rfl ha)
  · unfold squeezeEnd
    rw [hr.1]
    split
    · exact permutation ps .nil hr.2
    · exact pure hr.2

theorem spongeNew (ps : PoseidonSpec N rate) : Alike (Api.spongeNew circuitChip ps) (Api.spongeNew circuitChip ps) fun a b =>
    Words a.s b.s ∧ a.absorbing = [] ∧ b.absorbing = [] :=
  bind (tabM fun i => Rel.assignConstant _) fun _ _ h => pure ⟨h, rfl, rfl⟩

end Alike

end Verif.Api
