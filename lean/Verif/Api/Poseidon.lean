import Verif.Api.Transcript
import Mathlib.LinearAlgebra.Matrix.Notation
import Mathlib.Data.Matrix.Mul
import Mathlib.Data.List.GetD

/-!
# The Poseidon sponge

`halo2-snark-aggregator-api/src/hash/poseidon.rs`, and the transcript made from it (`systems/halo2/transcript.rs`). The round
constants and matrices come from the `poseidon` crate and are parameters.
-/

namespace Verif.Api

/-! ### Model -/

/-- `poseidon::Spec`: round constants and matrices, for a state of `rate + 1` words. `RATE = T - 1` in the crate. `init` is
`State::default()`. -/
structure PoseidonSpec (F : Type) (rate : ℕ) where
  rf : ℕ
  start : List (Fin (rate + 1) → F)
  partials : List F
  ends : List (Fin (rate + 1) → F)
  mds : Fin (rate + 1) → Fin (rate + 1) → F
  preSparse : Fin (rate + 1) → Fin (rate + 1) → F
  sparse : List ((Fin (rate + 1) → F) × (Fin rate → F))
  init : Fin (rate + 1) → F

section Model
variable {F G : Type} [Field F] (c : Chip F G) {rate : ℕ}

/-- An array filled from the front. -/
def tabM {α : Type} : {n : ℕ} → (Fin n → c.m α) → c.m (Fin n → α)
  | 0, _ => return Fin.elim0
  | _ + 1, f => do
    let a ← f 0
    let l ← tabM fun i => f i.succ
    return Fin.cons a l

/-- hash/poseidon.rs lines 10-19. -/
def xPower5 (x : c.S) (k : F) : c.m c.S := do
  let x2 ← c.mul x x
  let x4 ← c.mul x2 x2
  c.mulAddConstant x x4 k

/-- hash/poseidon.rs lines 21-31. -/
def sboxFull (ks : Fin (rate + 1) → F) (s : Fin (rate + 1) → c.S) : c.m (Fin (rate + 1) → c.S) := tabM c fun i => xPower5 c (s i) (ks i)

/-- hash/poseidon.rs lines 33-43. -/
def sboxPart (k : F) (s : Fin (rate + 1) → c.S) : c.m (Fin (rate + 1) → c.S) := do
  let x ← xPower5 c (s 0) k
  return Fin.cons x fun i => s i.succ

/-- hash/poseidon.rs lines 63-84: the word `i + 1`. -/
def absorbWord (inputs : List c.S) (i : ℕ) (x : c.S) (k : F) : c.m c.S :=
  match inputs[i]? with
  | some input => sumWithConstant c [x, input] k
  | none => sumWithConstant c [x] (if i = inputs.length then k + 1 else k)

/-- hash/poseidon.rs lines 45-87. -/
def absorbPre (inputs : List c.S) (ks : Fin (rate + 1) → F) (s : Fin (rate + 1) → c.S) : c.m (Fin (rate + 1) → c.S) :=
  if inputs.length < rate + 1 then do
    let s0 ← sumWithConstant c [s 0] (ks 0)
    let l ← tabM c fun i : Fin rate => absorbWord c inputs i (s i.succ) (ks i.succ)
    return Fin.cons s0 l
  else c.panic

/-- hash/poseidon.rs lines 89-113. -/
def applyMds (mds : Fin (rate + 1) → Fin (rate + 1) → F) (s : Fin (rate + 1) → c.S) : c.m (Fin (rate + 1) → c.S) :=
  tabM c fun i => c.sumWithCoeff (List.ofFn fun j => (s j, mds i j)) 0

/-- hash/poseidon.rs lines 115-142. -/
def applySparse (mds : (Fin (rate + 1) → F) × (Fin rate → F)) (s : Fin (rate + 1) → c.S) : c.m (Fin (rate + 1) → c.S) := do
  let s0 ← c.sumWithCoeff (List.ofFn fun j => (s j, mds.1 j)) 0
  let l ← tabM c fun i : Fin rate => c.sumWithCoeff [(s 0, mds.2 i), (s i.succ, 1)] 0
  return Fin.cons s0 l

/-- hash/poseidon.rs lines 208-211 and 225-228. -/
def fullRounds (mds : Fin (rate + 1) → Fin (rate + 1) → F) : List (Fin (rate + 1) → F) → (Fin (rate + 1) → c.S) → c.m (Fin (rate + 1) → c.S)
  | [], s => return s
  | k :: ks, s => do
    let s ← sboxFull c k s
    let s ← applyMds c mds s
    fullRounds mds ks s

/-- hash/poseidon.rs lines 219-222. -/
def partialRounds : List (F × ((Fin (rate + 1) → F) × (Fin rate → F))) → (Fin (rate + 1) → c.S) → c.m (Fin (rate + 1) → c.S)
  | [], s => return s
  | (k, m) :: l, s => do
    let s ← sboxPart c k s
    let s ← applySparse c m s
    partialRounds l s

/-- hash/poseidon.rs lines 196-231. -/
def permutation (ps : PoseidonSpec F rate) (inputs : List c.S) (s : Fin (rate + 1) → c.S) : c.m (Fin (rate + 1) → c.S) := do
  let k0 ← index c ps.start 0
  let s ← absorbPre c inputs k0 s
  let half ← if 1 ≤ ps.rf / 2 then (return ps.rf / 2 - 1) else c.panic
  let s ← fullRounds c ps.mds ((ps.start.drop 1).take half) s
  let kl ← unwrap c ps.start.getLast?
  let s ← sboxFull c kl s
  let s ← applyMds c ps.preSparse s
  let s ← partialRounds c (ps.partials.zip ps.sparse) s
  let s ← fullRounds c ps.mds ps.ends s
  let s ← sboxFull c (fun _ => 0) s
  applyMds c ps.mds s

/-- hash/poseidon.rs lines 144-148. -/
structure Sponge (S : Type) (rate : ℕ) where
  s : Fin (rate + 1) → S
  absorbing : List S

/-- hash/poseidon.rs lines 151-167. -/
def spongeNew (ps : PoseidonSpec F rate) : c.m (Sponge c.S rate) := do
  let s ← tabM c fun i => c.assignConst (ps.init i)
  return ⟨s, []⟩

variable {c} in
/-- hash/poseidon.rs lines 169-171. -/
def Sponge.update (st : Sponge c.S rate) (l : List c.S) : Sponge c.S rate := ⟨st.s, st.absorbing ++ l⟩

/-- hash/poseidon.rs lines 183-186. -/
def squeezeLoop (ps : PoseidonSpec F rate) : List (List c.S) → ℕ → (Fin (rate + 1) → c.S) → c.m (ℕ × (Fin (rate + 1) → c.S))
  | [], off, s => return (off, s)
  | chunk :: l, _, s => do
    let s ← permutation c ps chunk s
    squeezeLoop ps l (rate - chunk.length) s

/-- hash/poseidon.rs lines 188-190. -/
def squeezeEnd (ps : PoseidonSpec F rate) (r : ℕ × (Fin (rate + 1) → c.S)) : c.m (Fin (rate + 1) → c.S) :=
  if r.1 = 0 then permutation c ps [] r.2 else return r.2

/-- hash/poseidon.rs lines 173-194. `s[1]` exists: `chunks(0)` panics before. -/
def spongeSqueeze (ps : PoseidonSpec F rate) (st : Sponge c.S rate) : c.m (c.S × Sponge c.S rate) := do
  let ch ← chunksM c rate st.absorbing
  let r ← squeezeLoop c ps ch 0 st.s
  let s ← squeezeEnd c ps r
  return (s (Fin.ofNat (rate + 1) 1), ⟨s, []⟩)

/-- transcript/encode.rs: how points and scalars are turned into native field elements. -/
structure Encode where
  point : c.P → c.m (List c.S)
  scalar : c.S → c.m (List c.S)
  decode : c.S → c.m c.S

/-- systems/halo2/transcript.rs lines 10-21 and 142-178. -/
def poseidonTranscript (ps : PoseidonSpec F rate) (e : Encode c) : Transcript c where
  St := Sponge c.S rate
  commonPoint st p := do
    let l ← e.point p
    return st.update l
  commonScalar st k := do
    let l ← e.scalar k
    return st.update l
  squeeze st := do
    let r ← spongeSqueeze c ps st
    let k ← e.decode r.1
    return (k, r.2)

end Model

/-! ### Specification -/

namespace PoseidonSpec
variable {F : Type} [Field F] {rate : ℕ}

/-- A round on the whole state: fifth powers, constants, linear layer. -/
def full (m : Matrix (Fin (rate + 1)) (Fin (rate + 1)) F) (k s : Fin (rate + 1) → F) : Fin (rate + 1) → F :=
  m.mulVec fun i => s i ^ 5 + k i

/-- A sparse matrix: a first row and the rest of the first column; the identity elsewhere. -/
def sparseMatrix (m : (Fin (rate + 1) → F) × (Fin rate → F)) : Matrix (Fin (rate + 1)) (Fin (rate + 1)) F :=
  Matrix.of (Fin.cons m.1 fun i => Fin.cons (m.2 i) fun j => if i = j then 1 else 0)

/-- A round that takes the fifth power of the first word only. -/
def part (km : F × ((Fin (rate + 1) → F) × (Fin rate → F))) (s : Fin (rate + 1) → F) : Fin (rate + 1) → F :=
  (sparseMatrix km.2).mulVec (Function.update s 0 (s 0 ^ 5 + km.1))

/-- The Poseidon permutation in its optimised form. -/
def permute (ps : PoseidonSpec F rate) (s : Fin (rate + 1) → F) : Fin (rate + 1) → F :=
  let s := s + ps.start.headD 0
  let s := ps.start.tail.dropLast.foldl (fun s k => full (Matrix.of ps.mds) k s) s
  let s := full (Matrix.of ps.preSparse) (ps.start.getLastD 0) s
  let s := (ps.partials.zip ps.sparse).foldl (fun s km => part km s) s
  let s := ps.ends.foldl (fun s k => full (Matrix.of ps.mds) k s) s
  full (Matrix.of ps.mds) 0 s

/-- Add a block of `rate` words to the state, behind the first word. -/
def addBlock (b : List F) (s : Fin (rate + 1) → F) : Fin (rate + 1) → F := s + Fin.cons 0 fun i => b.getD i 0

/-- A one, then zeros up to a multiple of `r`. -/
def pad (r : ℕ) (l : List F) : List F := l ++ 1 :: List.replicate (r - 1 - l.length % r) 0

/-- The sponge: the padded input in blocks of `rate`. -/
def absorb (ps : PoseidonSpec F rate) (s : Fin (rate + 1) → F) (l : List F) : Fin (rate + 1) → F :=
  (chunks rate (pad rate l)).foldl (fun s b => ps.permute (addBlock b s)) s

/-- The crate gives `R_F / 2 + 1` constants for the first half. -/
structure WF (ps : PoseidonSpec F rate) : Prop where
  rate : 0 < rate
  half : 1 ≤ ps.rf / 2
  start : ps.start.length = ps.rf / 2 + 1

/-! ### The padded input -/

theorem addBlock_congr {b b' : List F} (h : ∀ i, i < rate → b.getD i 0 = b'.getD i 0) (s : Fin (rate + 1) → F) :
    addBlock b s = addBlock b' s := by
  unfold addBlock
  congr 2
  funext i
  exact h i i.2

theorem pad_length {r : ℕ} (hr : 0 < r) (l : List F) : (pad r l).length % r = 0 := by
  have h1 := Nat.mod_lt l.length hr
  have h2 := Nat.div_add_mod l.length r
  unfold pad
  rw [List.length_append, List.length_cons, List.length_replicate]
  have : l.length + (r - 1 - l.length % r + 1) = r * (l.length / r + 1) := by
    rw [Nat.mul_add]
    omega
  rw [this, Nat.mul_mod_right]

theorem pad_injective {r : ℕ} {l l' : List F} (h : pad r l = pad r l') : l = l' := by
  have key : ∀ (a b : ℕ) (l l' : List F), l ++ 1 :: List.replicate a 0 = l' ++ 1 :: List.replicate b 0 → l = l' := by
    intro a b l l' h
    have h' := congrArg List.reverse h
    simp only [List.reverse_append, List.reverse_cons, List.reverse_replicate, List.append_assoc, List.singleton_append] at h'
    have : ∀ (a b : ℕ) (m m' : List F), List.replicate a 0 ++ 1 :: m = List.replicate b 0 ++ 1 :: m' → m = m' := by
      intro a
      induction a with
      | zero =>
        intro b m m' h
        cases b with
        | zero => simpa using h
        | succ b => simp [List.replicate_succ] at h
      | succ a ih =>
        intro b m m' h
        cases b with
        | zero => simp [List.replicate_succ] at h
        | succ b => exact ih b m m' (by simpa [List.replicate_succ] using h)
    exact List.reverse_injective (this a b _ _ h')
  exact key _ _ _ _ h

theorem pad_short {r : ℕ} {l : List F} (h : l.length < r) : chunks r (pad r l) = [pad r l] := by
  have hl : (pad r l).length = r := by
    unfold pad
    rw [List.length_append, List.length_cons, List.length_replicate, Nat.mod_eq_of_lt h]
    omega
  rw [Logic.chunks_step, List.take_of_length_le hl.le, List.drop_of_length_le hl.le, Logic.chunks_stop (.inr rfl)]
  rintro (h0 | h0)
  · omega
  · rw [h0] at hl
    simp at hl
    omega

theorem pad_long {r : ℕ} (hr : 0 < r) {l : List F} (h : r ≤ l.length) :
    chunks r (pad r l) = l.take r :: chunks r (pad r (l.drop r)) := by
  have hp : pad r l = l.take r ++ pad r (l.drop r) := by
    unfold pad
    rw [← List.append_assoc, List.take_append_drop, List.length_drop, Nat.mod_eq_sub_mod h]
  have ht : (l.take r).length = r := by rw [List.length_take]; omega
  rw [hp, Logic.chunks_step]
  · rw [List.take_append_of_le_length ht.ge, List.take_of_length_le ht.le, List.drop_append_of_le_length ht.ge,
      List.drop_of_length_le ht.le, List.nil_append]
  · rintro (h0 | h0)
    · omega
    · rw [List.append_eq_nil_iff] at h0
      rw [h0.1] at ht
      simp at ht
      omega

theorem absorb_short (ps : PoseidonSpec F rate) (s : Fin (rate + 1) → F) {l : List F} (h : l.length < rate) :
    ps.absorb s l = ps.permute (addBlock (l ++ [1]) s) := by
  unfold absorb
  rw [pad_short h, List.foldl_cons, List.foldl_nil]
  congr 1
  refine addBlock_congr (fun i hi => ?_) s
  unfold pad
  rcases lt_trichotomy i l.length with hl | rfl | hl
  · rw [List.getD_append _ _ _ _ hl, List.getD_append _ _ _ _ hl]
  · rw [List.getD_append_right _ _ _ _ le_rfl, List.getD_append_right _ _ _ _ le_rfl, Nat.sub_self]
    rfl
  · rw [List.getD_append_right _ _ _ _ hl.le, List.getD_append_right _ _ _ _ hl.le]
    obtain ⟨k, hk⟩ : ∃ k, i - l.length = k + 1 := ⟨i - l.length - 1, by omega⟩
    rw [hk, List.getD_cons_succ, List.getD_cons_succ, List.getD_eq_getElem?_getD, List.getElem?_replicate]
    split <;> rfl

theorem absorb_long (ps : PoseidonSpec F rate) (hr : 0 < rate) (s : Fin (rate + 1) → F) {l : List F} (h : rate ≤ l.length) :
    ps.absorb s l = ps.absorb (ps.permute (addBlock (l.take rate ++ [1]) s)) (l.drop rate) := by
  unfold absorb
  rw [pad_long hr h, List.foldl_cons]
  congr 2
  refine addBlock_congr (fun i hi => ?_) s
  rw [List.getD_append _ _ _ _ (by rw [List.length_take]; omega)]

end PoseidonSpec

/-! ### The code computes the sponge -/

namespace Logic
variable {F G : Type} {c : Chip F G} [Field F] [AddCommGroup G] [Module F G] {gen : G} {rate : ℕ}
variable (L : Logic c gen)

/-- The values of the words of a state. -/
def vals {n : ℕ} (s : Fin n → c.S) : Fin n → F := fun i => L.sv (s i)

variable {L}

theorem tabM {α : Type} : ∀ {n : ℕ} {f : Fin n → c.m α} {Q : Fin n → α → Prop}, (∀ i, L.Ens (f i) (Q i)) →
    L.Ens (Api.tabM c f) fun r => ∀ i, Q i (r i)
  | 0, _, _, _ => L.pure fun i => i.elim0
  | n + 1, f, Q, h => L.bind (h 0) fun a ha => L.bind (tabM fun i => h i.succ) fun l hl => L.pure fun i => by
    refine Fin.cases ?_ (fun i => ?_) i
    · exact ha
    · exact hl i

theorem xPower5 (x : c.S) (k : F) : L.Ens (Api.xPower5 c x k) fun r => L.sv r = L.sv x ^ 5 + k :=
  L.bind (L.mul _ _) fun x2 h2 => L.bind (L.mul _ _) fun x4 h4 => L.mono (L.mulAddConstant _ _ _) fun r hr => by
    rw [hr, h4, h2]
    ring

theorem sboxFull (ks : Fin (rate + 1) → F) (s : Fin (rate + 1) → c.S) :
    L.Ens (Api.sboxFull c ks s) fun r => L.vals r = fun i => L.vals s i ^ 5 + ks i :=
  L.mono (tabM fun i => xPower5 (s i) (ks i)) fun _ h => funext h

theorem applyMds (m : Fin (rate + 1) → Fin (rate + 1) → F) (s : Fin (rate + 1) → c.S) :
    L.Ens (Api.applyMds c m s) fun r => L.vals r = (Matrix.of m).mulVec (L.vals s) :=
  L.mono (tabM fun i => L.sumWithCoeff _ _) fun r h => funext fun i => by
    rw [show L.vals r i = L.sv (r i) from rfl, h i, zero_add, List.map_ofFn, List.sum_ofFn]
    rfl

theorem fullRound (m : Fin (rate + 1) → Fin (rate + 1) → F) (k : Fin (rate + 1) → F) (s : Fin (rate + 1) → c.S) {β : Type}
    {f : (Fin (rate + 1) → c.S) → c.m β} {R : β → Prop}
    (hf : ∀ r, L.vals r = PoseidonSpec.full (Matrix.of m) k (L.vals s) → L.Ens (f r) R) :
    L.Ens (Api.sboxFull c k s >>= fun s => Api.applyMds c m s >>= f) R :=
  L.bind (sboxFull k s) fun s1 h1 => L.bind (applyMds m s1) fun s2 h2 => hf s2 (by rw [h2, h1]; rfl)

theorem fullRounds (m : Fin (rate + 1) → Fin (rate + 1) → F) : ∀ (ks : List (Fin (rate + 1) → F)) (s : Fin (rate + 1) → c.S),
    L.Ens (Api.fullRounds c m ks s) fun r => L.vals r = ks.foldl (fun s k => PoseidonSpec.full (Matrix.of m) k s) (L.vals s)
  | [], s => L.pure rfl
  | k :: ks, s => fullRound m k s fun r hr => L.mono (fullRounds m ks r) fun r' hr' => by rw [hr', hr, List.foldl_cons]

theorem sboxPart (k : F) (s : Fin (rate + 1) → c.S) :
    L.Ens (Api.sboxPart c k s) fun r => L.vals r = Function.update (L.vals s) 0 (L.vals s 0 ^ 5 + k) :=
  L.bind (xPower5 _ _) fun x hx => L.pure <| funext fun i => by
    refine Fin.cases ?_ (fun i => ?_) i
    · rw [Function.update_self]
      exact hx
    · rw [Function.update_of_ne (Fin.succ_ne_zero i)]
      rfl

theorem applySparse (m : (Fin (rate + 1) → F) × (Fin rate → F)) (s : Fin (rate + 1) → c.S) :
    L.Ens (Api.applySparse c m s) fun r => L.vals r = (PoseidonSpec.sparseMatrix m).mulVec (L.vals s) := by
  refine L.bind (L.sumWithCoeff _ _) fun s0 h0 => L.bind (tabM fun i => L.sumWithCoeff _ _) fun l hl => L.pure (funext fun i => ?_)
  refine Fin.cases ?_ (fun i => ?_) i
  · rw [show L.vals (Fin.cons s0 l : Fin (rate + 1) → c.S) 0 = L.sv s0 from rfl, h0, zero_add, List.map_ofFn, List.sum_ofFn]
    rfl
  · rw [show L.vals (Fin.cons s0 l : Fin (rate + 1) → c.S) i.succ = L.sv (l i) from rfl, hl i]
    unfold Matrix.mulVec dotProduct PoseidonSpec.sparseMatrix
    rw [Fin.sum_univ_succ]
    simp [vals]

theorem partialRounds : ∀ (l : List (F × ((Fin (rate + 1) → F) × (Fin rate → F)))) (s : Fin (rate + 1) → c.S),
    L.Ens (Api.partialRounds c l s) fun r => L.vals r = l.foldl (fun s km => PoseidonSpec.part km s) (L.vals s)
  | [], s => L.pure rfl
  | (k, m) :: l, s => L.bind (sboxPart k s) fun s1 h1 => L.bind (applySparse m s1) fun s2 h2 =>
    L.mono (partialRounds l s2) fun r hr => by
      rw [hr, h2, h1, List.foldl_cons]
      rfl

theorem absorbWord (inputs : List c.S) (i : ℕ) (x : c.S) (k : F) : L.Ens (Api.absorbWord c inputs i x k) fun r =>
    L.sv r = L.sv x + k + (inputs.map L.sv ++ [1]).getD i 0 := by
  unfold Api.absorbWord
  rw [List.getD_eq_getElem?_getD]
  rcases lt_trichotomy i inputs.length with h | rfl | h
  · rw [List.getElem?_eq_getElem h]
    refine L.mono (L.sumWithConstant _ _) fun r hr => ?_
    rw [hr, List.getElem?_append_left (by rwa [List.length_map]), List.getElem?_map, List.getElem?_eq_getElem h]
    simp
    ring
  · rw [List.getElem?_eq_none le_rfl]
    refine L.mono (L.sumWithConstant _ _) fun r hr => ?_
    rw [hr, if_pos rfl, List.getElem?_append_right (by rw [List.length_map]), List.length_map, Nat.sub_self]
    simp
    ring
  · rw [List.getElem?_eq_none h.le]
    refine L.mono (L.sumWithConstant _ _) fun r hr => ?_
    rw [hr, if_neg (by omega), List.getElem?_eq_none (by simp; omega)]
    simp
    ring

theorem absorbPre {inputs : List c.S} (hi : inputs.length ≤ rate) (ks : Fin (rate + 1) → F) (s : Fin (rate + 1) → c.S) :
    L.Ens (Api.absorbPre c inputs ks s) fun r => L.vals r = PoseidonSpec.addBlock (inputs.map L.sv ++ [1]) (L.vals s) + ks := by
  unfold Api.absorbPre
  rw [if_pos (by omega)]
  refine L.bind (L.sumWithConstant _ _) fun s0 h0 => L.bind (tabM fun i => absorbWord inputs i _ _) fun l hl => L.pure (funext fun i => ?_)
  refine Fin.cases ?_ (fun i => ?_) i
  · rw [show L.vals (Fin.cons s0 l : Fin (rate + 1) → c.S) 0 = L.sv s0 from rfl, h0]
    simp [PoseidonSpec.addBlock, vals]
    ring
  · rw [show L.vals (Fin.cons s0 l : Fin (rate + 1) → c.S) i.succ = L.sv (l i) from rfl, hl i]
    simp only [PoseidonSpec.addBlock, vals, Pi.add_apply, Fin.cons_succ]
    ring

theorem permutation {ps : PoseidonSpec F rate} (hps : ps.WF) {inputs : List c.S} (hi : inputs.length ≤ rate) (s : Fin (rate + 1) → c.S) :
    L.Ens (Api.permutation c ps inputs s) fun r => L.vals r = ps.permute (PoseidonSpec.addBlock (inputs.map L.sv ++ [1]) (L.vals s)) := by
  have hs := hps.start
  obtain ⟨k0, ks, hk⟩ := List.exists_cons_of_length_pos (l := ps.start) (by omega)
  have hne : ks ≠ [] := by
    rintro rfl
    have := hps.half
    rw [hk] at hs
    simp at hs
    omega
  have htake : (ps.start.drop 1).take (ps.rf / 2 - 1) = ps.start.tail.dropLast := by
    rw [List.drop_one, List.dropLast_eq_take, List.length_tail, hs]
    rfl
  have hlast : ps.start.getLast? = some (ps.start.getLastD 0) := by
    rw [hk, List.getLast?_eq_getLast_of_ne_nil (by simp), List.getLastD_cons, List.getLastD_eq_getLast?]
    rw [List.getLast_cons hne, List.getLast?_eq_getLast_of_ne_nil hne]
    rfl
  have hhead : k0 = ps.start.headD 0 := by rw [hk]; rfl
  unfold Api.permutation
  refine L.bind (Q := fun r => r = k0) (by
    unfold Api.index
    rw [hk]
    exact L.pure rfl) fun k hk' => ?_
  subst hk'
  refine L.bind (absorbPre hi k s) fun s1 h1 => ?_
  rw [if_pos hps.half]
  refine L.bind (L.pure (Q := fun r => r = ps.rf / 2 - 1) rfl) fun half hh => ?_
  subst hh
  dsimp only
  rw [htake]
  refine L.bind (fullRounds ps.mds _ s1) fun s2 h2 => ?_
  refine L.bind (Q := fun r => r = ps.start.getLastD 0) (by
    unfold Api.unwrap
    rw [hlast]
    exact L.pure rfl) fun kl hkl => ?_
  refine fullRound ps.preSparse kl s2 fun s3 h3 => ?_
  refine L.bind (partialRounds _ s3) fun s4 h4 => ?_
  refine L.bind (fullRounds ps.mds _ s4) fun s5 h5 => ?_
  refine L.bind (sboxFull _ s5) fun s6 h6 => L.mono (applyMds ps.mds s6) fun r hr => ?_
  rw [hr, h6, h5, h4, h3, hkl, h2, h1, hhead]
  rfl

theorem squeezeLoop {ps : PoseidonSpec F rate} (hps : ps.WF) : ∀ (n : ℕ) (l : List c.S) (off : ℕ) (s : Fin (rate + 1) → c.S),
    l.length ≤ n → (l = [] → off = 0) → L.Ens (Api.squeezeLoop c ps (chunks rate l) off s) fun r =>
      L.Ens (Api.squeezeEnd c ps r) fun t => L.vals t = ps.absorb (L.vals s) (l.map L.sv) := by
  intro n
  induction n with
  | zero =>
    intro l off s hn hoff
    obtain rfl := List.length_eq_zero_iff.1 (Nat.le_zero.1 hn)
    rw [Logic.chunks_stop (.inr rfl)]
    refine L.pure ?_
    unfold squeezeEnd
    rw [if_pos (hoff rfl)]
    refine L.mono (permutation hps (Nat.zero_le _) s) fun t ht => ?_
    rw [ht, List.map_nil, PoseidonSpec.absorb_short ps _ (by simpa using hps.rate)]
  | succ n ih =>
    intro l off s hn hoff
    rcases eq_or_ne l [] with rfl | hl
    · exact ih [] off s (Nat.zero_le _) hoff
    have hr := hps.rate
    rw [Logic.chunks_step (by rintro (h | h); omega; exact hl h)]
    have hpos := List.length_pos_iff.2 hl
    refine L.bind (permutation hps (List.length_take_le _ _) s) fun s1 h1 => ?_
    rcases lt_or_ge l.length rate with hlt | hge
    · rw [List.drop_of_length_le hlt.le, Logic.chunks_stop (.inr rfl)]
      refine L.pure ?_
      unfold squeezeEnd
      rw [if_neg (by rw [List.length_take]; dsimp only; omega)]
      refine L.pure ?_
      rw [h1, List.take_of_length_le hlt.le, PoseidonSpec.absorb_short ps _ (by simpa using hlt)]
    · refine L.mono (ih (l.drop rate) _ s1 (by rw [List.length_drop]; omega) fun _ => by rw [List.length_take]; omega) fun r hr' =>
        L.mono hr' fun t ht => ?_
      rw [ht, h1, PoseidonSpec.absorb_long ps hr _ (l := l.map L.sv) (by simpa using hge), List.map_take, List.map_drop]

/-- The sponge. -/
theorem spongeSqueeze {ps : PoseidonSpec F rate} (hps : ps.WF) (st : Sponge c.S rate) : L.Ens (Api.spongeSqueeze c ps st) fun r =>
    L.vals r.2.s = ps.absorb (L.vals st.s) (st.absorbing.map L.sv) ∧ r.2.absorbing = [] ∧
    L.sv r.1 = ps.absorb (L.vals st.s) (st.absorbing.map L.sv) (Fin.ofNat (rate + 1) 1) := by
  refine L.bind (L.chunksM hps.rate st.absorbing) fun ch hch => ?_
  subst hch
  refine L.bind (squeezeLoop hps _ _ 0 st.s le_rfl fun _ => rfl) fun r hr => ?_
  refine L.bind hr fun s hs => L.pure ⟨hs, rfl, ?_⟩
  rw [← hs]
  rfl

theorem spongeNew (ps : PoseidonSpec F rate) : L.Ens (Api.spongeNew c ps) fun r => L.vals r.s = ps.init ∧ r.absorbing = [] :=
  L.bind (tabM fun i => L.assignConst _) fun s hs => L.pure ⟨funext fun i => L.known_sv (hs i), rfl⟩

end Logic

end Verif.Api
