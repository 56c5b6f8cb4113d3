import Verif.Sol.Live
import Verif.Api.Checked
import Verif.Api.LinkBytes
import Verif.Api.PoseidonCircuit

/-!
# When the code generator does not panic (C75)

The generator runs the verifier on a sample proof. It unwraps the coordinates of every point it computes, so it needs more of the sample
than that native verification returns: no intermediate point may be the identity. That is enough.
-/

namespace Verif.Sol
open Verif.Circuit Verif.Ecc

variable {α β : Type} {rate : ℕ}

/-! ### The simulated hash -/

/-- The computation does not panic. -/
def Gets (x : Gen α) : Prop := ∀ k, ∃ a k', x.1 k = some (a, k')

theorem Gets.pure (a : α) : Gets (return a) := fun k => ⟨a, k, rfl⟩

theorem Gets.bind {x : Gen α} {f : α → Gen β} (h : Gets x) (hf : ∀ a, Gets (f a)) : Gets (x >>= f) := fun k => by
  obtain ⟨a, k1, h1⟩ := h k
  obtain ⟨b, k2, h2⟩ := hf a k1
  refine ⟨b, k2, ?_⟩
  show (x.1 k).bind _ = _
  rw [h1]
  exact h2

theorem Gets.after {a : α} {f : α → Gen β} (h : Gets (f a)) : Gets (Pure.pure a >>= f) := h

theorem Gets.memory (e : Expr) : Gets (Gen.assignMemory e) := fun _ => ⟨_, _, rfl⟩

theorem Gets.scalar (e : Expr) (v : N) : Gets (Gen.scalar e v) := .bind (.memory e) fun _ => .pure _

theorem gets_add (a b : SVal) : Gets (a.add b) := by
  unfold SVal.add
  split
  · exact .pure _
  split
  · exact .pure _
  split
  · exact .pure _
  exact .scalar _ _

theorem gets_sub (a b : SVal) : Gets (a.sub b) := by
  unfold SVal.sub
  split
  · exact .pure _
  split
  · exact .pure _
  exact .scalar _ _

theorem gets_mul (a b : SVal) : Gets (a.mul b) := by
  unfold SVal.mul
  split
  · exact .pure _
  split
  · exact .pure _
  split
  · exact .pure _
  exact .scalar _ _

theorem gets_square (a : SVal) : Gets a.square := by
  unfold SVal.square
  split
  · exact .pure _
  exact .scalar _ _

theorem gets_sum : ∀ (l : List (SVal × N)) (acc : SVal), Gets (SVal.sumLoop l acc)
  | [], _ => .pure _
  | (x, k) :: l, acc => .bind (gets_mul x _) fun _ => .bind (gets_add acc _) fun _ => gets_sum l _

theorem Gets.tab : ∀ {n : ℕ} {f : Fin n → Gen α}, (∀ i, Gets (f i)) → Gets (Api.tabM genChip f : Gen _)
  | 0, _, _ => .pure _
  | _ + 1, _, h => .bind (h 0) fun _ => .bind (Gets.tab fun i => h i.succ) fun _ => .pure _

theorem gets_power (x : SVal) (k : N) : Gets (Api.xPower5 genChip x k : Gen _) := .bind (gets_mul x x) fun _ => .bind (gets_mul _ _) fun _ => .pure _

theorem gets_sbox (ks : Fin (rate + 1) → N) (s : Fin (rate + 1) → SVal) : Gets (Api.sboxFull genChip ks s : Gen _) := .tab fun _ => gets_power _ _

theorem gets_mds (mds : Fin (rate + 1) → Fin (rate + 1) → N) (s : Fin (rate + 1) → SVal) : Gets (Api.applyMds genChip mds s : Gen _) :=
  .tab fun _ => gets_sum _ _

theorem gets_full (mds : Fin (rate + 1) → Fin (rate + 1) → N) : ∀ (l : List (Fin (rate + 1) → N)) (s : Fin (rate + 1) → SVal),
    Gets (Api.fullRounds genChip mds l s : Gen _)
  | [], _ => .pure _
  | k :: l, s => .bind (gets_sbox k s) fun s => .bind (gets_mds mds s) fun s => gets_full mds l s

theorem gets_partial : ∀ (l : List (N × ((Fin (rate + 1) → N) × (Fin rate → N)))) (s : Fin (rate + 1) → SVal),
    Gets (Api.partialRounds genChip l s : Gen _)
  | [], _ => .pure _
  | (k, m) :: l, s => .bind (.bind (gets_power _ _) fun _ => .pure _) fun (s : Fin (rate + 1) → SVal) =>
      .bind (.bind (gets_sum _ _) fun _ => .bind (.tab fun _ => gets_sum _ _) fun _ => .pure _) fun s => gets_partial l s

theorem gets_absorb {inputs : List SVal} (h : inputs.length < rate + 1) (ks : Fin (rate + 1) → N) (s : Fin (rate + 1) → SVal) :
    Gets (Api.absorbPre genChip inputs ks s : Gen _) := by
  unfold Api.absorbPre
  split
  swap
  · next h' => exact absurd h h'
  refine .bind (gets_sum _ _) fun _ => .bind (.tab fun i => ?_) fun _ => .pure _
  unfold Api.absorbWord
  split
  · exact gets_sum _ _
  · exact gets_sum _ _

theorem gets_permutation {ps : Api.PoseidonSpec N rate} (hps : ps.WF) {inputs : List SVal} (h : inputs.length < rate + 1) (s : Fin (rate + 1) → SVal) :
    Gets (Api.permutation genChip ps inputs s : Gen _) := by
  have hl : 0 < ps.start.length := by rw [hps.start]; omega
  have h0 : Gets (Api.index genChip ps.start 0 : Gen _) := by
    unfold Api.index
    rw [List.getElem?_eq_getElem hl]
    exact .pure _
  have h1 : Gets (Api.unwrap genChip ps.start.getLast? : Gen _) := by
    rw [List.getLast?_eq_some_getLast (List.length_pos_iff.1 hl)]
    exact .pure _
  refine .bind h0 fun _ => .bind (gets_absorb h _ _) fun _ => ?_
  have hj : ∀ half s, Gets (do
      let s ← (Api.fullRounds genChip ps.mds ((ps.start.drop 1).take half) s : Gen (Fin (rate + 1) → SVal))
      let kl ← (Api.unwrap genChip ps.start.getLast? : Gen (Fin (rate + 1) → N))
      let s ← (Api.sboxFull genChip kl s : Gen (Fin (rate + 1) → SVal))
      let s ← (Api.applyMds genChip ps.preSparse s : Gen (Fin (rate + 1) → SVal))
      let s ← (Api.partialRounds genChip (ps.partials.zip ps.sparse) s : Gen (Fin (rate + 1) → SVal))
      let s ← (Api.fullRounds genChip ps.mds ps.ends s : Gen (Fin (rate + 1) → SVal))
      let s ← (Api.sboxFull genChip (fun _ => 0) s : Gen (Fin (rate + 1) → SVal))
      (Api.applyMds genChip ps.mds s : Gen (Fin (rate + 1) → SVal)) : Gen _) := fun _ _ =>
    .bind (gets_full _ _ _) fun _ => .bind h1 fun _ => .bind (gets_sbox _ _) fun _ => .bind (gets_mds _ _) fun _ => .bind (gets_partial _ _) fun _ =>
    .bind (gets_full _ _ _) fun _ => .bind (gets_sbox _ _) fun _ => gets_mds _ _
  dsimp only
  split
  · exact .bind (.pure _) fun _ => hj _ _
  · next h' => exact absurd hps.half h'

theorem gets_loop {ps : Api.PoseidonSpec N rate} (hps : ps.WF) : ∀ (l : List (List SVal)) (off : ℕ) (s : Fin (rate + 1) → SVal),
    (∀ ch ∈ l, ch.length ≤ rate) → Gets (Api.squeezeLoop genChip ps l off s : Gen _)
  | [], _, _, _ => .pure _
  | ch :: l, _, _, h => .bind (gets_permutation hps (Nat.lt_succ_of_le (h ch List.mem_cons_self)) _) fun _ =>
      gets_loop hps l _ _ fun c hc => h c (List.mem_cons_of_mem _ hc)

/-- The simulated hash does not panic. -/
theorem gets_squeeze {ps : Api.PoseidonSpec N rate} (hps : ps.WF) (st : Api.Sponge SVal rate) : Gets (Api.spongeSqueeze genChip ps st : Gen _) := by
  unfold Api.spongeSqueeze Api.chunksM
  split
  · next h => exact absurd h hps.rate.ne'
  refine .after (.bind (gets_loop hps _ _ _ (Api.chunks_length_le _ _ le_rfl)) fun r => .bind ?_ fun _ => .pure _)
  unfold Api.squeezeEnd
  split
  · exact gets_permutation hps (inputs := []) (Nat.succ_pos _) _
  · exact .pure _

/-! ### The verifier on the sample -/

open Classical in
/-- Not the identity. -/
noncomputable def proper (P : Pt) : Bool := decide (P ≠ 0)

theorem proper_iff {P : Pt} : proper P = true ↔ P ≠ 0 := by
  unfold proper
  rw [decide_eq_true_iff]

/-- The native chip that stops at the identity: every point that is computed must be proper. -/
noncomputable abbrev properChip : Api.Chip N Pt := Api.checked N gen (fun x => x⁻¹) proper fun _ => true

/-- Native verification with the SHA transcript: sha.rs. The state is what was hashed so far; `common_point` fails for the identity. -/
noncomputable def shaTranscript {res arg : Pt → Bool} (K : Digest) : Api.Transcript (Api.checked N gen (fun x => x⁻¹) res arg) where
  St := List UInt8
  commonPoint := fun (st : List UInt8) (P : Pt) => shaPoint st P
  commonScalar := fun (st : List UInt8) (a : N) => some (shaScalar st a)
  squeeze := fun (st : List UInt8) => some ((shaSqueeze K st).2, (shaSqueeze K st).1)

namespace GenTotal

/-- If the native computation returns, the generator does not panic. -/
def R {α α' : Type} (x : Option α) (x' : Gen α') (Q : α → α' → Prop) : Prop :=
  ∀ a, x = some a → ∀ k, k.mock = false → ∃ a' k', x'.1 k = some (a', k') ∧ Q a a'

theorem R.some {α α' : Type} {a : α} {x' : Gen α'} {Q : α → α' → Prop} (h : Gets x') (hq : Ends x' (Q a)) : R (.some a) x' Q := fun _ e k _ => by
  cases e
  obtain ⟨a', k', h1⟩ := h k
  exact ⟨a', k', h1, hq _ _ _ h1⟩

theorem R.pure {α α' : Type} {a : α} {a' : α'} {Q : α → α' → Prop} (h : Q a a') : R (.some a) (Pure.pure a') Q := .some (.pure _) (.pure h)

theorem R.bind {α α' β β' : Type} {x : Option α} {x' : Gen α'} {f : α → Option β} {f' : α' → Gen β'} {Q : α → α' → Prop} {S : β → β' → Prop}
    (hx : R x x' Q) (h : ∀ a a', Q a a' → R (f a) (f' a') S) : R (x.bind f) (x' >>= f') S := fun b e k hk => by
  obtain ⟨a, h1, h2⟩ := Option.bind_eq_some_iff.1 e
  obtain ⟨a', k1, h3, h4⟩ := hx a h1 k hk
  obtain ⟨b', k2, h5, h6⟩ := h a a' h4 b h2 k1 ((x'.2 _ _ _ h3).mock.trans hk)
  refine ⟨b', k2, ?_, h6⟩
  show (x'.1 k).bind _ = _
  rw [h3]
  exact h5

/-- The same value. -/
def S (a : N) (a' : SVal) : Prop := a'.v = a
def P (a : Pt) (a' : PVal) : Prop := a'.v = a

theorem scalar_v (e : Expr) (v : N) : Ends (Gen.scalar e v) fun r => r.v = v := .bind (.triv _) fun _ _ => .pure rfl

theorem add_v (a b : SVal) : Ends (a.add b) fun r => r.v = a.v + b.v := by
  unfold SVal.add
  split
  · exact .pure rfl
  split
  · next h => exact .pure (by rw [h.2, zero_add])
  split
  · next h => exact .pure (by rw [h.2, add_zero])
  exact scalar_v _ _

theorem sub_v (a b : SVal) : Ends (a.sub b) fun r => r.v = a.v - b.v := by
  unfold SVal.sub
  split
  · exact .pure rfl
  split
  · next h => exact .pure (by rw [h.2, sub_zero])
  exact scalar_v _ _

theorem mul_v (a b : SVal) : Ends (a.mul b) fun r => r.v = a.v * b.v := by
  unfold SVal.mul
  split
  · exact .pure rfl
  split
  · next h => exact .pure (by rw [h.2, one_mul])
  split
  · next h => exact .pure (by rw [h.2, mul_one])
  exact scalar_v _ _

theorem div_v (a b : SVal) : Ends (a.div b) fun r => r.v = a.v * b.v⁻¹ := by
  unfold SVal.div
  split
  · exact .fail
  split
  · exact .pure rfl
  split
  · next h => exact .pure (by rw [h.2, inv_one, mul_one])
  exact scalar_v _ _

theorem square_v (a : SVal) : Ends a.square fun r => r.v = a.v * a.v := by
  unfold SVal.square
  split
  · exact .pure rfl
  exact scalar_v _ _

theorem sum_v : ∀ (l : List (SVal × N)) (acc : SVal), Ends (SVal.sumLoop l acc) fun r => r.v = Api.mockSum acc.v (l.map fun x => (x.1.v, x.2))
  | [], _ => .pure rfl
  | (x, k) :: l, acc => .bind (mul_v x (.const k)) fun m hm => .bind (add_v acc m) fun r hr => .mono (sum_v l r) fun t ht => by
      rw [ht, hr, hm]
      rfl

theorem gets_div {a b : SVal} (h : b.v ≠ 0) : Gets (a.div b) := by
  unfold SVal.div
  rw [if_neg h]
  split
  · exact .pure _
  split
  · exact .pure _
  exact .scalar _ _

theorem values_of {l : List (N × N)} {l' : List (SVal × N)} (h : List.Forall₂ (fun x x' => S x.1 x'.1 ∧ x.2 = x'.2) l l') :
    (l'.map fun x => (x.1.v, x.2)) = l := by
  induction h with
  | nil => rfl
  | cons h _ ih => rw [List.map_cons, ih, h.1, ← h.2]

theorem R.div {a b : N} {a' b' : SVal} (ha : S a a') (hb : S b b') : R (properChip.div a b) (a'.div b') S := fun r hr => by
  change (if b * b⁻¹ = 1 then Option.some (a * b⁻¹) else none) = _ at hr
  split at hr
  · next e =>
    have hb0 : b'.v ≠ 0 := by
      rw [hb]
      rintro rfl
      rw [zero_mul] at e
      exact zero_ne_one e
    cases hr
    exact R.some (Q := S) (gets_div hb0) ((div_v _ _).mono fun r hr => hr.trans (by rw [ha, hb])) _ rfl
  · cases hr

theorem point_v (e : Expr) (v : Pt) : Ends (Gen.point e v) fun r => r.v = v := by
  unfold Gen.point
  split
  · exact .fail
  · exact .bind (.triv _) fun _ _ => .pure rfl

theorem gets_point (e : Expr) {v : Pt} (h : v ≠ 0) : Gets (Gen.point e v) := by
  unfold Gen.point
  rw [if_neg h]
  exact .bind (.memory e) fun _ => .pure _

theorem R.point {e : Expr} {v V : Pt} (h : v = V) : R (Api.keep proper V) (Gen.point e v) P := fun a ha => by
  obtain ⟨rfl, h1⟩ := Api.keep_some ha
  subst h
  exact R.some (Q := P) (gets_point e (proper_iff.1 h1)) (point_v e v) v rfl

theorem R.const {V : Pt} {v : Pt} (h : v = V) : R (Api.keep proper V) (return PVal.const v) P := fun a ha => by
  obtain ⟨rfl, -⟩ := Api.keep_some ha
  exact R.pure (Q := P) (show P _ (PVal.const v) from h) _ rfl

theorem R.pAdd {a b : Pt} {a' b' : PVal} (ha : P a a') (hb : P b b') : R (Api.keep proper (a + b)) (a'.add b') P := by
  unfold PVal.add
  split
  · exact .const (by rw [ha, hb])
  · exact .point (by rw [ha, hb])

theorem R.pSub {a b : Pt} {a' b' : PVal} (ha : P a a') (hb : P b b') : R (Api.keep proper (a - b)) (a'.sub b') P := by
  unfold PVal.sub
  split
  · exact .const (by rw [ha, hb])
  · exact .point (by rw [ha, hb])

theorem R.pMul {k : N} {k' : SVal} {a : Pt} {a' : PVal} (hk : S k k') (ha : P a a') : R (Api.keep proper (k • a)) (PVal.mul k' a') P := by
  unfold PVal.mul
  split
  · exact .const (by rw [hk, ha])
  · exact .point (by rw [hk, ha])

theorem R.pMulConstant {k : N} {k' : SVal} (hk : S k k') (a : Pt) : R (Api.keep proper (k • a)) (PVal.mulConstant k' a) P := by
  unfold PVal.mulConstant
  split
  · exact .const (by rw [hk])
  · exact .point (by rw [hk])

theorem R.multiExp {ps : List Pt} : ∀ {ps' : List PVal} {ss : List N} {ss' : List SVal} {acc : Option Pt} {acc' : Option PVal},
    List.Forall₂ P ps ps' → List.Forall₂ S ss ss' → Option.Rel P acc acc' → R (Api.checkedMultiExp proper acc ps ss) (PVal.multiExp acc' ps' ss') P := by
  induction ps with
  | nil =>
    intro ps' ss ss' acc acc' hp hs ha
    cases hp
    have e : Api.checkedMultiExp proper acc [] ss = acc := by cases ss <;> rfl
    rw [e]
    unfold PVal.multiExp
    cases ha with
    | none => exact fun _ h => by cases h
    | some h => exact .pure h
  | cons p ps ih =>
    intro ps' ss ss' acc acc' hp hs ha
    cases hp with | cons hp hps =>
    cases hs with
    | nil =>
      cases ha with
      | none => exact fun _ h => by cases h
      | some h => exact .pure h
    | cons hs hss =>
      refine R.bind (R.pMul hs hp) fun cur cur' hc => ?_
      cases ha with
      | none => exact ih hps hss (.some hc)
      | some h => exact R.bind (R.pAdd h hc) fun r r' hr => ih hps hss (.some hr)

/-- The generator follows the native chip. -/
noncomputable def link : Api.Link properChip genChip (id : Pt → Pt) where
  W := Unit
  le _ _ := True
  refl _ := trivial
  trans _ _ := trivial
  R _ x x' Q := R x x' (Q ())
  s _ a a' := S a a'
  p _ a a' := P a a'
  n _ a a' := P a a'
  o _ a a' := P a a'
  known _ k a a' := a = k ∧ S a a'
  s_up _ h := h
  p_up _ h := h
  n_up _ h := h
  o_up _ h := h
  n_p h := h
  p_o h := h
  known_up _ h := h
  known_s h := h.2
  pure h := R.pure h
  bind hx h := R.bind hx fun a a' ha => h () a a' trivial ha
  mono hx h := fun a e k hk => by
    obtain ⟨a', k', h1, h2⟩ := hx a e k hk
    exact ⟨a', k', h1, h () a a' trivial h2⟩
  panic := fun a e => by cases e
  add ha hb := R.some (gets_add _ _) ((add_v _ _).mono fun r hr => hr.trans (by rw [ha, hb]))
  sub ha hb := R.some (gets_sub _ _) ((sub_v _ _).mono fun r hr => hr.trans (by rw [ha, hb]))
  mul ha hb := R.some (gets_mul _ _) ((mul_v _ _).mono fun r hr => hr.trans (by rw [ha, hb]))
  div := R.div
  square ha := R.some (gets_square _) ((square_v _).mono fun r hr => hr.trans (by rw [ha]))
  sumWithCoeff h := R.some (gets_sum _ _) ((sum_v _ _).mono fun r hr => hr.trans (by
    rw [values_of h]
    rfl))
  assignZero := R.pure rfl
  assignOne := R.pure rfl
  assignConst k := R.pure ⟨rfl, rfl⟩
  toValue h := R.pure h.2.symm
  pAdd ha hb := R.pAdd ha hb
  pSub ha hb := R.pSub ha hb
  pAssignOne := R.pure rfl
  pAssignConst P := R.pure rfl
  normalize h := R.pure h
  scalarMul hk ha := R.pMul hk ha
  scalarMulConstant P hk := R.pMulConstant hk P
  multiExp hp hs := R.multiExp hp hs .none

theorem R.of {α α' : Type} {a : α} {x' : Gen α'} {Q : α → α' → Prop} (h : ∀ k, k.mock = false → ∃ a' k', x'.1 k = Option.some (a', k') ∧ Q a a') :
    R (.some a) x' Q := fun _ e k hk => by
  cases e
  exact h k hk

theorem step_some {α : Type} {a : Ctx → α} {f : Ctx → Ctx} {h} {k : Ctx} (hk : k.mock = false) : (Gen.step a f h).1 k = some (a k, f k) := by
  show (if k.mock = true then none else some (a k, f k)) = _
  rw [hk]
  rfl

theorem R.var (a : N) : R (.some a) (Gen.scalarVar a) S := .of fun k hk => by
  refine ⟨⟨if k.inInstance then .inst k.inst .scalar else .transcript k.transcript .scalar, a, false, by split <;> rfl, nofun⟩,
    if k.inInstance then { k with inst := k.inst + Ty.len .scalar } else { k with transcript := k.transcript + Ty.len .scalar }, ?_, rfl⟩
  show ((Gen.newVar .scalar).1 k).map _ = _
  rw [Gen.newVar, step_some hk]
  rfl

theorem R.pVar (a : Pt) : R (.some a) (Gen.pointVar a) P := .of fun k hk => by
  refine ⟨⟨if k.inInstance then .inst k.inst .point else .transcript k.transcript .point, a, false, by split <;> rfl, nofun⟩,
    if k.inInstance then { k with inst := k.inst + Ty.len .point } else { k with transcript := k.transcript + Ty.len .point }, ?_, rfl⟩
  show ((Gen.newVar .point).1 k).map _ = _
  rw [Gen.newVar, step_some hk]
  rfl

theorem R.tmp (a : N) : R (.some ()) (Gen.tmpVar a) fun _ _ => True := .of fun k hk => by
  refine ⟨⟨.tmpBuf k.tmp .scalar, a, false, rfl, nofun⟩, { k with tmp := k.tmp + 1 }, ?_, trivial⟩
  show (Gen.newTmp.1 k).map _ = _
  rw [Gen.newTmp, step_some hk]
  rfl

theorem R.update (e : Expr) (n : ℕ) : R (.some ()) (Gen.update e n) fun _ _ => True := .of fun k hk => ⟨_, _, step_some hk, trivial⟩

theorem R.setInstance (b : Bool) : R (.some ()) (Gen.setInstance b) fun _ _ => True := .of fun k hk => ⟨_, _, step_some hk, trivial⟩

theorem R.squeeze {K : Digest} {ps : Api.PoseidonSpec N rate} (hps : ps.WF) (st : HashSt rate) :
    R (.some ((shaSqueeze K st.sha).2, (shaSqueeze K st.sha).1)) (Gen.squeeze K ps st) fun a a' => S a.1 a'.1 ∧ a'.2.sha = a.2 := .of fun k hk => by
  obtain ⟨a, k1, h1⟩ := gets_squeeze hps st.sponge { k with mock := true }
  have hl := squeeze_live ps st.sponge _ _ _ h1
  refine ⟨(⟨.memory k1.memory .scalar, (shaSqueeze K st.sha).2, false, rfl, nofun⟩, ⟨a.2, (shaSqueeze K st.sha).1⟩), { k1 with
    mock := false
    memory := k1.memory + 1
    stmts := k1.stmts ++ [.assign (.memory k1.memory .scalar) (.hash k1.absorbing)]
    maxAbsorbing := if k1.maxAbsorbing < k1.absorbing then k1.absorbing else k1.maxAbsorbing
    absorbing := 1 }, ?_, rfl, rfl⟩
  unfold Gen.squeeze
  simp only [hk, h1, Option.bind_some, hl, Bool.false_eq_true, if_false]

theorem R.commonPoint {K : Digest} {ps : Api.PoseidonSpec N rate} {st : List UInt8} {st' : HashSt rate} {a : Pt} {a' : PVal} (ha : P a a') (h : st'.sha = st) :
    R (shaPoint st a) ((codegenTranscript K ps).commonPoint st' a' : Gen _) fun (st : List UInt8) (st' : HashSt rate) => st'.sha = st := fun s1 h1 => by
  have h2 : R (Option.bind (.some ()) fun _ => Option.bind (.some ()) fun _ => Option.bind (.some ()) fun _ => .some s1)
      ((codegenTranscript K ps).commonPoint st' a' : Gen _) fun (st : List UInt8) (st' : HashSt rate) => st'.sha = st :=
    .bind (.tmp _) fun _ _ _ => .bind (.tmp _) fun _ _ _ => .bind (.update _ _) fun _ _ _ => .pure (by
      show (shaPoint st'.sha a'.v).getD _ = s1
      rw [h, ha, h1]
      rfl)
  exact h2 s1 rfl

theorem R.commonScalar {K : Digest} {ps : Api.PoseidonSpec N rate} {st : List UInt8} {st' : HashSt rate} {a : N} {a' : SVal} (ha : S a a') (h : st'.sha = st) :
    R (Option.some (shaScalar st a)) ((codegenTranscript K ps).commonScalar st' a' : Gen _) fun (st : List UInt8) (st' : HashSt rate) => st'.sha = st := by
  have h2 : R (Option.bind (.some ()) fun _ => .some (shaScalar st a))
      ((codegenTranscript K ps).commonScalar st' a' : Gen _) fun (st : List UInt8) (st' : HashSt rate) => st'.sha = st :=
    .bind (.update _ _) fun _ _ _ => .pure (by
      show shaScalar st'.sha a'.v = _
      rw [h, ha])
  exact h2

/-- Both read the same proof. -/
noncomputable def bytes (K : Digest) {ps : Api.PoseidonSpec N rate} (hps : ps.WF) (d : Api.Codec N Pt) :
    Api.SameBytes link (shaTranscript K) (codegenTranscript K ps) d d where
  st _ a a' := a'.sha = a
  st_up _ h := h
  commonPoint hp h := R.commonPoint hp h
  commonScalar hs h := R.commonScalar hs h
  squeeze := fun {w a a'} h => by
    have := R.squeeze (K := K) hps a'
    rw [h] at this
    exact this
  assignVar k := R.var k
  pAssignVar P := R.pVar P
  ok _ := True
  point := fun {b} _ => by
    cases d.readPoint b <;> rfl
  scalar _ := rfl
  ok_point _ _ := trivial
  ok_scalar _ _ := trivial

end GenTotal

theorem VK.map_id (vk : Api.VK N Pt) : vk.map (id : Pt → Pt) = vk := by
  unfold Api.VK.map
  simp only [List.map_id]

/-- Native verification of a proof with the SHA transcript: commit to the instances, read the proof, and evaluate the two sides. -/
noncomputable def native (res arg : Pt → Bool) (K : Digest) (d : Api.Codec N Pt) (vk : Api.VK N Pt) (instances : List (List (List N))) (proof : List UInt8) :
    Option (Pt × Pt) :=
  let c := Api.checked N gen (fun x => x⁻¹) res arg
  let T : Api.Transcript c := shaTranscript K
  (Api.assignInstanceCommitment (c := c) vk instances : Option (List N × List (List Pt))).bind fun i =>
    (Api.verifyNoEval (c := c) (T := T) d vk i.2 "" ⟨proof, ([] : List UInt8), []⟩ : Option ((Api.MultiOpen c × List Pt) × Api.Reader T)).bind fun r =>
      Api.evaluateMultiopen c r.1.1

/-- **C75** for the three parts of native verification, with the length of the trace. -/
theorem generates_parts {rate : ℕ} {j : Job rate} (hps : j.ps.WF) {i : List N × List (List Pt)}
    {v : (Api.MultiOpen properChip × List Pt) × Api.Reader (shaTranscript (res := proper) (arg := fun _ => true) j.K)} {e : Pt × Pt}
    (g1 : (Api.assignInstanceCommitment (c := properChip) j.vk j.instances : Option (List N × List (List Pt))) = some i)
    (g3 : (Api.verifyNoEval (c := properChip) (T := shaTranscript j.K) j.d j.vk i.2 "" ⟨j.proof, ([] : List UInt8), []⟩ :
      Option ((Api.MultiOpen properChip × List Pt) × Api.Reader (shaTranscript j.K))) = some v)
    (g4 : (Api.evaluateMultiopen properChip v.1.1 : Option (Pt × Pt)) = some e) :
    ∃ rec k, j.record.1 Ctx.new = some (rec, k) ∧ rec.left.v = e.1 ∧ rec.right.v = e.2 ∧ rec.reader.trace.length = v.2.trace.length := by
  have hR : GenTotal.R (Option.bind (.some ()) fun _ => Option.bind (.some ()) fun _ =>
      (Api.assignInstanceCommitment (c := properChip) j.vk j.instances : Option (List N × List (List Pt))).bind fun i =>
      Option.bind (.some ()) fun _ => (Api.verifyNoEval (c := properChip) (T := shaTranscript j.K) j.d j.vk i.2 "" ⟨j.proof, ([] : List UInt8), []⟩ :
        Option ((Api.MultiOpen properChip × List Pt) × Api.Reader (shaTranscript j.K))).bind fun r =>
      Option.bind (Api.evaluateMultiopen properChip r.1.1 : Option (Pt × Pt)) fun e => .some (e, r.2.trace.length)) j.record
      fun e rec => rec.left.v = e.1.1 ∧ rec.right.v = e.1.2 ∧ rec.reader.trace.length = e.2 := by
    refine .bind (Q := fun _ _ => True) (.some (.bind (.tab fun _ => .pure _) fun _ => .pure _) (.triv _)) fun _ sp _ =>
      .bind (.setInstance true) fun _ _ _ => .bind (Q := fun i i' => List.Forall₂ (List.Forall₂ GenTotal.P) i.2 i'.2) ?_ fun i i' hi =>
      .bind (.setInstance false) fun _ _ _ => .bind (Q := fun a a' => GenTotal.link.Open () a.1.1 a'.1.1 ∧ a.2.trace.length = a'.2.trace.length) ?_ fun r r' hr =>
      .bind (Q := fun (e : Pt × Pt) (e' : PVal × PVal) => GenTotal.P e.1 e'.1 ∧ GenTotal.P e.2 e'.2) ?_ fun e e' he => .pure ⟨he.1, he.2, hr.2.symm⟩
    · have := Api.Link.assignInstanceCommitment (X := GenTotal.link) (w := ()) rfl (fun _ k => GenTotal.R.var k) j.vk j.instances
      rw [VK.map_id] at this
      exact fun a ha k hk => by
        obtain ⟨a', k', h1, h2⟩ := this a ha k hk
        exact ⟨a', k', h1, h2.2⟩
    · have := (GenTotal.bytes j.K hps j.d).link.rel.verifyNoEval (w := ()) j.vk hi "" ⟨j.proof, ([] : List UInt8), []⟩ ⟨j.proof, ⟨sp, []⟩, []⟩
        ⟨⟨rfl, trivial, rfl⟩, rfl⟩
      rw [VK.map_id] at this
      exact fun a ha k hk => by
        obtain ⟨a', k', h1, h2⟩ := this a ha k hk
        exact ⟨a', k', h1, h2.1.1, h2.2.1.2.2⟩
    · exact Api.Link.evaluateMultiopen (X := GenTotal.link) (w := ()) hr.1
  obtain ⟨rec, k, h1, h2, h3, h4⟩ := hR (e, v.2.trace.length) (Option.bind_eq_some_iff (x := Option.some ()).2 ⟨(), rfl,
    Option.bind_eq_some_iff (x := Option.some ()).2 ⟨(), rfl, Option.bind_eq_some_iff.2 ⟨i, g1, Option.bind_eq_some_iff (x := Option.some ()).2 ⟨(), rfl,
    Option.bind_eq_some_iff.2 ⟨v, g3, Option.bind_eq_some_iff.2 ⟨_, g4, rfl⟩⟩⟩⟩⟩⟩)
    Ctx.new rfl
  exact ⟨rec, k, h1, h2, h3, h4⟩

/-- **C75**. If native verification of the sample returns a pair of points, and none of the points it computes is the identity, then the
generator does not panic, and records the same pair. -/
theorem C75_generates {rate : ℕ} {j : Job rate} (hps : j.ps.WF) {l r : Pt} (h : native proper (fun _ => true) j.K j.d j.vk j.instances j.proof = some (l, r)) :
    ∃ rec k, j.record.1 Ctx.new = some (rec, k) ∧ rec.left.v = l ∧ rec.right.v = r ∧ j.generate = some (k.prog rec.left rec.right) := by
  obtain ⟨i, g1, g2⟩ := Option.bind_eq_some_iff.1 h
  obtain ⟨v, g3, g4⟩ := Option.bind_eq_some_iff.1 g2
  obtain ⟨rec, k, h1, h2, h3, -⟩ := generates_parts hps g1 g3 g4
  exact ⟨rec, k, h1, h2, h3, by unfold Job.generate; rw [h1]; rfl⟩

end Verif.Sol
