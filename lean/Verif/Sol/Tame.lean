import Verif.Sol.Contract

/-!
# How generated programs use the instance words

The instance words are only used as factors of constant points, by contract 7, which takes every word and reduces it. So a word and the
word plus `q_mod` are the same instance.
-/

namespace Verif.Sol
open Verif.Circuit Verif.Ecc

/-! ### Where instance words occur -/

/-- No instance word is used. -/
def Expr.NoInst : Expr → Prop
  | .inst _ _ => False
  | .add l r _ | .sub l r _ | .mul l r _ | .div l r _ => l.NoInst ∧ r.NoInst
  | .mulAdd l r c _ => l.NoInst ∧ r.NoInst ∧ c.NoInst
  | .mulAddPM e _ _ | .pow e _ _ => e.NoInst
  | _ => True

/-- No instance word is used, but for the factor of a constant point. -/
def Stmt.Tame : Stmt → Prop
  | .assign _ r => r.NoInst ∨ ∃ i x y, r = .mul (.inst i .scalar) (.point x y) .point
  | .updateHash e _ => e.NoInst
  | _ => True

/-- Runs that record tame statements only. `b` says whether the instances are being assigned. -/
def TEns (b : Bool) {α : Type} (x : Gen α) (Q : α → Prop) : Prop :=
  ∀ k a k', x.1 k = some (a, k') → k.mock = false → k.inInstance = b → (∀ c ∈ k.stmts, c.Tame) →
    k'.inInstance = b ∧ (∀ c ∈ k'.stmts, c.Tame) ∧ Q a

theorem tame_push {cs : List Stmt} (h : ∀ c ∈ cs, c.Tame) {c : Stmt} (hc : c.Tame) : ∀ d ∈ cs ++ [c], d.Tame := by
  intro d hd
  rcases List.mem_append.1 hd with hd | hd
  · exact h d hd
  · rw [List.mem_singleton.1 hd]
    exact hc

namespace TEns
variable {b : Bool}

theorem pure {α : Type} {a : α} {Q : α → Prop} (h : Q a) : TEns b (Pure.pure a : Gen α) Q := by
  intro k c k' hk _ hb hs
  cases hk
  exact ⟨hb, hs, h⟩

theorem bind {α β : Type} {x : Gen α} {f : α → Gen β} {Q : α → Prop} {R : β → Prop} (hx : TEns b x Q) (hf : ∀ a, Q a → TEns b (f a) R) :
    TEns b (x >>= f) R := by
  intro k c k' hk hm hb hs
  obtain ⟨r, h1, h2⟩ := Option.bind_eq_some_iff.1 (show (x.1 k).bind (fun r => (f r.1).1 r.2) = some (c, k') from hk)
  obtain ⟨g1, g2, g3⟩ := hx k r.1 r.2 h1 hm hb hs
  exact hf r.1 g3 r.2 c k' h2 ((x.2 _ _ _ h1).mock.trans hm) g1 g2

theorem mono {α : Type} {x : Gen α} {Q R : α → Prop} (h : TEns b x Q) (hi : ∀ a, Q a → R a) : TEns b x R :=
  fun k a k' hk hm hb hs => ⟨(h k a k' hk hm hb hs).1, (h k a k' hk hm hb hs).2.1, hi a (h k a k' hk hm hb hs).2.2⟩

/-- The location of an expression: every statement of the right form may be recorded. -/
theorem memory {e : Expr} (h : e.NoInst ∨ ∃ i x y, e = .mul (.inst i .scalar) (.point x y) .point) :
    TEns b (Gen.assignMemory e) fun _ => True := by
  intro k o k' hk hm hb hs
  have hk' : k.assignMemory e = (o, k') := Option.some.inj hk
  unfold Ctx.assignMemory at hk'
  split at hk'
  · cases hk'
    exact ⟨hb, hs, trivial⟩
  · rw [hm] at hk'
    cases hk'
    exact ⟨hb, tame_push hs h, trivial⟩

theorem fail {α : Type} {Q : α → Prop} : TEns b (Gen.fail : Gen α) Q := fun k a k' h => by cases h

end TEns

def tameRules (b : Bool) : Rules where
  Ens := TEns b
  good := Expr.NoInst
  pure := .pure
  bind := .bind
  mono := .mono
  fail := .fail
  scalar _ := trivial
  point _ _ := trivial
  add _ h h' := ⟨h, h'⟩
  sub _ h h' := ⟨h, h'⟩
  mul _ h h' := ⟨h, h'⟩
  div _ h h' := ⟨h, h'⟩
  memory _ _ h _ := .mono (.memory (.inl h)) fun _ _ => trivial

namespace TEns
variable {b : Bool} {rate : ℕ} {K : Digest} {ps : Api.PoseidonSpec N rate}

theorem update {e : Expr} (h : e.NoInst) (delta : ℕ) : TEns b (Gen.update e delta) fun _ => True := by
  intro k a k' hk hm hb hs
  have hk' : (if k.mock then none else some ((), _)) = some (a, k') := hk
  rw [hm] at hk'
  cases hk'
  exact ⟨hb, tame_push hs h, trivial⟩

theorem squeeze (st : HashSt rate) : TEns b (Gen.squeeze K ps st) fun r => r.1.expr.NoInst := by
  intro k a k' hk _ hb hs
  obtain ⟨-, m, -, ha, rfl⟩ := Gen.squeeze_some hk
  refine ⟨hb, tame_push hs (.inl trivial), ?_⟩
  show a.1.expr.NoInst
  rw [ha]
  trivial

theorem scalarVar (v : N) : TEns false (Gen.scalarVar v) fun r => r.expr.NoInst := by
  intro k a k' hk _ hb hs
  obtain ⟨-, -, h⟩ := Gen.scalarVar_some hk
  rw [if_neg (by rw [hb]; nofun)] at h
  obtain ⟨h1, h2⟩ := Prod.mk.inj h
  rw [h2]
  refine ⟨hb, hs, ?_⟩
  show a.expr.NoInst
  rw [h1]
  trivial

theorem pointVar (v : Pt) : TEns false (Gen.pointVar v) fun r => r.expr.NoInst := by
  intro k a k' hk _ hb hs
  obtain ⟨-, -, h⟩ := Gen.pointVar_some hk
  rw [if_neg (by rw [hb]; nofun)] at h
  obtain ⟨h1, h2⟩ := Prod.mk.inj h
  rw [h2]
  refine ⟨hb, hs, ?_⟩
  show a.expr.NoInst
  rw [h1]
  trivial

theorem tmpVar (v : N) : TEns b (Gen.tmpVar v) fun _ => True := by
  intro k a k' hk _ hb hs
  rw [Gen.tmpVar_some hk]
  exact ⟨hb, hs, trivial⟩

theorem commonPoint (st : HashSt rate) {p : PVal} (h : p.expr.NoInst) : TEns b ((codegenTranscript K ps).commonPoint st p : Gen _) fun _ => True :=
  .bind (.tmpVar _) fun _ _ => .bind (.tmpVar _) fun _ _ => .bind (.update h 3) fun _ _ => .pure trivial

theorem commonScalar (st : HashSt rate) {a : SVal} (h : a.expr.NoInst) : TEns b ((codegenTranscript K ps).commonScalar st a : Gen _) fun _ => True :=
  .bind (.update h 2) fun _ _ => .pure trivial

end TEns

/-- The same for computations that use the transcript. -/
def TREns {rate : ℕ} {K : Digest} {ps : Api.PoseidonSpec N rate} {α : Type} (x : Api.Rd (codegenTranscript K ps) α) (Q : α → Prop) : Prop :=
  ∀ s, TEns false (x s : Gen _) fun r => Q r.1

namespace TREns
variable {rate : ℕ} {K : Digest} {ps : Api.PoseidonSpec N rate}

theorem ret {α : Type} {a : α} {Q : α → Prop} (h : Q a) : TREns (Pure.pure a : Api.Rd (codegenTranscript K ps) α) Q :=
  fun s => .pure (a := (a, s)) (Q := fun r => Q r.1) h

theorem bind {α β : Type} {x : Api.Rd (codegenTranscript K ps) α} {f : α → Api.Rd (codegenTranscript K ps) β} {Q : α → Prop} {R : β → Prop}
    (hx : TREns x Q) (hf : ∀ a, Q a → TREns (f a) R) : TREns (x >>= f) R := fun s => .bind (hx s) fun r hr => hf r.1 hr r.2

theorem lift {α : Type} {x : Gen α} {Q : α → Prop} (h : TEns false x Q) : TREns (Api.Rd.lift (c := genChip) (T := codegenTranscript K ps) x) Q :=
  fun s => .bind h fun a ha => .pure (a := (a, s)) (Q := fun r => Q r.1) ha

theorem absorbPoint (e : genChip.P → Api.Event genChip.P genChip.S) {p : genChip.P} (h : (PVal.expr p).NoInst) :
    TREns (Api.Rd.absorbPoint (c := genChip) (T := codegenTranscript K ps) e p) fun _ => True :=
  fun s => .bind (.commonPoint s.st h) fun st _ =>
    .pure (a := ((), (⟨s.bytes, st, s.trace ++ [e p]⟩ : Api.Reader (codegenTranscript K ps)))) trivial

theorem absorbScalar (e : genChip.S → Api.Event genChip.P genChip.S) {p : genChip.S} (h : (SVal.expr p).NoInst) :
    TREns (Api.Rd.absorbScalar (c := genChip) (T := codegenTranscript K ps) e p) fun _ => True :=
  fun s => .bind (.commonScalar s.st h) fun st _ =>
    .pure (a := ((), (⟨s.bytes, st, s.trace ++ [e p]⟩ : Api.Reader (codegenTranscript K ps)))) trivial

end TREns

noncomputable def tameReading {rate : ℕ} (K : Digest) (ps : Api.PoseidonSpec N rate) : Api.Reading (tameRules false).frame (codegenTranscript K ps) where
  Ens := TREns
  ret := .ret
  bind := .bind
  mono hx h s := .mono (hx s) fun r hr => h r.1 hr
  lift := .lift
  fail s := .fail
  sized h s := h s.bytes.length s
  commonPoint h := .absorbPoint _ h
  commonScalar h := .absorbScalar _ h
  squeeze s := .bind (.squeeze s.st) fun r h =>
    .pure (Q := fun x : genChip.S × Api.Reader (codegenTranscript K ps) => Expr.NoInst (SVal.expr x.1)) h
  nextPoint d s := by
    unfold Api.Rd.nextPoint
    split <;> exact .pure trivial
  nextScalar d s := by
    unfold Api.Rd.nextScalar
    split <;> exact .pure trivial
  acceptPoint P := .bind (.lift (.pointVar P)) fun _ h => .bind (.absorbPoint _ h) fun _ _ => .ret h
  acceptScalar k := .bind (.lift (.scalarVar k)) fun _ h => .bind (.absorbScalar _ h) fun _ _ => .ret h

/-! ### Instance commitments -/

/-- An assigned instance. -/
def SVal.IsInst (a : SVal) : Prop := ∃ i, a.expr = .inst i .scalar

theorem TEns.instVar (v : N) : TEns true (Gen.scalarVar v) SVal.IsInst := by
  intro k a k' hk _ hb hs
  obtain ⟨-, -, h⟩ := Gen.scalarVar_some hk
  rw [if_pos hb] at h
  obtain ⟨h1, h2⟩ := Prod.mk.inj h
  rw [h2]
  exact ⟨hb, hs, _, h1⟩

theorem TEns.mulInst {b : Bool} {a : SVal} (ha : a.IsInst) (P : Pt) : TEns b (PVal.mulConstant a P) fun r => r.expr.NoInst := by
  obtain ⟨i, hi⟩ := ha
  unfold PVal.mulConstant
  rw [if_neg fun h => by rw [a.lit h] at hi; cases hi]
  unfold Gen.point
  split
  · exact .fail
  ·     refine .bind (.memory (.inr ⟨i, (coordX P).val, (coordY P).val, by rw [hi]; rfl⟩)) fun o _ => .pure trivial

theorem columnAcc_tame (vk : Api.VK N Pt) : ∀ {l : List SVal} (i : ℕ) {acc : Option PVal}, (∀ s ∈ l, s.IsInst) → (∀ p ∈ acc, p.expr.NoInst) →
    TEns true (Api.columnAcc (c := genChip) vk i l acc : Gen _) fun r => ∀ p ∈ r, (PVal.expr p).NoInst
  | [], i, acc, _, ha => .pure ha
  | s :: l, i, acc, hl, ha => by
    have hl' : ∀ s ∈ l, s.IsInst := fun s hs => hl s (List.mem_cons_of_mem _ hs)
    refine .bind (Api.Frame.index (X := (tameRules true).frame) (Q := fun _ => True) (fun _ _ => trivial) i) fun g _ =>
      .bind (TEns.mulInst (hl s List.mem_cons_self) g) fun ls hls => ?_
    cases acc with
    | none => exact columnAcc_tame vk (i + 1) hl' fun p hp => by cases hp; exact hls
    | some a =>
      exact .bind ((tameRules true).pAdd (ha a rfl) hls) fun a ha => columnAcc_tame vk (i + 1) hl' fun p hp => by cases hp; exact ha

theorem columnCommitment_tame (vk : Api.VK N Pt) {l : List SVal} (hl : ∀ s ∈ l, s.IsInst) :
    TEns true (Api.columnCommitment (c := genChip) vk l : Gen _) fun p => (PVal.expr p).NoInst := by
  refine .bind (columnAcc_tame vk 0 hl nofun) fun r hr => ?_
  cases r with
  | none => exact .pure trivial
  | some a => exact .pure (hr a rfl)

theorem assignInstanceCommitment_tame (vk : Api.VK N Pt) (instances : List (List (List N))) :
    TEns true (Api.assignInstanceCommitment (c := genChip) vk instances : Gen _) fun r => ∀ l ∈ r.2, ∀ p ∈ l, (PVal.expr p).NoInst := by
  let X := (tameRules true).frame
  unfold Api.assignInstanceCommitment
  split
  · refine TEns.bind (Api.Frame.mapM' (X := X) (Q := fun cols : List (List SVal) => ∀ col ∈ cols, ∀ s ∈ col, s.IsInst) fun a _ =>
      Api.Frame.mapM' (X := X) (Q := fun col : List SVal => ∀ s ∈ col, s.IsInst) fun col _ => ?_) fun as has =>
      TEns.bind (Api.Frame.mapM' (X := X) (Q := fun cols => ∀ p ∈ cols, X.pg p) fun a ha => Api.Frame.mapM' fun col hcol =>
        columnCommitment_tame vk (has a ha col hcol)) fun cs hcs => .pure hcs
    unfold Api.assignColumn
    split
    · exact Api.Frame.mapM' (X := X) fun v _ => TEns.instVar v
    · exact X.panic
  · exact X.panic

/-- Every statement of a generated program is tame. -/
theorem Job.tame {rate : ℕ} {j : Job rate} {P : Prog} (h : j.generate = some P) : (∀ c ∈ P.stmts, c.Tame) ∧ ∀ e ∈ P.finals, e.NoInst := by
  obtain ⟨⟨r, k⟩, h0, rfl⟩ := Option.map_eq_some_iff.1 h
  obtain ⟨sp, k1, h1, h⟩ := Gen.bind_some h0
  obtain ⟨u, k2, h2, h⟩ := Gen.bind_some h
  obtain ⟨i, k3, h3, h⟩ := Gen.bind_some h
  obtain ⟨u', k4, h4, h⟩ := Gen.bind_some h
  obtain ⟨v, k5, h5, h⟩ := Gen.bind_some h
  obtain ⟨e, k6, h6, h⟩ := Gen.bind_some h
  obtain ⟨rfl, rfl⟩ := Gen.pure_some h
  obtain rfl := spongeNew_some h1
  obtain rfl := setInstance_some h2
  obtain ⟨-, g2, g3⟩ := assignInstanceCommitment_tame j.vk j.instances _ _ _ h3 rfl rfl (fun c hc => by cases hc)
  have hm3 : k3.mock = false := (((Api.assignInstanceCommitment (c := genChip) j.vk j.instances : Gen _)).2 _ _ _ h3).mock
  obtain rfl := setInstance_some h4
  obtain ⟨g4, g5, g6⟩ := (tameReading j.K j.ps).verifyNoEval j.d j.vk (ics := i.2) g3 "" _ _ _ _ h5 hm3 rfl g2
  have hm5 : k5.mock = false := (((Api.verifyNoEval (c := genChip) (T := codegenTranscript j.K j.ps) j.d j.vk i.2 "" ⟨j.proof, ⟨sp, []⟩, []⟩ : Gen _)).2 _ _ _ h5).mock.trans hm3
  obtain ⟨-, g7, g8⟩ := Api.Frame.evaluateMultiopen (X := (tameRules false).frame) g6.1 _ _ _ h6 hm5 g4 g5
  refine ⟨g7, fun x hx => ?_⟩
  rcases List.mem_cons.1 hx with rfl | hx
  · exact g8.1
  · rw [List.mem_singleton.1 hx]
    exact g8.2

/-! ### What the words stand for -/

/-- The words are the same instances. -/
def SameInst (l l' : List Word) : Prop := List.Forall₂ (fun a b : Word => a.toNat % frMod = b.toNat % frMod) l l'

theorem nsmul_mod (n : ℕ) (P : Pt) : n • P = (n % frMod) • P := by
  conv_lhs => rw [← Nat.mod_add_div n frMod]
  rw [add_nsmul, mul_nsmul, order_nsmul, nsmul_zero, add_zero]

theorem eccMul_mod {x y a b : Word} (h : a.toNat % frMod = b.toNat % frMod) : eccMul x y a = eccMul x y b := by
  unfold eccMul
  simp only [nsmul_mod a.toNat, nsmul_mod b.toNat, h]

section Env
variable {D : Digest} {proof inst inst' : List Word} {size : ℕ} {s : St}

theorem frMulAddPM_inst : ∀ (n : ℕ) (op t : Word), frMulAddPM ⟨D, proof, inst, size⟩ s n op t = frMulAddPM ⟨D, proof, inst', size⟩ s n op t
  | 0, _, _ => rfl
  | n + 1, op, t => by
    unfold frMulAddPM
    simp only [frMulAddPM_inst n]
    rfl

theorem eccMulAddPM_inst : ∀ (n : ℕ) (op x y : Word), eccMulAddPM ⟨D, proof, inst, size⟩ s n op x y = eccMulAddPM ⟨D, proof, inst', size⟩ s n op x y
  | 0, _, _, _ => rfl
  | n + 1, op, x, y => by
    unfold eccMulAddPM
    simp only [eccMulAddPM_inst n]
    rfl

theorem frMulAddMT_inst (base : Word) : ∀ (n : ℕ) (op t : Word),
    frMulAddMT ⟨D, proof, inst, size⟩ s base n op t = frMulAddMT ⟨D, proof, inst', size⟩ s base n op t
  | 0, _, _ => rfl
  | n + 1, op, t => by
    unfold frMulAddMT
    simp only [frMulAddMT_inst base n]
    rfl

theorem opPM_inst (op : ℕ) (t : Ty) (v : Val) : opPM ⟨D, proof, inst, size⟩ s op t v = opPM ⟨D, proof, inst', size⟩ s op t v := by
  unfold opPM
  split
  · simp only [frMulAddPM_inst (inst := inst) (inst' := inst')]
  · simp only [eccMulAddPM_inst (inst := inst) (inst' := inst')]
  · rfl

theorem eval_noInst : ∀ {e : Expr}, e.NoInst → eval ⟨D, proof, inst, size⟩ s e = eval ⟨D, proof, inst', size⟩ s e
  | .inst _ _, h => h.elim
  | .add l r _, h | .sub l r _, h | .mul l r _, h | .div l r _, h => by
    unfold eval
    rw [eval_noInst h.1, eval_noInst h.2]
  | .mulAdd l r c _, h => by
    unfold eval
    rw [eval_noInst h.1, eval_noInst h.2.1, eval_noInst h.2.2]
  | .mulAddPM e _ t, h => by
    unfold eval
    rw [eval_noInst (e := e) h]
    simp only [opPM_inst (inst := inst) (inst' := inst')]
  | .pow e _ _, h => by
    unfold eval
    rw [eval_noInst (e := e) h]
  | .mulAddMT m op, _ => by
    unfold eval
    simp only [frMulAddMT_inst (inst := inst) (inst' := inst')]
    rfl
  | .memory _ _, _ | .transcript _ _, _ | .tmpBuf _ _, _ | .point _ _, _ | .scalar _, _ | .hash _, _ | .temp _, _ => by
    unfold eval
    rfl

theorem SameInst.get {l l' : List Word} (h : SameInst l l') (i : ℕ) :
    (l[i]? = none ∧ l'[i]? = none) ∨ ∃ a b, l[i]? = some a ∧ l'[i]? = some b ∧ a.toNat % frMod = b.toNat % frMod := by
  induction h generalizing i with
  | nil => exact .inl ⟨rfl, rfl⟩
  | cons h _ ih =>
    cases i with
    | zero => exact .inr ⟨_, _, rfl, rfl, h⟩
    | succ i => exact ih i

theorem eval_factor (h : SameInst inst inst') (i x y : ℕ) : eval ⟨D, proof, inst, size⟩ s (.mul (.inst i .scalar) (.point x y) .point) =
    eval ⟨D, proof, inst', size⟩ s (.mul (.inst i .scalar) (.point x y) .point) := by
  simp only [eval, readArr]
  rcases h.get i with ⟨h1, h2⟩ | ⟨a, b, h1, h2, h3⟩
  · rw [h1, h2]
  · rw [h1, h2]
    cases lit x with
    | none => rfl
    | some u =>
      cases lit y with
      | none => rfl
      | some v =>
        show (eccMul u v a).map _ = (eccMul u v b).map _
        rw [eccMul_mod h3]

theorem hashRounds_inst (a b c d : ℕ) (t : Ty) : ∀ (l : List ℕ) (s : St),
    hashRounds ⟨D, proof, inst, size⟩ a b c d t l s = hashRounds ⟨D, proof, inst', size⟩ a b c d t l s
  | [], _ => rfl
  | i :: l, s => by
    unfold hashRounds
    simp only [hashRounds_inst a b c d t l]

theorem mulRounds_inst (a b : ℕ × ℕ × ℕ) : ∀ (l : List ℕ) (s : St),
    mulRounds ⟨D, proof, inst, size⟩ a b l s = mulRounds ⟨D, proof, inst', size⟩ a b l s
  | [], _ => rfl
  | i :: l, s => by
    unfold mulRounds
    simp only [mulRounds_inst a b l]
    rfl

theorem put_inst : ∀ (l : Expr) (s : St) (v : Val), put ⟨D, proof, inst, size⟩ s l v = put ⟨D, proof, inst', size⟩ s l v := by
  intro l s v
  unfold put
  rfl

theorem exec_tame (h : SameInst inst inst') : ∀ {c : Stmt}, c.Tame → exec ⟨D, proof, inst, size⟩ s c = exec ⟨D, proof, inst', size⟩ s c
  | .assign l r, hc => by
    have hr : eval ⟨D, proof, inst, size⟩ s r = eval ⟨D, proof, inst', size⟩ s r := by
      rcases hc with hc | ⟨i, x, y, rfl⟩
      · exact eval_noInst hc
      · exact eval_factor h i x y
    have : evalRhs ⟨D, proof, inst, size⟩ s r = evalRhs ⟨D, proof, inst', size⟩ s r := by
      unfold evalRhs
      split
      · rfl
      · rw [hr]
    simp only [exec]
    rw [this]
    simp only [put_inst (inst := inst) (inst' := inst')]
  | .updateHash e off, hc => by
    simp only [exec]
    rw [eval_noInst hc]
  | .loop .., _ => by
    unfold exec
    simp only [hashRounds_inst (inst := inst) (inst' := inst')]
  | .mulLoop .., _ => by
    unfold exec
    simp only [mulRounds_inst (inst := inst) (inst' := inst')]

theorem execAll_tame (h : SameInst inst inst') : ∀ {cs : List Stmt} {s : St}, (∀ c ∈ cs, c.Tame) →
    execAll ⟨D, proof, inst, size⟩ s cs = execAll ⟨D, proof, inst', size⟩ s cs
  | [], _, _ => rfl
  | c :: cs, s, hc => by
    unfold execAll
    rw [exec_tame h (hc c List.mem_cons_self)]
    congr 1
    funext s'
    exact execAll_tame h fun d hd => hc d (List.mem_cons_of_mem _ hd)

end Env

/-- A generated program returns the same for words that are the same instances. -/
theorem Job.run_same {rate : ℕ} {j : Job rate} {P : Prog} (hg : j.generate = some P) (D : Digest) (proof : List Word) {inst inst' : List Word}
    (h : SameInst inst inst') : P.run ⟨D, proof, inst⟩ = P.run ⟨D, proof, inst'⟩ := by
  obtain ⟨h1, h2⟩ := Job.tame hg
  unfold Prog.run Prog.runFrom Call.env
  dsimp only
  rw [execAll_tame h h1]
  congr 1
  funext s
  have : ∀ l : List Expr, (∀ e ∈ l, e.NoInst) → l.mapM (eval ⟨D, proof, inst, P.size⟩ s) = l.mapM (eval ⟨D, proof, inst', P.size⟩ s) := by
    intro l
    induction l with
    | nil => intro _; rfl
    | cons e l ih =>
      intro hl
      rw [List.mapM_cons, List.mapM_cons, eval_noInst (hl e List.mem_cons_self), ih fun e he => hl e (List.mem_cons_of_mem _ he)]
  exact this _ h2

end Verif.Sol
