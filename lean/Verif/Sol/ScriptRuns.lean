import Verif.Sol.Script

/-!
# Runs of recorded scripts succeed (C39)

If the words of the proof are canonical and nothing is divided by zero, the recorded program does not revert.
-/

namespace Verif.Sol
open Verif.Circuit Verif.Ecc

namespace Op

/-- The call can be computed: its words of the proof exist and describe a scalar or a point, a divisor is not zero, and, because of
`ecc_sub`, a point that is subtracted is not the identity. -/
def Fits (proof : List Word) (t : ℕ) (m : List (N ⊕ Pt)) : Op → Prop
  | var _ => ∃ n, proof[t]? = some (wordOf n)
  | pVar _ => ∃ P, proof[t]? = some (g1Words P).1 ∧ proof[t + 1]? = some (g1Words P).2
  | div _ b => sAt m b ≠ 0
  | pSub _ b => pAt m b ≠ 0
  | _ => True

def FitsAll (χ : Word → Word → Pt) (proof : List Word) : ℕ → List (N ⊕ Pt) → List Op → Prop
  | _, _, [] => True
  | t, m, op :: ops => op.Fits proof t m ∧ FitsAll χ proof (t + op.words) (m ++ [op.value χ proof t m]) ops

end Op

/-! ### Values that stay -/

section
variable (E : Env)

/-- The expression has this value as long as the first `n` words of the memory are those of `s`. -/
def Stays (n : ℕ) (s : St) (e : Expr) (v : Val) : Prop := ∀ s' : St, (∀ i < n, s'.m i = s.m i) → eval E s' e = some v

/-- `s'` is a later state. -/
def Later (n : ℕ) (s : St) (n' : ℕ) (s' : St) : Prop := n ≤ n' ∧ ∀ i < n, s'.m i = s.m i

end

variable {E : Env} {n n' : ℕ} {s s' : St}

theorem Later.refl (n : ℕ) (s : St) : Later n s n s := ⟨le_rfl, fun _ _ => rfl⟩

theorem Later.trans {n'' : ℕ} {s'' : St} (h : Later n s n' s') (h' : Later n' s' n'' s'') : Later n s n'' s'' :=
  ⟨h.1.trans h'.1, fun i hi => (h'.2 i (hi.trans_le h.1)).trans (h.2 i hi)⟩

theorem Stays.later {e : Expr} {v : Val} (h : Stays E n s e v) (hl : Later n s n' s') : Stays E n' s' e v :=
  fun s1 h1 => h s1 fun i hi => (h1 i (hi.trans_le hl.1)).trans (hl.2 i hi)

theorem Stays.unique {e : Expr} {v v' : Val} (h : Stays E n s e v) (h' : Stays E n s e v') : v = v' :=
  Option.some.inj ((h s fun _ _ => rfl).symm.trans (h' s fun _ _ => rfl))

def sVal (x : N) : Val := .s (wordOf x)
def pVal (P : Pt) : Val := .p (g1Words P).1 (g1Words P).2

theorem wordOf_inj {x y : N} (h : wordOf x = wordOf y) : x = y := by rw [← frOf_wordOf x, h, frOf_wordOf]

theorem sVal_inj {x y : N} (h : sVal x = sVal y) : x = y := wordOf_inj (Val.s.inj h)

theorem pVal_inj {P Q : Pt} (h : pVal P = pVal Q) : P = Q := by
  obtain ⟨h1, h2⟩ := Val.p.inj h
  have := g1_g1Words P
  rw [h1, h2, g1_g1Words] at this
  exact (Option.some.inj this).symm

theorem stays_scalar (x : N) : Stays E n s (.scalar x.val) (sVal x) := fun s' _ => by
  show (lit x.val).map Val.s = _
  rw [lit, if_pos ((ZMod.val_lt x).trans frMod_lt)]
  rfl

theorem stays_point (P : Pt) : Stays E n s (pointExpr P) (pVal P) := fun s' _ => by
  show (do return Val.p (← lit _) (← lit _)) = _
  rw [lit, lit, if_pos ((ZMod.val_lt _).trans Sol.fqMod_lt), if_pos ((ZMod.val_lt _).trans Sol.fqMod_lt)]
  rfl

theorem stays_bin {op : Val → Val → Option Val} {e l r : Expr} {a b v : Val} (he : ∀ s', eval E s' e = (eval E s' l).bind fun x => (eval E s' r).bind fun y => op x y)
    (hl : Stays E n s l a) (hr : Stays E n s r b) (h : op a b = some v) : Stays E n s e v := fun s' hs => by
  rw [he, hl s' hs, hr s' hs]
  exact h

/-! ### Running while recording -/

/-- The statements so far run, and end in `s`; the cached locations hold the values of their expressions. -/
structure Ready (E : Env) (s0 : St) (k : Ctx) (s : St) : Prop where
  mock : k.mock = false
  run : execAll E s0 k.stmts = some s
  cache : ∀ x ∈ k.cache, ∃ v, Stays E k.memory s x.1 v ∧ Stays E k.memory s (.memory x.2 x.1.type) v

variable {s0 : St}

/-- Nothing was read from the call, and nothing was absorbed. -/
structure Quiet (k : Ctx) (s : St) (k' : Ctx) (s' : St) : Prop where
  transcript : k'.transcript = k.transcript
  inst : k'.inst = k.inst
  inInstance : k'.inInstance = k.inInstance
  absorbing : k'.absorbing = k.absorbing
  maxAbsorbing : k'.maxAbsorbing = k.maxAbsorbing
  abs : s'.abs = s.abs

theorem Quiet.refl (k : Ctx) (s : St) : Quiet k s k s := ⟨rfl, rfl, rfl, rfl, rfl, rfl⟩

theorem Quiet.trans {a b c : Ctx} {sa sb sc : St} (h : Quiet a sa b sb) (h' : Quiet b sb c sc) : Quiet a sa c sc :=
  ⟨h'.transcript.trans h.transcript, h'.inst.trans h.inst, h'.inInstance.trans h.inInstance, h'.absorbing.trans h.absorbing,
    h'.maxAbsorbing.trans h.maxAbsorbing, h'.abs.trans h.abs⟩

variable (E s0) in
/-- The statements added by `x` run too. -/
def CEns {α : Type} (n : ℕ) (s : St) (x : Gen α) (Q : ℕ → St → α → Prop) : Prop :=
  ∀ k a k', x.1 k = some (a, k') → k.memory = n → Ready E s0 k s → k'.memory ≤ E.size →
    ∃ s', Ready E s0 k' s' ∧ Later n s k'.memory s' ∧ Quiet k s k' s' ∧ Q k'.memory s' a

namespace CEns

theorem pure {α : Type} {a : α} {Q : ℕ → St → α → Prop} (h : Q n s a) : CEns E s0 n s (Pure.pure a : Gen α) Q := by
  intro k b k' hk hn hr _
  obtain ⟨rfl, rfl⟩ := Gen.pure_some hk
  subst hn
  exact ⟨s, hr, .refl _ _, .refl _ _, h⟩

theorem bind {α β : Type} {x : Gen α} {f : α → Gen β} {Q : ℕ → St → α → Prop} {R : ℕ → St → β → Prop} (hx : CEns E s0 n s x Q)
    (hf : ∀ a n' s', Later n s n' s' → Q n' s' a → CEns E s0 n' s' (f a) R) : CEns E s0 n s (x >>= f) R := by
  intro k b k' hk hn hr hb
  obtain ⟨a, k1, h1, h2⟩ := Gen.bind_some hk
  have g2 := (f a).2 _ _ _ h2
  obtain ⟨s1, h3, h4, q1, h5⟩ := hx k a k1 h1 hn hr (g2.memory.trans hb)
  obtain ⟨s2, h6, h7, q2, h8⟩ := hf a _ s1 h4 h5 k1 b k' h2 rfl h3 hb
  exact ⟨s2, h6, h4.trans h7, q1.trans q2, h8⟩

theorem mono {α : Type} {x : Gen α} {Q R : ℕ → St → α → Prop} (hx : CEns E s0 n s x Q) (h : ∀ a n' s', Later n s n' s' → Q n' s' a → R n' s' a) :
    CEns E s0 n s x R := by
  intro k a k' hk hn hr hb
  obtain ⟨s1, h1, h2, q, h3⟩ := hx k a k' hk hn hr hb
  exact ⟨s1, h1, h2, q, h a _ s1 h2 h3⟩

theorem fail {α : Type} {Q : ℕ → St → α → Prop} : CEns E s0 n s (Gen.fail : Gen α) Q := fun _ _ _ h => by cases h

theorem assignMemory {e : Expr} (he : ∀ o, e ≠ .hash o) {v : Val} (hv : Stays E n s e v) (ht : v.ty = e.type) :
    CEns E s0 n s (Gen.assignMemory e) fun n' s' o => Stays E n' s' (.memory o e.type) v := by
  intro k o k' hk hn hr hb
  subst hn
  have hk' : k.assignMemory e = (o, k') := Option.some.inj hk
  unfold Ctx.assignMemory at hk'
  split at hk'
  · next x hx =>
    cases hk'
    have h1 : x.1 = e := by simpa using List.find?_some hx
    obtain ⟨v', h2, h3⟩ := hr.cache x (List.mem_of_find?_eq_some hx)
    rw [h1] at h2 h3
    rw [h2.unique hv] at h3
    exact ⟨s, hr, .refl _ _, .refl _ _, h3⟩
  · rw [hr.mock] at hk'
    cases hk'
    dsimp only [Bool.false_eq_true, if_false] at hb ⊢
    have hp := put_memory (E := E) (s := s) (o := k.memory) (t := e.type) (v := v) hb
    rw [if_pos ht] at hp
    obtain ⟨s1, h1, ha, -, -, -, h6⟩ := hp
    have hl : Later k.memory s (k.memory + e.type.len) s1 := ⟨Nat.le_add_right .., fun i hi => h6 i (.inl hi)⟩
    have hm : Stays E (k.memory + e.type.len) s1 (.memory k.memory e.type) v := by
      intro s' hs'
      have h7 := read_put hb h1
      rw [← h7]
      show E.readMem s' _ _ = E.readMem s1 _ _
      generalize e.type = t at hs' hb
      cases t
      · simp only [Ty.len] at hs'
        simp only [Env.readMem, Env.load, hs' k.memory (by omega)]
      · simp only [Ty.len] at hs'
        simp only [Env.readMem, Env.load, hs' k.memory (by omega), hs' (k.memory + 1) (by omega)]
    refine ⟨s1, ⟨rfl, ?_, ?_⟩, hl, ⟨rfl, rfl, rfl, rfl, rfl, ha⟩, hm⟩
    · rw [execAll_append, hr.run, Option.bind_some]
      show (exec E s (.assign (.memory k.memory e.type) e)).bind _ = _
      have : exec E s (.assign (.memory k.memory e.type) e) = some s1 := by
        show (evalRhs E s e).bind (fun x => put E x.1 _ x.2) = _
        rw [evalRhs_of_ne he, hv s fun _ _ => rfl]
        exact h1
      rw [this]
      rfl
    · intro x hx
      rcases List.mem_cons.1 hx with rfl | hx
      · exact ⟨v, hv.later hl, hm⟩
      · obtain ⟨v', h2, h3⟩ := hr.cache x hx
        exact ⟨v', h2.later hl, h3.later hl⟩

variable (E) in
/-- The assigned scalar has this value. -/
def S (x : N) (n : ℕ) (s : St) (a : SVal) : Prop := Stays E n s a.expr (sVal x)

variable (E) in
/-- The assigned point has this value. -/
def P (x : Pt) (n : ℕ) (s : St) (a : PVal) : Prop := Stays E n s a.expr (pVal x)

theorem scalar {e : Expr} {x v : N} (he : ∀ o, e ≠ .hash o) (ht : e.type = .scalar) (hv : Stays E n s e (sVal x)) :
    CEns E s0 n s (Gen.scalar e v) (S E x) :=
  bind (assignMemory he hv ht.symm) fun o n' s' _ ho => pure (by rw [ht] at ho; exact ho)

theorem point {e : Expr} {x v : Pt} (he : ∀ o, e ≠ .hash o) (ht : e.type = .point) (hv : Stays E n s e (pVal x)) :
    CEns E s0 n s (Gen.point e v) (P E x) := by
  unfold Gen.point
  split
  · exact fail
  · exact bind (assignMemory he hv ht.symm) fun o n' s' _ ho => pure (by rw [ht] at ho; exact ho)

theorem lit_s {a : SVal} {x : N} (h : S E x n s a) (hc : a.isConst = true) : a.v = x := by
  have h' := h
  unfold S at h'
  rw [a.lit hc] at h'
  exact sVal_inj ((stays_scalar a.v).unique h')

theorem lit_p {a : PVal} {x : Pt} (h : P E x n s a) (hc : a.isConst = true) : a.v = x := by
  have h' := h
  unfold P at h'
  rw [a.lit hc] at h'
  exact pVal_inj ((stays_point a.v).unique h')

theorem const_s (x : N) : S E x n s (.const x) := stays_scalar x

theorem const_p (x : Pt) : P E x n s (.const x) := stays_point x

variable {a b : SVal} {x y : N} {p q : PVal} {X Y : Pt}

theorem add (ha : S E x n s a) (hb : S E y n s b) : CEns E s0 n s (a.add b) (S E (x + y)) := by
  unfold SVal.add
  split
  · next h => exact pure (by rw [lit_s ha h.1, lit_s hb h.2]; exact const_s _)
  split
  · next h =>
    have := lit_s ha h.1
    exact pure (by rw [← this, h.2, zero_add]; exact hb)
  split
  · next h =>
    have := lit_s hb h.1
    exact pure (by rw [← this, h.2, add_zero]; exact ha)
  exact scalar nofun rfl (stays_bin (fun _ => rfl) ha hb (by simp only [sVal, opAdd, C50_add, frOf_wordOf]))

theorem sub (ha : S E x n s a) (hb : S E y n s b) : CEns E s0 n s (a.sub b) (S E (x - y)) := by
  unfold SVal.sub
  split
  · next h => exact pure (by rw [lit_s ha h.1, lit_s hb h.2]; exact const_s _)
  split
  · next h =>
    have := lit_s hb h.1
    exact pure (by rw [← this, h.2, sub_zero]; exact ha)
  refine scalar nofun rfl (stays_bin (fun _ => rfl) ha hb ?_)
  simp only [sVal, opSub]
  rw [C50_sub (by rw [wordOf_toNat]; exact (ZMod.val_lt y).le), frOf_wordOf, frOf_wordOf]
  rfl

theorem mul (ha : S E x n s a) (hb : S E y n s b) : CEns E s0 n s (a.mul b) (S E (x * y)) := by
  unfold SVal.mul
  split
  · next h => exact pure (by rw [lit_s ha h.1, lit_s hb h.2]; exact const_s _)
  split
  · next h =>
    have := lit_s ha h.1
    exact pure (by rw [← this, h.2, one_mul]; exact hb)
  split
  · next h =>
    have := lit_s hb h.1
    exact pure (by rw [← this, h.2, mul_one]; exact ha)
  exact scalar nofun rfl (stays_bin (fun _ => rfl) ha hb (by simp only [sVal, opMul, C50_mul, frOf_wordOf]))

theorem div (ha : S E x n s a) (hb : S E y n s b) (hy : y ≠ 0) : CEns E s0 n s (a.div b) (S E (x / y)) := by
  unfold SVal.div
  split
  · exact fail
  split
  · next h => exact pure (by rw [lit_s ha h.1, lit_s hb h.2, ← div_eq_mul_inv]; exact const_s _)
  split
  · next h =>
    have := lit_s hb h.1
    exact pure (by rw [← this, h.2, div_one]; exact ha)
  refine scalar nofun rfl (stays_bin (fun _ => rfl) ha hb ?_)
  simp only [sVal, opDiv]
  rw [C50_div, if_neg, frOf_wordOf, frOf_wordOf]
  · rfl
  · intro h
    apply hy
    rw [← frOf_wordOf y, h]
    rfl

theorem square (ha : S E x n s a) : CEns E s0 n s a.square (S E (x ^ 2)) := by
  unfold SVal.square
  rw [sq]
  split
  · next h => exact pure (by rw [lit_s ha h]; exact const_s _)
  exact scalar nofun rfl (stays_bin (fun _ => rfl) ha ha (by simp only [sVal, opMul, C50_mul, frOf_wordOf]))

theorem S.later (h : S E x n s a) (hl : Later n s n' s') : S E x n' s' a := Stays.later h hl
theorem P.later (h : P E X n s p) (hl : Later n s n' s') : P E X n' s' p := Stays.later h hl

theorem sumLoop : ∀ {n : ℕ} {s : St} {l : List (SVal × N)} {xs : List (N × N)} {acc : SVal} {x : N}, List.Forall₂ (fun a b => S E b.1 n s a.1 ∧ a.2 = b.2) l xs →
    S E x n s acc → CEns E s0 n s (SVal.sumLoop l acc) (S E (x + (xs.map fun y => y.2 * y.1).sum))
  | n, s, [], _, acc, x, .nil, h => pure (by simpa using h)
  | n, s, (a, k) :: l, _, acc, x, .cons (b := b) (l₂ := xs) hb hl, h => by
    obtain ⟨h1, rfl⟩ := hb
    refine bind (mul h1 (const_s b.2)) fun m n1 s1 l1 hm => bind (add (h.later l1) hm) fun r n2 s2 l2 hr => ?_
    refine mono (sumLoop (hl.imp fun a b hab => ⟨hab.1.later (l1.trans l2), hab.2⟩) hr) fun r n3 s3 l3 hr => ?_
    rw [List.map_cons, List.sum_cons]
    have e : x + (b.2 * b.1 + (xs.map fun y => y.2 * y.1).sum) = x + b.1 * b.2 + (xs.map fun y => y.2 * y.1).sum := by ring
    rw [e]
    exact hr

theorem mulAddConstant (ha : S E x n s a) (hb : S E y n s b) (k : N) : S E (x * y + k) n s (a.mulAddConstant b k) := by
  intro s' hs
  show ((eval E s' a.expr).bind fun u => (eval E s' b.expr).bind fun v => (eval E s' (.scalar k.val)).bind fun w => opMulAdd .scalar u v w) = _
  rw [ha s' hs, hb s' hs, stays_scalar (n := n) (s := s) k s' hs]
  show opMulAdd .scalar (sVal x) (sVal y) (sVal k) = _
  simp only [sVal, opMulAdd, C50_mul_add, frOf_wordOf]

theorem pAdd (ha : P E X n s p) (hb : P E Y n s q) : CEns E s0 n s (p.add q) (P E (X + Y)) := by
  unfold PVal.add
  split
  · next h => exact pure (by rw [lit_p ha h.1, lit_p hb h.2]; exact const_p _)
  exact point nofun rfl (stays_bin (fun _ => rfl) ha hb (by simp only [pVal, opAdd, C71_add, Option.map_some]))

theorem pSub (ha : P E X n s p) (hb : P E Y n s q) (hY : Y ≠ 0) : CEns E s0 n s (p.sub q) (P E (X - Y)) := by
  unfold PVal.sub
  split
  · next h => exact pure (by rw [lit_p ha h.1, lit_p hb h.2]; exact const_p _)
  exact point nofun rfl (stays_bin (fun _ => rfl) ha hb (by simp only [pVal, opSub, C71_sub X hY, Option.map_some]))

theorem eccMul_wordOf (k : N) (Q : Pt) : eccMul (g1Words Q).1 (g1Words Q).2 (wordOf k) = some (g1Words (k • Q)) := by
  rw [C71_mul, ← smul_word, frOf_wordOf]

theorem pMul (ha : S E x n s a) (hb : P E X n s p) : CEns E s0 n s (PVal.mul a p) (P E (x • X)) := by
  unfold PVal.mul
  split
  · next h => exact pure (by rw [lit_s ha h.1, lit_p hb h.2]; exact const_p _)
  exact point nofun rfl (stays_bin (fun _ => rfl) ha hb (by simp only [pVal, sVal, opMul, eccMul_wordOf, Option.map_some]))

theorem pMulConstant (ha : S E x n s a) (X : Pt) : CEns E s0 n s (PVal.mulConstant a X) (P E (x • X)) := by
  unfold PVal.mulConstant
  split
  · next h => exact pure (by rw [lit_s ha h]; exact const_p _)
  exact point nofun rfl (stays_bin (fun _ => rfl) ha (stays_point X) (by simp only [pVal, sVal, opMul, eccMul_wordOf, Option.map_some]))

theorem multiExp {xs : List (Pt × N)} : ∀ {n : ℕ} {s : St} {ps : List PVal} {ss : List SVal} {acc : Option PVal} {A : Pt},
    List.Forall₂ (fun p x => P E x.1 n s p) ps xs → List.Forall₂ (fun a x => S E x.2 n s a) ss xs →
    (acc = none ∧ A = 0 ∨ ∃ a, acc = some a ∧ P E A n s a) →
    CEns E s0 n s (PVal.multiExp acc ps ss) (P E (A + (xs.map fun x => x.2 • x.1).sum)) := by
  induction xs with
  | nil =>
    intro n s ps ss acc A hps hss h
    cases hps
    cases hss
    rcases h with ⟨rfl, rfl⟩ | ⟨a, rfl, ha⟩
    · exact fail
    · exact pure (by simpa using ha)
  | cons x xs ih =>
    intro n s ps ss acc A hps hss h
    cases hps with | cons hp hps =>
    cases hss with | cons ha hss =>
    refine bind (pMul ha hp) fun cur n1 s1 l1 hc => ?_
    have e : A + ((x :: xs).map fun x => x.2 • x.1).sum = (A + x.2 • x.1) + (xs.map fun x => x.2 • x.1).sum := by
      rw [List.map_cons, List.sum_cons, add_assoc]
    rw [e]
    have f1 := hps.imp fun a b hab => P.later hab l1
    have f2 := hss.imp fun a b hab => S.later hab l1
    rcases h with ⟨rfl, rfl⟩ | ⟨r, rfl, hr⟩
    · exact ih f1 f2 (.inr ⟨cur, rfl, by rw [zero_add]; exact hc⟩)
    · refine bind (pAdd (hr.later l1) hc) fun r' n2 s2 l2 hr' => ?_
      exact ih (f1.imp fun a b hab => P.later hab l2) (f2.imp fun a b hab => S.later hab l2) (.inr ⟨r', rfl, hr'⟩)

end CEns

/-! ### Scripts -/

namespace Op
open CEns

variable (E) in
/-- The result has this value. -/
def Has (n : ℕ) (s : St) : Handle → N ⊕ Pt → Prop
  | .inl a, .inl x => S E x n s a
  | .inr p, .inr X => P E X n s p
  | _, _ => False

theorem Has.later {h : Handle} {x : N ⊕ Pt} (hh : Has E n s h x) (hl : Later n s n' s') : Has E n' s' h x := by
  cases h <;> cases x
  · exact S.later hh hl
  · exact hh
  · exact hh
  · exact P.later hh hl

theorem Has.eval {h : Handle} {x : N ⊕ Pt} (hh : Has E n s h x) : ∃ v, eval E s h.expr = some v := by
  cases h <;> cases x
  · exact ⟨_, hh s fun _ _ => rfl⟩
  · exact hh.elim
  · exact hh.elim
  · exact ⟨_, hh s fun _ _ => rfl⟩

theorem forall₂_get {α β : Type} {R : α → β → Prop} : ∀ {l : List α} {l' : List β}, List.Forall₂ R l l' → ∀ {i : ℕ} {a : α}, l[i]? = some a →
    ∃ b, l'[i]? = some b ∧ R a b
  | _, _, .nil, i, a, h => by simp at h
  | _, _, .cons (b := b) h _, 0, a, e => by
    cases (show some _ = some a from e)
    exact ⟨b, rfl, h⟩
  | _, _, .cons _ hl, i + 1, a, e => forall₂_get hl (i := i) e

variable {h : List Handle} {m : List (N ⊕ Pt)}

theorem sNeed_runs (hm : List.Forall₂ (Has E n s) h m) (i : ℕ) : CEns E s0 n s (sNeed h i) (S E (sAt m i)) := by
  unfold sNeed
  split
  · next x e =>
    obtain ⟨y, e', hy⟩ := forall₂_get hm e
    cases y with
    | inl y =>
      refine .pure ?_
      simp only [sAt, e']
      exact hy
    | inr y => exact hy.elim
  · exact .fail

theorem pNeed_runs (hm : List.Forall₂ (Has E n s) h m) (i : ℕ) : CEns E s0 n s (pNeed h i) (P E (pAt m i)) := by
  unfold pNeed
  split
  · next x e =>
    obtain ⟨y, e', hy⟩ := forall₂_get hm e
    cases y with
    | inl y => exact hy.elim
    | inr y =>
      refine .pure ?_
      simp only [pAt, e']
      exact hy
  · exact .fail

theorem Forall₂_later (hm : List.Forall₂ (Has E n s) h m) (hl : Later n s n' s') : List.Forall₂ (Has E n' s') h m := hm.imp fun _ _ hh => hh.later hl

theorem needs_runs {α β : Type} {f : α → Gen β} {Q : α → ℕ → St → β → Prop} (hQ : ∀ a n s n' s' b, Q a n s b → Later n s n' s' → Q a n' s' b)
    (hf : ∀ a n s, List.Forall₂ (Has E n s) h m → CEns E s0 n s (f a) (Q a)) : ∀ l n s, List.Forall₂ (Has E n s) h m →
      CEns E s0 n s (needs f l) fun n' s' bs => List.Forall₂ (fun a b => Q a n' s' b) l bs
  | [], _, _, _ => .pure .nil
  | a :: l, n, s, hm => .bind (hf a n s hm) fun b n1 s1 l1 hb => .bind (needs_runs hQ hf l n1 s1 (Forall₂_later hm l1)) fun bs n2 s2 l2 hbs =>
      .pure (.cons (hQ _ _ _ _ _ _ hb l2) hbs)

theorem record_runs {χ : Word → Word → Pt} {proof : List Word} (t : ℕ) (hm : List.Forall₂ (Has E n s) h m) {op : Op} (hw : op.words = 0)
    (hf : op.Fits proof t m) : CEns E s0 n s (op.record h) fun n' s' r => Has E n' s' r (op.value χ proof t m) := by
  have s1 : ∀ {n' s'}, Later n s n' s' → ∀ i, CEns E s0 n' s' (sNeed h i) (S E (sAt m i)) := fun l => sNeed_runs (Forall₂_later hm l)
  have p1 : ∀ {n' s'}, Later n s n' s' → ∀ i, CEns E s0 n' s' (pNeed h i) (P E (pAt m i)) := fun l => pNeed_runs (Forall₂_later hm l)
  have l0 := Later.refl n s
  cases op with
  | const k => exact .pure (const_s k)
  | var v => cases hw
  | add a b => exact .bind (s1 l0 a) fun x _ _ l1 hx => .bind (s1 l1 b) fun y _ _ l2 hy => .bind (CEns.add (hx.later l2) hy) fun r _ _ _ hr => .pure hr
  | sub a b => exact .bind (s1 l0 a) fun x _ _ l1 hx => .bind (s1 l1 b) fun y _ _ l2 hy => .bind (CEns.sub (hx.later l2) hy) fun r _ _ _ hr => .pure hr
  | mul a b => exact .bind (s1 l0 a) fun x _ _ l1 hx => .bind (s1 l1 b) fun y _ _ l2 hy => .bind (CEns.mul (hx.later l2) hy) fun r _ _ _ hr => .pure hr
  | div a b => exact .bind (s1 l0 a) fun x _ _ l1 hx => .bind (s1 l1 b) fun y _ _ l2 hy => .bind (CEns.div (hx.later l2) hy hf) fun r _ _ _ hr => .pure hr
  | square a => exact .bind (s1 l0 a) fun x _ _ l1 hx => .bind (CEns.square hx) fun r _ _ _ hr => .pure hr
  | sum l k =>
    refine .bind (needs_runs (Q := fun (a : ℕ × N) n s (b : SVal × N) => S E (sAt m a.1) n s b.1 ∧ b.2 = a.2) (fun _ _ _ _ _ _ hq l => ⟨hq.1.later l, hq.2⟩)
      (fun a n s hm => .bind (sNeed_runs hm a.1) fun x _ _ _ hx => .pure ⟨hx, rfl⟩) l n s hm) fun xs n1 s1 l1 hxs => ?_
    refine .bind (CEns.sumLoop (xs := l.map fun x => (sAt m x.1, x.2)) ?_ (const_s k)) fun r _ _ _ hr => .pure ?_
    · rw [List.forall₂_map_right_iff]
      exact hxs.flip
    · rw [List.map_map] at hr
      exact hr
  | mulAdd a b k => exact .bind (s1 l0 a) fun x _ _ l1 hx => .bind (s1 l1 b) fun y _ _ l2 hy => .pure (CEns.mulAddConstant (hx.later l2) hy k)
  | pConst P => exact .pure (const_p P)
  | pVar v => cases hw
  | pAdd a b => exact .bind (p1 l0 a) fun x _ _ l1 hx => .bind (p1 l1 b) fun y _ _ l2 hy => .bind (CEns.pAdd (hx.later l2) hy) fun r _ _ _ hr => .pure hr
  | pSub a b => exact .bind (p1 l0 a) fun x _ _ l1 hx => .bind (p1 l1 b) fun y _ _ l2 hy => .bind (CEns.pSub (hx.later l2) hy hf) fun r _ _ _ hr => .pure hr
  | pMul k a => exact .bind (s1 l0 k) fun x _ _ l1 hx => .bind (p1 l1 a) fun y _ _ l2 hy => .bind (CEns.pMul (hx.later l2) hy) fun r _ _ _ hr => .pure hr
  | pMulConst k P => exact .bind (s1 l0 k) fun x _ _ l1 hx => .bind (CEns.pMulConstant hx P) fun r _ _ _ hr => .pure hr
  | multiExp l =>
    refine .bind (needs_runs (Q := fun (a : ℕ × ℕ) n s b => P E (pAt m a.1) n s b) (fun _ _ _ _ _ _ hq l => hq.later l) (fun a n s hm => pNeed_runs hm a.1) l n s hm)
      fun ps n1 s1 l1 hps => .bind (needs_runs (Q := fun (a : ℕ × ℕ) n s b => S E (sAt m a.2) n s b) (fun _ _ _ _ _ _ hq l => hq.later l) (fun a n s hm => sNeed_runs hm a.2)
        l n1 s1 (Forall₂_later hm l1)) fun ss n2 s2 l2 hss => ?_
    refine .bind (CEns.multiExp (xs := l.map fun x => (pAt m x.1, sAt m x.2)) ?_ ?_ (.inl ⟨rfl, rfl⟩)) fun r _ _ _ hr => .pure ?_
    · rw [List.forall₂_map_right_iff]
      exact (hps.imp fun a b hab => hab.later l2).flip
    · rw [List.forall₂_map_right_iff]
      exact hss.flip
    · rw [List.map_map, zero_add] at hr
      exact hr

theorem recordAll_runs {χ : Word → Word → Pt} : ∀ {ops : List Op} {h hs : List Handle} {m : List (N ⊕ Pt)} {k k' : Ctx} {s : St},
    (recordAll h ops).1 k = some (hs, k') → Ready E s0 k s → k.Inv → k.inInstance = false → k'.memory ≤ E.size →
    List.Forall₂ (Has E k.memory s) h m → FitsAll χ E.proof k.transcript m ops →
    ∃ s', execAll E s0 k'.stmts = some s' ∧ ∀ x ∈ hs, ∃ v, eval E s' x.expr = some v
  | [], h, hs, m, k, k', s, hk, hr, _, _, _, hm, _ => by
    obtain ⟨rfl, rfl⟩ := Gen.pure_some hk
    refine ⟨s, hr.run, fun x hx => ?_⟩
    obtain ⟨i, hi⟩ := List.mem_iff_getElem?.1 hx
    obtain ⟨y, -, hy⟩ := forall₂_get hm hi
    exact hy.eval
  | op :: ops, h, hs, m, k, k', s, hk, hr, hi, hn, hb, hm, hf => by
    obtain ⟨r, k1, h1, h2⟩ := Gen.bind_some hk
    obtain ⟨g1, g2, g3⟩ := record_ctx h1 hr.mock hi hn
    have gr' := (recordAll (h ++ [r]) ops).2 _ _ _ h2
    obtain ⟨s1, h3, h4, h5⟩ : ∃ s', Ready E s0 k1 s' ∧ Later k.memory s k1.memory s' ∧ Has E k1.memory s' r (op.value χ E.proof k.transcript m) := by
      by_cases hw : op.words = 0
      · obtain ⟨s', h3, h4, -, h5⟩ := record_runs _ hm hw hf.1 k r k1 h1 rfl hr (gr'.memory.trans hb)
        exact ⟨s', h3, h4, h5⟩
      · cases op <;> first | exact absurd rfl hw | skip
        · obtain ⟨a, k2, h3, h4⟩ := Gen.bind_some h1
          obtain ⟨rfl, rfl⟩ := Gen.pure_some h4
          obtain ⟨-, -, e⟩ := Gen.scalarVar_some h3
          rw [hn] at e
          obtain ⟨e1, rfl⟩ := Prod.mk.inj e
          refine ⟨s, ⟨hr.mock, hr.run, hr.cache⟩, .refl _ _, ?_⟩
          obtain ⟨x, hx⟩ := hf.1
          have : frOf (E.proof.getD k.transcript 0) = x := by rw [List.getD_eq_getElem?_getD, hx, Option.getD_some, frOf_wordOf]
          simp only [value, this, Has, S, e1]
          intro s' _
          show (E.proof[k.transcript]?).map Val.s = _
          rw [hx]
          rfl
        · obtain ⟨a, k2, h3, h4⟩ := Gen.bind_some h1
          obtain ⟨rfl, rfl⟩ := Gen.pure_some h4
          obtain ⟨-, -, e⟩ := Gen.pointVar_some h3
          rw [hn] at e
          obtain ⟨e1, rfl⟩ := Prod.mk.inj e
          refine ⟨s, ⟨hr.mock, hr.run, hr.cache⟩, .refl _ _, ?_⟩
          obtain ⟨X, hx, hy⟩ := hf.1
          have : ptOf χ (E.proof.getD k.transcript 0) (E.proof.getD (k.transcript + 1) 0) = X := by
            rw [List.getD_eq_getElem?_getD, List.getD_eq_getElem?_getD, hx, hy, Option.getD_some, Option.getD_some]
            exact ptOf_eq (g1_g1Words X)
          simp only [value, this, Has, P, e1]
          intro s' _
          show (do return Val.p (← E.proof[k.transcript]?) (← E.proof[k.transcript + 1]?)) = _
          rw [hx, hy]
          rfl
    exact recordAll_runs h2 h3 g1 g2 hb (List.rel_append (Forall₂_later hm h4) (.cons h5 .nil)) (by rw [g3]; exact hf.2)

end Op

theorem mapM_runs {α β : Type} {f : α → Option β} : ∀ {l : List α}, (∀ x ∈ l, ∃ v, f x = some v) → ∃ r, l.mapM f = some r
  | [], _ => ⟨[], rfl⟩
  | a :: l, h => by
    obtain ⟨b, hb⟩ := h a List.mem_cons_self
    obtain ⟨bs, hbs⟩ := mapM_runs fun x hx => h x (List.mem_cons_of_mem _ hx)
    exact ⟨b :: bs, by rw [List.mapM_cons, hb, hbs]; rfl⟩

/-- C39: and if the words of the proof that the script reads are canonical, nothing is divided by zero and no identity is subtracted, then
the program does not revert. -/
theorem C39_runs {χ : Word → Word → Pt} {ops : List Op} {P : Prog} (h : scriptProg ops = some P) {c : Call}
    (hf : Op.FitsAll χ c.proof 0 [] ops) : ∃ vals, P.run c = some vals := by
  obtain ⟨⟨hs, k⟩, h1, rfl⟩ := Option.map_eq_some_iff.1 h
  obtain ⟨s', h2, h3⟩ := Op.recordAll_runs (E := c.env k.memory) (s0 := St.init (max k.absorbing k.maxAbsorbing)) h1 ⟨rfl, rfl, fun x hx => by cases hx⟩
    ⟨.nil, (fun c hc => by cases hc), fun c hc => by cases hc⟩ rfl le_rfl .nil hf
  obtain ⟨r, hr⟩ := mapM_runs (l := hs.map Handle.expr) (f := eval (c.env k.memory) s') (fun x hx => by
    obtain ⟨y, hy, rfl⟩ := List.mem_map.1 hx
    exact h3 y hy)
  exact ⟨r, by
    show (execAll _ _ _).bind _ = _
    rw [h2]
    exact hr⟩

/-! ### C40: the simplifications -/

/-- A call of a chip, in a context whose statements hold in `s` afterwards. -/
structure Called (E : Env) (s : St) {α : Type} (x : Gen α) (r : α) : Prop where
  run : ∃ k k', x.1 k = some (r, k') ∧ k.mock = false ∧ k.Cached ∧ ∀ c ∈ k'.stmts, c.HoldsAt E s

theorem Called.ens {α : Type} {x : Gen α} {r : α} (h : Called E s x r) {Q : α → Prop} (hx : GEns E s x Q) : Q r := by
  obtain ⟨k, k', h1, h2, h3, h4⟩ := h.run
  exact hx k r k' h1 h2 h3 h4

section C40
variable {a b r : SVal} {p q t : PVal} {x y z : Word} {X Y Z : Word × Word}

/-- C40: whatever `add` simplifies, its result has the value of the sum of its operands. -/
theorem C40_add (h : Called E s (a.add b) r) (ha : eval E s a.expr = some (.s x)) (hb : eval E s b.expr = some (.s y))
    (hr : eval E s r.expr = some (.s z)) : frOf z = frOf x + frOf y := by
  rw [r.eval_s hr, h.ens (SVal.add_ens a b), a.eval_s ha, b.eval_s hb]

theorem C40_sub (h : Called E s (a.sub b) r) (ha : eval E s a.expr = some (.s x)) (hb : eval E s b.expr = some (.s y))
    (hr : eval E s r.expr = some (.s z)) : frOf z = frOf x - frOf y := by
  rw [r.eval_s hr, h.ens (SVal.sub_ens a b), a.eval_s ha, b.eval_s hb]

theorem C40_mul (h : Called E s (a.mul b) r) (ha : eval E s a.expr = some (.s x)) (hb : eval E s b.expr = some (.s y))
    (hr : eval E s r.expr = some (.s z)) : frOf z = frOf x * frOf y := by
  rw [r.eval_s hr, h.ens (SVal.mul_ens a b), a.eval_s ha, b.eval_s hb]

theorem C40_div (h : Called E s (a.div b) r) (ha : eval E s a.expr = some (.s x)) (hb : eval E s b.expr = some (.s y))
    (hr : eval E s r.expr = some (.s z)) : frOf z = frOf x / frOf y := by
  rw [r.eval_s hr, h.ens (SVal.div_ens a b), a.eval_s ha, b.eval_s hb]

theorem C40_square (h : Called E s a.square r) (ha : eval E s a.expr = some (.s x)) (hr : eval E s r.expr = some (.s z)) :
    frOf z = frOf x ^ 2 := by
  rw [r.eval_s hr, h.ens (SVal.square_ens a), a.eval_s ha, sq]

/-- C40: `sum_with_coeff_and_constant`, whose terms are simplified one by one. -/
theorem C40_sum {l : List (SVal × N)} {ws : List Word} {k : N} (h : Called E s (SVal.sumLoop l (.const k)) r)
    (hl : List.Forall₂ (fun a w => eval E s a.1.expr = some (.s w)) l ws) (hr : eval E s r.expr = some (.s z)) :
    frOf z = k + (List.zipWith (fun a w => a.2 * frOf w) l ws).sum := by
  rw [r.eval_s hr, h.ens (SVal.sumLoop_ens l _), sval_const]
  congr 2
  clear h
  induction hl with
  | nil => rfl
  | cons h1 _ ih => rw [List.map_cons, List.zipWith_cons_cons, ih, SVal.eval_s _ h1]

theorem C40_mulAddConstant {k : N} (ha : eval E s a.expr = some (.s x)) (hb : eval E s b.expr = some (.s y))
    (hr : eval E s (a.mulAddConstant b k).expr = some (.s z)) : frOf z = frOf x * frOf y + k := by
  rw [SVal.eval_s _ hr, a.eval_s ha, b.eval_s hb]
  show _ + sval E s (SVal.const k).expr = _
  rw [sval_const]

variable {χ : Word → Word → Pt}

theorem C40_pAdd (h : Called E s (p.add q) t) (hp : eval E s p.expr = some (.p X.1 X.2)) (hq : eval E s q.expr = some (.p Y.1 Y.2))
    (ht : eval E s t.expr = some (.p Z.1 Z.2)) : ptOf χ Z.1 Z.2 = ptOf χ X.1 X.2 + ptOf χ Y.1 Y.2 := by
  rw [t.eval_p ht, h.ens (PVal.add_ens p q), p.eval_p hp, q.eval_p hq]

theorem C40_pSub (hχ : χ 0 pMod = 0) (h : Called E s (p.sub q) t) (hp : eval E s p.expr = some (.p X.1 X.2)) (hq : eval E s q.expr = some (.p Y.1 Y.2))
    (ht : eval E s t.expr = some (.p Z.1 Z.2)) : ptOf χ Z.1 Z.2 = ptOf χ X.1 X.2 - ptOf χ Y.1 Y.2 := by
  rw [t.eval_p ht, h.ens (PVal.sub_ens hχ p q), p.eval_p hp, q.eval_p hq]

theorem C40_pMul (h : Called E s (PVal.mul a p) t) (ha : eval E s a.expr = some (.s x)) (hp : eval E s p.expr = some (.p X.1 X.2))
    (ht : eval E s t.expr = some (.p Z.1 Z.2)) : ptOf χ Z.1 Z.2 = frOf x • ptOf χ X.1 X.2 := by
  rw [t.eval_p ht, h.ens (PVal.mul_ens a p), a.eval_s ha, p.eval_p hp]

theorem C40_pMulConstant {P : Pt} (h : Called E s (PVal.mulConstant a P) t) (ha : eval E s a.expr = some (.s x))
    (ht : eval E s t.expr = some (.p Z.1 Z.2)) : ptOf χ Z.1 Z.2 = frOf x • P := by
  rw [t.eval_p ht, h.ens (PVal.mulConstant_ens a P), a.eval_s ha]

end C40

/-- A product of a variable with one is the variable; a product of two variables is recorded. -/
example (D : Digest) : let E : Env := ⟨D, [5, 7], [], 1⟩
    let a : SVal := ⟨.transcript 0 .scalar, 3, false, rfl, nofun⟩
    let b : SVal := ⟨.transcript 1 .scalar, 4, false, rfl, nofun⟩
    let s : St := ⟨fun _ => 35, [], 0, 0⟩
    Called E s (a.mul (.const 1)) a ∧ Called E s (a.mul b) ⟨.memory 0 .scalar, 12, false, rfl, nofun⟩ := by
  refine ⟨⟨Ctx.new, Ctx.new, rfl, rfl, fun x hx => (by cases hx), fun c hc => (by cases hc)⟩, ⟨Ctx.new, _, rfl, rfl, fun x hx => (by cases hx), fun c hc => ?_⟩⟩
  obtain rfl := List.mem_singleton.1 (show c ∈ [Stmt.assign (.memory 0 .scalar) (.mul (.transcript 0 .scalar) (.transcript 1 .scalar) .scalar)] from hc)
  exact .inr ⟨.s 35, rfl, rfl⟩

/-! ### An example

Two words of the proof, the constant zero, a sum that is simplified to its first operand, and a product that is recorded once and used
twice. -/

def demoScript : List Op := [.var 3, .var 4, .const 0, .add 0 2, .mul 3 1, .mul 0 1, .sub 4 5, .square 4]

def demoScriptProg : Prog := ⟨[.assign (.memory 0 .scalar) (.mul (.transcript 0 .scalar) (.transcript 1 .scalar) .scalar),
    .assign (.memory 1 .scalar) (.sub (.memory 0 .scalar) (.memory 0 .scalar) .scalar),
    .assign (.memory 2 .scalar) (.mul (.memory 0 .scalar) (.memory 0 .scalar) .scalar)],
    [.transcript 0 .scalar, .transcript 1 .scalar, .scalar 0, .transcript 0 .scalar, .memory 0 .scalar, .memory 0 .scalar, .memory 1 .scalar, .memory 2 .scalar],
    3, 0⟩

theorem demoScript_prog : scriptProg demoScript = some demoScriptProg := rfl

example (D : Digest) : ∃ vals, demoScriptProg.run ⟨D, [5, 7], []⟩ = some vals ∧
    vals.map (Val.meaning fun _ _ => 0) = [.inl 5, .inl 7, .inl 0, .inl 5, .inl 35, .inl 35, .inl 0, .inl 1225] := by
  obtain ⟨vals, h⟩ := C39_runs (χ := fun _ _ => 0) demoScript_prog (c := ⟨D, [5, 7], []⟩) (by
    refine ⟨⟨5, rfl⟩, ⟨7, rfl⟩, ?_⟩
    exact ⟨trivial, trivial, trivial, trivial, trivial, trivial, trivial⟩)
  refine ⟨vals, h, ?_⟩
  rw [C39_recorded rfl demoScript_prog h]
  have h5 : frOf 5#256 = 5 := by rfl
  have h7 : frOf 7#256 = 7 := by rfl
  simp [demoScript, Op.values, Op.value, Op.words, Op.sAt, h5, h7]
  norm_num

end Verif.Sol
