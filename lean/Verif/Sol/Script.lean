import Verif.Sol.GenRun

/-!
# Straight-line programs recorded by the generator: C39, C40

A script is a sequence of calls of the two chips; the operands of a call are earlier results. Recording a script gives a program. C39 says
that whatever a run of that program returns for a result is the value of the script for that result.

The values of a script (`Op.value`) are defined with field and group operations; they know nothing of expressions, locations, the cache of
the context or the simplifications of the chips.
-/

namespace Verif.Sol
open Verif.Circuit Verif.Ecc

/-- A call of a chip. Operands are positions of earlier results. -/
inductive Op
  | const (k : N)
  | var (sample : N)
  | add (a b : ℕ)
  | sub (a b : ℕ)
  | mul (a b : ℕ)
  | div (a b : ℕ)
  | square (a : ℕ)
  | sum (l : List (ℕ × N)) (k : N)
  | mulAdd (a b : ℕ) (k : N)
  | pConst (P : Pt)
  | pVar (sample : Pt)
  | pAdd (a b : ℕ)
  | pSub (a b : ℕ)
  | pMul (k a : ℕ)
  | pMulConst (k : ℕ) (P : Pt)
  | multiExp (l : List (ℕ × ℕ))

/-! ### Values of a script -/

namespace Op

def sAt (m : List (N ⊕ Pt)) (i : ℕ) : N := match m[i]? with
  | some (.inl x) => x
  | _ => 0

def pAt (m : List (N ⊕ Pt)) (i : ℕ) : Pt := match m[i]? with
  | some (.inr P) => P
  | _ => 0

/-- The words of the proof a call uses up. -/
def words : Op → ℕ
  | var _ => 1
  | pVar _ => 2
  | _ => 0

/-- The result of a call, for earlier results `m`, when the next word of the proof is number `t`. -/
noncomputable def value (χ : Word → Word → Pt) (proof : List Word) (t : ℕ) (m : List (N ⊕ Pt)) : Op → N ⊕ Pt
  | const k => .inl k
  | var _ => .inl (frOf (proof.getD t 0))
  | add a b => .inl (sAt m a + sAt m b)
  | sub a b => .inl (sAt m a - sAt m b)
  | mul a b => .inl (sAt m a * sAt m b)
  | div a b => .inl (sAt m a / sAt m b)
  | square a => .inl (sAt m a ^ 2)
  | sum l k => .inl (k + (l.map fun x => x.2 * sAt m x.1).sum)
  | mulAdd a b k => .inl (sAt m a * sAt m b + k)
  | pConst P => .inr P
  | pVar _ => .inr (ptOf χ (proof.getD t 0) (proof.getD (t + 1) 0))
  | pAdd a b => .inr (pAt m a + pAt m b)
  | pSub a b => .inr (pAt m a - pAt m b)
  | pMul k a => .inr (sAt m k • pAt m a)
  | pMulConst k P => .inr (sAt m k • P)
  | multiExp l => .inr ((l.map fun x => sAt m x.2 • pAt m x.1).sum)

/-- The results of a script. -/
noncomputable def values (χ : Word → Word → Pt) (proof : List Word) : ℕ → List (N ⊕ Pt) → List Op → List (N ⊕ Pt)
  | _, m, [] => m
  | t, m, op :: ops => values χ proof (t + op.words) (m ++ [op.value χ proof t m]) ops

end Op

/-- The scalar or point a returned value stands for. -/
def Val.meaning (χ : Word → Word → Pt) : Val → N ⊕ Pt
  | .s w => .inl (frOf w)
  | .p x y => .inr (ptOf χ x y)

/-! ### Recording -/

/-- An assigned scalar or point. -/
abbrev Handle := SVal ⊕ PVal

def Handle.expr : Handle → Expr
  | .inl a => a.expr
  | .inr p => p.expr

namespace Op

def sNeed (h : List Handle) (i : ℕ) : Gen SVal := match h[i]? with
  | some (.inl x) => return x
  | _ => Gen.fail

def pNeed (h : List Handle) (i : ℕ) : Gen PVal := match h[i]? with
  | some (.inr x) => return x
  | _ => Gen.fail

def needs {α β : Type} (f : α → Gen β) : List α → Gen (List β)
  | [] => return []
  | a :: l => do
    let b ← f a
    let bs ← needs f l
    return b :: bs

/-- A call, on the results so far. -/
noncomputable def record (h : List Handle) : Op → Gen Handle
  | const k => return .inl (.const k)
  | var v => do return .inl (← Gen.scalarVar v)
  | add a b => do return .inl (← SVal.add (← sNeed h a) (← sNeed h b))
  | sub a b => do return .inl (← SVal.sub (← sNeed h a) (← sNeed h b))
  | mul a b => do return .inl (← SVal.mul (← sNeed h a) (← sNeed h b))
  | div a b => do return .inl (← SVal.div (← sNeed h a) (← sNeed h b))
  | square a => do return .inl (← SVal.square (← sNeed h a))
  | sum l k => do return .inl (← SVal.sumLoop (← needs (fun x => do return (← sNeed h x.1, x.2)) l) (.const k))
  | mulAdd a b k => do return .inl (SVal.mulAddConstant (← sNeed h a) (← sNeed h b) k)
  | pConst P => return .inr (.const P)
  | pVar v => do return .inr (← Gen.pointVar v)
  | pAdd a b => do return .inr (← PVal.add (← pNeed h a) (← pNeed h b))
  | pSub a b => do return .inr (← PVal.sub (← pNeed h a) (← pNeed h b))
  | pMul k a => do return .inr (← PVal.mul (← sNeed h k) (← pNeed h a))
  | pMulConst k P => do return .inr (← PVal.mulConstant (← sNeed h k) P)
  | multiExp l => do return .inr (← PVal.multiExp none (← needs (fun x => pNeed h x.1) l) (← needs (fun x => sNeed h x.2) l))

noncomputable def recordAll : List Handle → List Op → Gen (List Handle)
  | h, [] => return h
  | h, op :: ops => do
    let r ← op.record h
    recordAll (h ++ [r]) ops

end Op

/-- The program recorded for a script, which returns all the results. -/
noncomputable def scriptProg (ops : List Op) : Option Prog :=
  ((Op.recordAll [] ops).1 Ctx.new).map fun r => ⟨r.2.stmts, r.1.map Handle.expr, r.2.memory, max r.2.absorbing r.2.maxAbsorbing⟩

/-! ### Recorded scripts are recorded programs -/

namespace Op

theorem sNeed_rules (X : Rules) {h : List Handle} (hg : ∀ x ∈ h, X.good x.expr) (i : ℕ) : X.Ens (sNeed h i) fun a => X.good a.expr := by
  unfold sNeed
  split
  · next x e => exact X.pure (hg _ (List.mem_of_getElem? e))
  · exact X.fail

theorem pNeed_rules (X : Rules) {h : List Handle} (hg : ∀ x ∈ h, X.good x.expr) (i : ℕ) : X.Ens (pNeed h i) fun a => X.good a.expr := by
  unfold pNeed
  split
  · next x e => exact X.pure (hg _ (List.mem_of_getElem? e))
  · exact X.fail

theorem needs_rules (X : Rules) {α β : Type} {f : α → Gen β} {Q : β → Prop} (hf : ∀ a, X.Ens (f a) Q) : ∀ l, X.Ens (needs f l) fun bs => ∀ b ∈ bs, Q b
  | [] => X.pure (by simp)
  | a :: l => X.bind (hf a) fun b hb => X.bind (needs_rules X hf l) fun bs hbs => X.pure (by
      intro x hx
      rcases List.mem_cons.1 hx with rfl | hx
      · exact hb
      · exact hbs x hx)

/-- All calls but those for new variables follow the rules. -/
theorem record_rules (X : Rules) (hX : ∀ {l r c : Expr} t, X.good l → X.good r → X.good c → X.good (.mulAdd l r c t)) {h : List Handle}
    (hg : ∀ x ∈ h, X.good x.expr) (op : Op) (hv : ∀ v, op = .var v → X.Ens (Gen.scalarVar v) fun a => X.good a.expr)
    (hp : ∀ v, op = .pVar v → X.Ens (Gen.pointVar v) fun a => X.good a.expr) : X.Ens (op.record h) fun r => X.good r.expr := by
  have s1 := sNeed_rules X hg
  have p1 := pNeed_rules X hg
  cases op with
  | const k => exact X.pure (X.scalar _)
  | var v => exact X.bind (hv v rfl) fun a ha => X.pure ha
  | add a b => exact X.bind (s1 a) fun x hx => X.bind (s1 b) fun y hy => X.bind (X.sAdd hx hy) fun r hr => X.pure hr
  | sub a b => exact X.bind (s1 a) fun x hx => X.bind (s1 b) fun y hy => X.bind (X.sSub hx hy) fun r hr => X.pure hr
  | mul a b => exact X.bind (s1 a) fun x hx => X.bind (s1 b) fun y hy => X.bind (X.sMul hx hy) fun r hr => X.pure hr
  | div a b => exact X.bind (s1 a) fun x hx => X.bind (s1 b) fun y hy => X.bind (X.sDiv hx hy) fun r hr => X.pure hr
  | square a => exact X.bind (s1 a) fun x hx => X.bind (X.sSquare hx) fun r hr => X.pure hr
  | sum l k =>
    refine X.bind (needs_rules X (Q := fun x : SVal × N => X.good x.1.expr) (fun a => X.bind (s1 a.1) fun x hx => X.pure hx) l) fun xs hxs =>
      X.bind (X.sSum hxs (X.scalar _)) fun r hr => X.pure hr
  | mulAdd a b k => exact X.bind (s1 a) fun x hx => X.bind (s1 b) fun y hy => X.pure (hX _ hx hy (X.scalar _))
  | pConst P => exact X.pure (X.point _ _)
  | pVar v => exact X.bind (hp v rfl) fun a ha => X.pure ha
  | pAdd a b => exact X.bind (p1 a) fun x hx => X.bind (p1 b) fun y hy => X.bind (X.pAdd hx hy) fun r hr => X.pure hr
  | pSub a b => exact X.bind (p1 a) fun x hx => X.bind (p1 b) fun y hy => X.bind (X.pSub hx hy) fun r hr => X.pure hr
  | pMul k a => exact X.bind (s1 k) fun x hx => X.bind (p1 a) fun y hy => X.bind (X.pMul hx hy) fun r hr => X.pure hr
  | pMulConst k P => exact X.bind (s1 k) fun x hx => X.bind (X.pMulConstant P hx) fun r hr => X.pure hr
  | multiExp l =>
    exact X.bind (needs_rules X (fun a => p1 a.1) l) fun ps hps => X.bind (needs_rules X (fun a => s1 a.2) l) fun ss hss =>
      X.bind (X.pMultiExp hps hss nofun) fun r hr => X.pure hr

theorem recordAll_order {cs0 : List Stmt} : ∀ (ops : List Op) {h : List Handle}, (∀ x ∈ h, x.expr.Known (defsOf cs0)) →
    OEns cs0 (recordAll h ops) fun r => ∀ x ∈ r, x.expr.Known (defsOf cs0)
  | [], _, hg => (orderRules cs0).pure hg
  | op :: ops, h, hg => OEns.bind (record_rules (orderRules cs0) (fun t hl hr hc => by
      intro x hx
      rcases List.mem_append.1 hx with hx | hx
      · exact (List.mem_append.1 hx).elim (hl x) (hr x)
      · exact hc x hx) hg op (fun v _ => .scalarVar v) fun v _ => .pointVar v) fun r hr => recordAll_order ops (by
        intro x hx
        rcases List.mem_append.1 hx with hx | hx
        · exact hg x hx
        · rw [List.mem_singleton.1 hx]
          exact hr)

/-- What a call does to the context. -/
theorem record_ctx {op : Op} {h : List Handle} {r : Handle} {k k' : Ctx} (hk : (op.record h).1 k = some (r, k')) (hm : k.mock = false)
    (hi : k.Inv) (hn : k.inInstance = false) : k'.Inv ∧ k'.inInstance = false ∧ k'.transcript = k.transcript + op.words := by
  by_cases hv : ∃ v, op = .var v
  · obtain ⟨v, rfl⟩ := hv
    obtain ⟨a, k1, h1, h2⟩ := Gen.bind_some hk
    obtain ⟨rfl, rfl⟩ := Gen.pure_some h2
    obtain ⟨-, -, e⟩ := Gen.scalarVar_some h1
    rw [hn] at e
    obtain ⟨-, rfl⟩ := Prod.mk.inj e
    exact ⟨⟨hi.placed, hi.typed, hi.flat⟩, rfl, rfl⟩
  by_cases hp : ∃ v, op = .pVar v
  · obtain ⟨v, rfl⟩ := hp
    obtain ⟨a, k1, h1, h2⟩ := Gen.bind_some hk
    obtain ⟨rfl, rfl⟩ := Gen.pure_some h2
    obtain ⟨-, -, e⟩ := Gen.pointVar_some h1
    rw [hn] at e
    obtain ⟨-, rfl⟩ := Prod.mk.inj e
    exact ⟨⟨hi.placed, hi.typed, hi.flat⟩, rfl, rfl⟩
  obtain ⟨g1, g2, -⟩ := record_rules sameRules (fun _ _ _ _ => trivial) (fun _ _ => trivial) op (fun v e => absurd ⟨v, e⟩ hv)
    (fun v e => absurd ⟨v, e⟩ hp) k r k' hk hm hi
  have : op.words = 0 := by
    cases op <;> first | rfl | exact absurd ⟨_, rfl⟩ hv | exact absurd ⟨_, rfl⟩ hp
  exact ⟨g1, g2.inInstance.trans hn, by rw [this, g2.transcript, Nat.add_zero]⟩

theorem recordAll_ctx : ∀ {ops : List Op} {h hs : List Handle} {k k' : Ctx}, (recordAll h ops).1 k = some (hs, k') → k.mock = false → k.Inv →
    k.inInstance = false → k'.Inv
  | [], _, _, _, _, hk, _, hi, _ => by
    obtain ⟨-, rfl⟩ := Gen.pure_some hk
    exact hi
  | op :: ops, h, hs, k, k', hk, hm, hi, hn => by
    obtain ⟨r, k1, h1, h2⟩ := Gen.bind_some hk
    obtain ⟨g1, g2, -⟩ := record_ctx h1 hm hi hn
    exact recordAll_ctx h2 (((op.record h).2 _ _ _ h1).mock.trans hm) g1 g2

/-! ### Values of the results -/

variable {χ : Word → Word → Pt} {E : Env} {s : St}

variable (χ E s) in
/-- What a result stands for. -/
def meaning : Handle → N ⊕ Pt
  | .inl a => .inl (sval E s a.expr)
  | .inr p => .inr (pval χ E s p.expr)

theorem sNeed_ens (h : List Handle) (i : ℕ) : GEns E s (sNeed h i) fun a => sval E s a.expr = sAt (h.map (meaning χ E s)) i := by
  unfold sNeed
  split
  · next x e => exact .pure (by simp only [sAt, List.getElem?_map, e, Option.map_some, meaning])
  · exact .fail

theorem pNeed_ens (h : List Handle) (i : ℕ) : GEns E s (pNeed h i) fun a => pval χ E s a.expr = pAt (h.map (meaning χ E s)) i := by
  unfold pNeed
  split
  · next x e => exact .pure (by simp only [pAt, List.getElem?_map, e, Option.map_some, meaning])
  · exact .fail

theorem needs_ens {α β : Type} {f : α → Gen β} {Q : α → β → Prop} (hf : ∀ a, GEns E s (f a) (Q a)) : ∀ l, GEns E s (needs f l) fun bs => List.Forall₂ Q l bs
  | [] => .pure .nil
  | a :: l => .bind (hf a) fun b hb => .bind (needs_ens hf l) fun bs hbs => .pure (.cons hb hbs)

theorem record_ens (hχ : χ 0 pMod = 0) (proof : List Word) (t : ℕ) (h : List Handle) (op : Op) (hv : op.words = 0) :
    GEns E s (op.record h) fun r => meaning χ E s r = op.value χ proof t (h.map (meaning χ E s)) := by
  have s1 := sNeed_ens (χ := χ) (E := E) (s := s) h
  have p1 := pNeed_ens (χ := χ) (E := E) (s := s) h
  cases op with
  | const k => exact .pure (congrArg Sum.inl (sval_const k))
  | var v => cases hv
  | add a b => exact .bind (s1 a) fun x hx => .bind (s1 b) fun y hy => .bind (SVal.add_ens x y) fun r hr => .pure (congrArg Sum.inl (by rw [hr, hx, hy]))
  | sub a b => exact .bind (s1 a) fun x hx => .bind (s1 b) fun y hy => .bind (SVal.sub_ens x y) fun r hr => .pure (congrArg Sum.inl (by rw [hr, hx, hy]))
  | mul a b => exact .bind (s1 a) fun x hx => .bind (s1 b) fun y hy => .bind (SVal.mul_ens x y) fun r hr => .pure (congrArg Sum.inl (by rw [hr, hx, hy]))
  | div a b => exact .bind (s1 a) fun x hx => .bind (s1 b) fun y hy => .bind (SVal.div_ens x y) fun r hr => .pure (congrArg Sum.inl (by rw [hr, hx, hy]))
  | square a => exact .bind (s1 a) fun x hx => .bind (SVal.square_ens x) fun r hr => .pure (congrArg Sum.inl (by rw [hr, hx, sq]))
  | sum l k =>
    refine .bind (needs_ens (Q := fun a b => sval E s b.1.expr = sAt (h.map (meaning χ E s)) a.1 ∧ b.2 = a.2)
      (fun a => .bind (s1 a.1) fun x hx => .pure ⟨hx, rfl⟩) l) fun xs hxs => .bind (SVal.sumLoop_ens xs _) fun r hr => .pure (congrArg Sum.inl ?_)
    rw [hr, sval_const]
    congr 2
    clear hr hv
    induction hxs with
    | nil => rfl
    | cons h1 _ ih => rw [List.map_cons, List.map_cons, ih, h1.1, h1.2]
  | mulAdd a b k =>
    refine .bind (s1 a) fun x hx => .bind (s1 b) fun y hy => .pure (congrArg Sum.inl ?_)
    show sval E s x.expr * sval E s y.expr + sval E s (SVal.const k).expr = _
    rw [hx, hy, sval_const]
  | pConst P => exact .pure (congrArg Sum.inr (pval_pointExpr P))
  | pVar v => cases hv
  | pAdd a b => exact .bind (p1 a) fun x hx => .bind (p1 b) fun y hy => .bind (PVal.add_ens (χ := χ) x y) fun r hr => .pure (congrArg Sum.inr (by rw [hr, hx, hy]))
  | pSub a b => exact .bind (p1 a) fun x hx => .bind (p1 b) fun y hy => .bind (PVal.sub_ens hχ x y) fun r hr => .pure (congrArg Sum.inr (by rw [hr, hx, hy]))
  | pMul k a => exact .bind (s1 k) fun x hx => .bind (p1 a) fun y hy => .bind (PVal.mul_ens (χ := χ) x y) fun r hr => .pure (congrArg Sum.inr (by rw [hr, hx, hy]))
  | pMulConst k P => exact .bind (s1 k) fun x hx => .bind (PVal.mulConstant_ens (χ := χ) x P) fun r hr => .pure (congrArg Sum.inr (by rw [hr, hx]))
  | multiExp l =>
    refine .bind (needs_ens (fun a => p1 a.1) l) fun ps hps => .bind (needs_ens (fun a => s1 a.2) l) fun ss hss =>
      .bind (PVal.multiExp_ens (χ := χ) (Ps := l.map fun x => pAt (h.map (meaning χ E s)) x.1) (A := none) ?_ ?_ (.inl ⟨rfl, rfl⟩)) fun r hr =>
        .pure (congrArg Sum.inr ?_)
    · clear hss hv
      induction hps with
      | nil => exact .nil
      | cons h1 _ ih => exact .cons h1 ih
    · rw [← hps.length_eq, hss.length_eq]
    · rw [hr, Option.getD_none, zero_add]
      clear hps hr hv
      induction hss with
      | nil => rfl
      | cons h1 _ ih =>
        rw [List.map_cons, List.map_cons, Api.Logic.dot_cons, ih, h1, List.map_cons, List.sum_cons]

theorem recordAll_ens (hχ : χ 0 pMod = 0) : ∀ {ops : List Op} {h hs : List Handle} {k k' : Ctx}, (recordAll h ops).1 k = some (hs, k') → k.mock = false →
    k.Cached → k.Inv → k.inInstance = false → (∀ c ∈ k'.stmts, c.HoldsAt E s) →
    hs.map (meaning χ E s) = values χ E.proof k.transcript (h.map (meaning χ E s)) ops
  | [], h, hs, k, k', hk, _, _, _, _, _ => by
    obtain ⟨rfl, rfl⟩ := Gen.pure_some hk
    rfl
  | op :: ops, h, hs, k, k', hk, hm, hc, hi, hn, hh => by
    obtain ⟨r, k1, h1, h2⟩ := Gen.bind_some hk
    obtain ⟨g1, g2, g3⟩ := record_ctx h1 hm hi hn
    have gr := (op.record h).2 _ _ _ h1
    have gr' := (recordAll (h ++ [r]) ops).2 _ _ _ h2
    have hr : meaning χ E s r = op.value χ E.proof k.transcript (h.map (meaning χ E s)) := by
      by_cases hw : op.words = 0
      · exact record_ens hχ _ _ h op hw k r k1 h1 hm hc fun c hcm => hh c (gr'.stmts.subset hcm)
      · cases op <;> first | exact absurd rfl hw | skip
        · obtain ⟨a, k2, h3, h4⟩ := Gen.bind_some h1
          obtain ⟨rfl, rfl⟩ := Gen.pure_some h4
          obtain ⟨-, -, e⟩ := Gen.scalarVar_some h3
          rw [hn] at e
          obtain ⟨e1, -⟩ := Prod.mk.inj e
          simp only [meaning, e1]
          rfl
        · obtain ⟨a, k2, h3, h4⟩ := Gen.bind_some h1
          obtain ⟨rfl, rfl⟩ := Gen.pure_some h4
          obtain ⟨-, -, e⟩ := Gen.pointVar_some h3
          rw [hn] at e
          obtain ⟨e1, -⟩ := Prod.mk.inj e
          simp only [meaning, e1]
          rfl
    rw [recordAll_ens hχ h2 (gr.mock.trans hm) (gr.cached hc) g1 g2 hh, g3, List.map_append, List.map_singleton, hr]
    rfl

end Op

/-- The program of a script is recorded and typed, like those the passes of the generator need. -/
theorem scriptProg_recorded {ops : List Op} {P : Prog} (h : scriptProg ops = some P) : P.Recorded ∧ ∀ c ∈ P.stmts, c.Typed := by
  obtain ⟨⟨hs, k⟩, h1, rfl⟩ := Option.map_eq_some_iff.1 h
  have hi := Op.recordAll_ctx h1 rfl ⟨.nil, (fun c hc => by cases hc), fun c hc => by cases hc⟩ rfl
  have ho : ∀ cs0, _ := fun cs0 => Op.recordAll_order (cs0 := cs0) ops (h := []) (by simp) Ctx.new hs k h1 rfl (fun x hx => by cases hx) .nil
  refine ⟨hi.recorded (fun pre => (ho pre).1) ?_ _, hi.typed⟩
  intro e he
  obtain ⟨x, hx, rfl⟩ := List.mem_map.1 he
  exact (ho k.stmts).2 List.prefix_rfl x hx

theorem mapM_some {α β : Type} {f : α → Option β} : ∀ {l : List α} {r : List β}, l.mapM f = some r → List.Forall₂ (fun a b => f a = some b) l r
  | [], r, h => by
    cases (show some [] = some r from h)
    exact .nil
  | a :: l, r, h => by
    rw [List.mapM_cons] at h
    obtain ⟨b, h1, h2⟩ := Option.bind_eq_some_iff.1 h
    obtain ⟨bs, h3, h4⟩ := Option.bind_eq_some_iff.1 h2
    cases h4
    exact .cons h1 (mapM_some h3)

theorem meaning_eval {χ : Word → Word → Pt} {E : Env} {s : St} {x : Handle} {v : Val} (h : eval E s x.expr = some v) :
    v.meaning χ = Op.meaning χ E s x := by
  cases x with
  | inl a =>
    obtain ⟨w, rfl, h2⟩ := eval_sform a.form h
    exact congrArg Sum.inl h2
  | inr p =>
    obtain ⟨x, y, rfl, h2⟩ := eval_pform (χ := χ) p.form h
    exact congrArg Sum.inr h2

/-- C39: whatever a run of the recorded program returns for a result of the script is the value of that result. -/
theorem C39_recorded {χ : Word → Word → Pt} (hχ : χ 0 pMod = 0) {ops : List Op} {P : Prog} (h : scriptProg ops = some P) {c : Call} {vals : List Val}
    (hr : P.run c = some vals) : vals.map (Val.meaning χ) = Op.values χ c.proof 0 [] ops := by
  have hrec := (scriptProg_recorded h).1
  obtain ⟨⟨hs, k⟩, h1, rfl⟩ := Option.map_eq_some_iff.1 h
  obtain ⟨sf, h2, h3⟩ := Option.bind_eq_some_iff.1 hr
  obtain ⟨-, h4, -⟩ := execAll_recorded hrec (by simp) h2
  have h5 := Op.recordAll_ens hχ h1 rfl (fun x hx => by cases hx) ⟨.nil, (fun c hc => by cases hc), fun c hc => by cases hc⟩ rfl h4
  refine Eq.trans ?_ h5
  have h6 := mapM_some h3
  dsimp only at h6
  rw [List.forall₂_map_left_iff] at h6
  clear h5 h4 h3 h2 h1 h hr hrec
  induction h6 with
  | nil => rfl
  | cons h7 _ ih => rw [List.map_cons, List.map_cons, ih, meaning_eval h7]

end Verif.Sol
