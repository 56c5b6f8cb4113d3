import Verif.Sol.GenLogic
import Verif.Sol.AggregateProps
import Verif.Api.Frame

/-!
# The recorded statements are in order

A run of the generator records a program in which every location is written once, before it is read, and in which the values have the types
they should have; the statements that concern the hash follow the transcript.

The first is shown for one list of statements at a time: a value is good if it only reads locations assigned in that list, and the
statement recorded after exactly that list reads good values.
-/

namespace Verif.Sol
open Verif.Circuit Verif.Ecc

/-! ### Frames of the generator's chips -/

theorem Expr.SForm.typed : ∀ {e : Expr}, e.SForm → e.type = .scalar ∧ e.Typed
  | .memory _ _, h | .transcript _ _, h | .inst _ _, h | .tmpBuf _ _, h => ⟨h, trivial⟩
  | .scalar _, _ => ⟨rfl, trivial⟩
  | .mulAdd l r c t, h => by
    obtain ⟨hl, hr, hc, rfl⟩ : l.SForm ∧ r.SForm ∧ c.SForm ∧ t = .scalar := h
    exact ⟨rfl, ⟨hl.typed.1, hr.typed.1, hc.typed.1⟩, hl.typed.2, hr.typed.2, hc.typed.2⟩
  | .point .., hf | .add .., hf | .sub .., hf | .mul .., hf | .div .., hf | .mulAddPM .., hf
  | .mulAddMT .., hf | .pow .., hf | .hash _, hf | .temp _, hf => hf.elim

theorem Expr.PForm.typed {e : Expr} (h : e.PForm) : e.type = .point ∧ e.Typed := by
  cases e with
  | memory | transcript | inst => exact ⟨h, trivial⟩
  | point => exact ⟨rfl, trivial⟩
  | _ => exact h.elim

theorem Expr.SForm.operand : ∀ {e : Expr}, e.SForm → e.Operand
  | .memory _ _, _ | .transcript _ _, _ | .inst _ _, _ | .tmpBuf _ _, _ | .scalar _, _ => trivial
  | .mulAdd l r c t, h => by
    obtain ⟨hl, hr, hc, rfl⟩ : l.SForm ∧ r.SForm ∧ c.SForm ∧ t = .scalar := h
    exact ⟨rfl, hl.operand, hr.operand, hc.operand⟩
  | .point .., hf | .add .., hf | .sub .., hf | .mul .., hf | .div .., hf | .mulAddPM .., hf
  | .mulAddMT .., hf | .pow .., hf | .hash _, hf | .temp _, hf => hf.elim

theorem Expr.PForm.operand {e : Expr} (h : e.PForm) : e.Operand := by
  cases e with
  | memory | transcript | inst | point => trivial
  | _ => exact h.elim

/-- What has to be known about runs and about expressions for a frame. -/
structure Rules where
  Ens : {α : Type} → Gen α → (α → Prop) → Prop
  good : Expr → Prop
  pure : ∀ {α : Type} {a : α} {Q : α → Prop}, Q a → Ens (Pure.pure a) Q
  bind : ∀ {α β : Type} {x : Gen α} {f : α → Gen β} {Q : α → Prop} {R : β → Prop}, Ens x Q → (∀ a, Q a → Ens (f a) R) → Ens (x >>= f) R
  mono : ∀ {α : Type} {x : Gen α} {Q R : α → Prop}, Ens x Q → (∀ a, Q a → R a) → Ens x R
  fail : ∀ {α : Type} {Q : α → Prop}, Ens (Gen.fail : Gen α) Q
  scalar : ∀ n, good (.scalar n)
  point : ∀ x y, good (.point x y)
  add : ∀ {l r} t, good l → good r → good (.add l r t)
  sub : ∀ {l r} t, good l → good r → good (.sub l r t)
  mul : ∀ {l r} t, good l → good r → good (.mul l r t)
  div : ∀ {l r} t, good l → good r → good (.div l r t)
  memory : ∀ {e}, e.Typed → e.Flat → good e → (∀ o, e ≠ .hash o) → Ens (Gen.assignMemory e) fun o => good (.memory o e.type)

namespace Rules
variable (X : Rules)

theorem scalar_ens {e : Expr} {v : N} (ht : e.type = .scalar) (he : e.Typed) (hl : e.Flat) (hg : X.good e) (hh : ∀ o, e ≠ .hash o) :
    X.Ens (Gen.scalar e v) fun r => X.good r.expr := by
  refine X.bind (X.memory he hl hg hh) fun o ho => X.pure ?_
  rw [ht] at ho
  exact ho

theorem point_ens {e : Expr} {v : Pt} (ht : e.type = .point) (he : e.Typed) (hl : e.Flat) (hg : X.good e) (hh : ∀ o, e ≠ .hash o) :
    X.Ens (Gen.point e v) fun r => X.good r.expr := by
  unfold Gen.point
  split
  · exact X.fail
  refine X.bind (X.memory he hl hg hh) fun o ho => X.pure ?_
  rw [ht] at ho
  exact ho

theorem sAdd {a b : SVal} (ha : X.good a.expr) (hb : X.good b.expr) : X.Ens (a.add b) fun r => X.good r.expr := by
  unfold SVal.add
  split
  · exact X.pure (X.scalar _)
  split
  · exact X.pure hb
  split
  · exact X.pure ha
  exact X.scalar_ens rfl ⟨⟨a.form.typed.1, b.form.typed.1⟩, a.form.typed.2, b.form.typed.2⟩ ⟨a.form.operand, b.form.operand⟩ (X.add _ ha hb) nofun

theorem sSub {a b : SVal} (ha : X.good a.expr) (hb : X.good b.expr) : X.Ens (a.sub b) fun r => X.good r.expr := by
  unfold SVal.sub
  split
  · exact X.pure (X.scalar _)
  split
  · exact X.pure ha
  exact X.scalar_ens rfl ⟨⟨a.form.typed.1, b.form.typed.1⟩, a.form.typed.2, b.form.typed.2⟩ ⟨a.form.operand, b.form.operand⟩ (X.sub _ ha hb) nofun

theorem sMul {a b : SVal} (ha : X.good a.expr) (hb : X.good b.expr) : X.Ens (a.mul b) fun r => X.good r.expr := by
  unfold SVal.mul
  split
  · exact X.pure (X.scalar _)
  split
  · exact X.pure hb
  split
  · exact X.pure ha
  exact X.scalar_ens rfl ⟨⟨a.form.typed.1, b.form.typed.1⟩, a.form.typed.2, b.form.typed.2⟩ ⟨a.form.operand, b.form.operand⟩ (X.mul _ ha hb) nofun

theorem sDiv {a b : SVal} (ha : X.good a.expr) (hb : X.good b.expr) : X.Ens (a.div b) fun r => X.good r.expr := by
  unfold SVal.div
  split
  · exact X.fail
  split
  · exact X.pure (X.scalar _)
  split
  · exact X.pure ha
  exact X.scalar_ens rfl ⟨⟨rfl, a.form.typed.1, b.form.typed.1⟩, a.form.typed.2, b.form.typed.2⟩ ⟨a.form.operand, b.form.operand⟩ (X.div _ ha hb) nofun

theorem sSquare {a : SVal} (ha : X.good a.expr) : X.Ens a.square fun r => X.good r.expr := by
  unfold SVal.square
  split
  · exact X.pure (X.scalar _)
  exact X.scalar_ens rfl ⟨⟨a.form.typed.1, a.form.typed.1⟩, a.form.typed.2, a.form.typed.2⟩ ⟨a.form.operand, a.form.operand⟩ (X.mul _ ha ha) nofun

theorem sSum : ∀ {l : List (SVal × N)} {acc : SVal}, (∀ x ∈ l, X.good x.1.expr) → X.good acc.expr → X.Ens (SVal.sumLoop l acc) fun r => X.good r.expr
  | [], _, _, h => X.pure h
  | (x, k) :: l, acc, hl, h => X.bind (X.sMul (hl _ List.mem_cons_self) (X.scalar _)) fun _ hm => X.bind (X.sAdd h hm) fun _ ha =>
      sSum (fun y hy => hl y (List.mem_cons_of_mem _ hy)) ha

theorem pAdd {a b : PVal} (ha : X.good a.expr) (hb : X.good b.expr) : X.Ens (a.add b) fun r => X.good r.expr := by
  unfold PVal.add
  split
  · exact X.pure (X.point _ _)
  exact X.point_ens rfl ⟨⟨a.form.typed.1, b.form.typed.1⟩, a.form.typed.2, b.form.typed.2⟩ ⟨a.form.operand, b.form.operand⟩ (X.add _ ha hb) nofun

theorem pSub {a b : PVal} (ha : X.good a.expr) (hb : X.good b.expr) : X.Ens (a.sub b) fun r => X.good r.expr := by
  unfold PVal.sub
  split
  · exact X.pure (X.point _ _)
  exact X.point_ens rfl ⟨⟨a.form.typed.1, b.form.typed.1⟩, a.form.typed.2, b.form.typed.2⟩ ⟨a.form.operand, b.form.operand⟩ (X.sub _ ha hb) nofun

theorem pMul {a : SVal} {b : PVal} (ha : X.good a.expr) (hb : X.good b.expr) : X.Ens (PVal.mul a b) fun r => X.good r.expr := by
  unfold PVal.mul
  split
  · exact X.pure (X.point _ _)
  exact X.point_ens rfl ⟨⟨a.form.typed.1, b.form.typed.1⟩, a.form.typed.2, b.form.typed.2⟩ ⟨a.form.operand, b.form.operand⟩ (X.mul _ ha hb) nofun

theorem pMulConstant {a : SVal} (P : Pt) (ha : X.good a.expr) : X.Ens (PVal.mulConstant a P) fun r => X.good r.expr := by
  unfold PVal.mulConstant
  split
  · exact X.pure (X.point _ _)
  exact X.point_ens rfl ⟨⟨a.form.typed.1, rfl⟩, a.form.typed.2, trivial⟩ ⟨a.form.operand, trivial⟩ (X.mul _ ha (X.point _ _)) nofun

theorem pMultiExp : ∀ {ps : List PVal} {ss : List SVal} {acc : Option PVal}, (∀ p ∈ ps, X.good p.expr) → (∀ s ∈ ss, X.good s.expr) →
    (∀ p ∈ acc, X.good p.expr) → X.Ens (PVal.multiExp acc ps ss) fun r => X.good r.expr
  | p :: ps, s :: ss, acc, hp, hs, ha => by
    have hp' : ∀ p ∈ ps, X.good p.expr := fun q hq => hp q (List.mem_cons_of_mem _ hq)
    have hs' : ∀ p ∈ ss, X.good p.expr := fun q hq => hs q (List.mem_cons_of_mem _ hq)
    unfold PVal.multiExp
    refine X.bind (X.pMul (hs s List.mem_cons_self) (hp p List.mem_cons_self)) fun cur hc => ?_
    cases acc with
    | none => exact pMultiExp hp' hs' fun p hp => by cases hp; exact hc
    | some a => exact X.bind (X.pAdd (ha a rfl) hc) fun a ha => pMultiExp hp' hs' fun p hp => by cases hp; exact ha
  | [], ss, some a, _, _, ha => by
    unfold PVal.multiExp
    exact X.pure (ha a rfl)
  | [], ss, none, _, _, _ => by
    unfold PVal.multiExp
    exact X.fail
  | p :: ps, [], some a, _, _, ha => by
    unfold PVal.multiExp
    exact X.pure (ha a rfl)
  | p :: ps, [], none, _, _, _ => by
    unfold PVal.multiExp
    exact X.fail

noncomputable def frame : Api.Frame genChip where
  Ens := X.Ens
  sg a := X.good (SVal.expr a)
  pg a := X.good (PVal.expr a)
  pure := X.pure
  bind := X.bind
  mono := X.mono
  panic := X.fail
  add := X.sAdd
  sub := X.sSub
  mul := X.sMul
  div := X.sDiv
  square := X.sSquare
  sumWithCoeff h := X.sSum h (X.scalar _)
  assignZero := X.pure (X.scalar _)
  assignOne := X.pure (X.scalar _)
  assignConst _ := X.pure (X.scalar _)
  toValue _ := X.pure trivial
  pAdd := X.pAdd
  pSub := X.pSub
  pAssignOne := X.pure (X.point _ _)
  pAssignConst _ := X.pure (X.point _ _)
  normalize h := X.pure h
  scalarMul := X.pMul
  scalarMulConstant P h := X.pMulConstant P h
  multiExp hp hs := X.pMultiExp hp hs nofun

end Rules

/-! ### Order -/

/-- What the statements assign, the last first. -/
def defsOf (cs : List Stmt) : List (ℕ × Ty) := (cs.filterMap fun
  | .assign (.memory o t) _ => some (o, t)
  | _ => none).reverse

/-- What a statement reads is assigned before. -/
def Stmt.Reads (defs : List (ℕ × Ty)) : Stmt → Prop
  | .assign _ r => r.Known defs
  | .updateHash e _ => e.Known defs
  | _ => True

/-- The statement after `cs0` reads what is assigned in `cs0`. -/
def Cross (cs0 cs : List Stmt) : Prop := ∀ c rest, cs = cs0 ++ c :: rest → c.Reads (defsOf cs0)

theorem Cross.nil {cs0 : List Stmt} : Cross cs0 [] := fun c rest h => by simp at h

theorem Cross.push {cs0 cs : List Stmt} (h : Cross cs0 cs) {c : Stmt} (hc : c.Reads (defsOf cs0)) : Cross cs0 (cs ++ [c]) := by
  intro d rest e
  rcases List.eq_nil_or_concat rest with rfl | ⟨r, x, rfl⟩
  · have := List.append_inj_right' (t₁ := [c]) (t₂ := [d]) e rfl
    cases this
    exact hc
  · rw [List.concat_eq_append, ← List.cons_append, ← List.append_assoc] at e
    exact h d r (List.append_inj_left' e rfl)

theorem Cross.beyond {cs0 cs cs' : List Stmt} (h : Cross cs0 cs) (hp : cs <+: cs') (hn : ¬ cs <+: cs0) : Cross cs0 cs' := by
  intro c rest e
  have h0 : cs0 <+: cs' := ⟨c :: rest, e.symm⟩
  have h1 : cs0 <+: cs := (List.prefix_or_prefix_of_prefix hp h0).resolve_left hn
  obtain ⟨t, rfl⟩ := h1
  cases t with
  | nil => exact absurd (by simp) hn
  | cons d t =>
    obtain ⟨u, rfl⟩ := hp
    rw [List.append_assoc] at e
    have := List.append_cancel_left e
    cases this
    exact h c t rfl

theorem defsOf_mem {cs : List Stmt} {o : ℕ} {t : Ty} {r : Expr} (h : .assign (.memory o t) r ∈ cs) : (o, t) ∈ defsOf cs :=
  List.mem_reverse.2 (List.mem_filterMap.2 ⟨_, h, rfl⟩)

theorem Expr.known_memory {defs : List (ℕ × Ty)} {o : ℕ} {t : Ty} (h : (o, t) ∈ defs) : (Expr.memory o t).Known defs := by
  intro x hx
  obtain rfl := List.mem_singleton.1 (show x ∈ [Expr.memory o t] from hx)
  exact ⟨fun o' t' e => by cases e; exact h, nofun, nofun, nofun⟩

theorem Expr.known_leaf {defs : List (ℕ × Ty)} {e : Expr} (he : e.leaves = [e]) (h1 : ∀ o t, e ≠ .memory o t) (h2 : ∀ t, e ≠ .temp t)
    (h3 : ∀ a b t, e ≠ .mulAddPM a b t) (h4 : ∀ a b, e ≠ .mulAddMT a b) : e.Known defs := by
  intro x hx
  rw [he, List.mem_singleton] at hx
  subst hx
  exact ⟨fun o t h => absurd h (h1 o t), h2, h3, h4⟩

theorem Expr.known_append {defs : List (ℕ × Ty)} {e l r : Expr} (he : e.leaves = l.leaves ++ r.leaves) (hl : l.Known defs) (hr : r.Known defs) :
    e.Known defs := by
  intro x hx
  rw [he] at hx
  exact (List.mem_append.1 hx).elim (hl x) (hr x)

/-- Runs in which every statement that comes right after `cs0` reads what is assigned in `cs0`, and whose results are good unless they
come later. -/
def OEns (cs0 : List Stmt) {α : Type} (x : Gen α) (Q : α → Prop) : Prop :=
  ∀ k a k', x.1 k = some (a, k') → k.mock = false → k.Cached → Cross cs0 k.stmts → Cross cs0 k'.stmts ∧ (k'.stmts <+: cs0 → Q a)

theorem OEns.bind {cs0 : List Stmt} {α β : Type} {x : Gen α} {f : α → Gen β} {Q : α → Prop} {R : β → Prop} (hx : OEns cs0 x Q)
    (hf : ∀ a, Q a → OEns cs0 (f a) R) : OEns cs0 (x >>= f) R := by
  intro k b k' hk hm hc hs
  obtain ⟨r, h1, h2⟩ := Option.bind_eq_some_iff.1 (show (x.1 k).bind (fun r => (f r.1).1 r.2) = some (b, k') from hk)
  have g1 := x.2 _ _ _ h1
  have g2 := (f r.1).2 _ _ _ h2
  obtain ⟨h3, h4⟩ := hx k r.1 r.2 h1 hm hc hs
  by_cases hp : r.2.stmts <+: cs0
  · exact hf r.1 (h4 hp) r.2 b k' h2 (g1.mock.trans hm) (g1.cached hc) h3
  · exact ⟨h3.beyond g2.stmts hp, fun h => absurd (g2.stmts.trans h) hp⟩

/-- For operations that add no statement. -/
theorem OEns.quiet {cs0 : List Stmt} {α : Type} {x : Gen α} {Q : α → Prop} (h : ∀ k a k', x.1 k = some (a, k') → k'.stmts = k.stmts ∧ Q a) :
    OEns cs0 x Q := by
  intro k a k' hk _ _ hs
  obtain ⟨h1, h2⟩ := h k a k' hk
  rw [h1]
  exact ⟨hs, fun _ => h2⟩

def orderRules (cs0 : List Stmt) : Rules where
  Ens := OEns cs0
  good e := e.Known (defsOf cs0)
  pure h k b k' hk _ _ hs := by
    cases hk
    exact ⟨hs, fun _ => h⟩
  bind := OEns.bind
  mono h hi k a k' hk hm hc hs := ⟨(h k a k' hk hm hc hs).1, fun hp => hi a ((h k a k' hk hm hc hs).2 hp)⟩
  fail := fun k a k' h => by cases h
  scalar n := Expr.known_leaf rfl nofun nofun nofun nofun
  point x y := Expr.known_leaf rfl nofun nofun nofun nofun
  add t := Expr.known_append rfl
  sub t := Expr.known_append rfl
  mul t := Expr.known_append rfl
  div t := Expr.known_append rfl
  memory {e} _ _ hg _ k o k' hk hm hc hs := by
    have hk' : k.assignMemory e = (o, k') := Option.some.inj hk
    unfold Ctx.assignMemory at hk'
    split at hk'
    · next x hx =>
      cases hk'
      have h1 : x.1 = e := by simpa using List.find?_some hx
      have h2 := hc x (List.mem_of_find?_eq_some hx)
      rw [h1] at h2
      exact ⟨hs, fun hp => Expr.known_memory (defsOf_mem (hp.subset h2))⟩
    · rw [hm] at hk'
      cases hk'
      exact ⟨hs.push hg, fun hp => Expr.known_memory (defsOf_mem (hp.subset (List.mem_append_right _ (List.mem_singleton.2 rfl))))⟩

variable {cs0 : List Stmt} {rate : ℕ} {K : Digest} {ps : Api.PoseidonSpec N rate}

theorem OEns.update {e : Expr} (h : e.Known (defsOf cs0)) (delta : ℕ) : OEns cs0 (Gen.update e delta) fun _ => True := by
  intro k a k' hk hm _ hs
  have hk' : (if k.mock then none else some ((), _)) = some (a, k') := hk
  rw [hm] at hk'
  cases hk'
  exact ⟨hs.push h, fun _ => trivial⟩

theorem Gen.scalarVar_some {v : N} {k : Ctx} {a : SVal} {k' : Ctx} (h : (Gen.scalarVar v).1 k = some (a, k')) :
    k.mock = false ∧ a.v = v ∧ (a.expr, k') = if k.inInstance then (.inst k.inst .scalar, { k with inst := k.inst + 1 })
      else (.transcript k.transcript .scalar, { k with transcript := k.transcript + 1 }) := by
  obtain ⟨r, h1, h2⟩ := Option.map_eq_some_iff.1 h
  cases h2
  have h1' : (if k.mock then none else some (_, _)) = some r := h1
  split at h1'
  · cases h1'
  · next hm =>
    cases h1'
    refine ⟨Bool.eq_false_iff.2 hm, rfl, ?_⟩
    dsimp only
    split <;> rfl

theorem Gen.pointVar_some {v : Pt} {k : Ctx} {a : PVal} {k' : Ctx} (h : (Gen.pointVar v).1 k = some (a, k')) :
    k.mock = false ∧ a.v = v ∧ (a.expr, k') = if k.inInstance then (.inst k.inst .point, { k with inst := k.inst + 2 })
      else (.transcript k.transcript .point, { k with transcript := k.transcript + 2 }) := by
  obtain ⟨r, h1, h2⟩ := Option.map_eq_some_iff.1 h
  cases h2
  have h1' : (if k.mock then none else some (_, _)) = some r := h1
  split at h1'
  · cases h1'
  · next hm =>
    cases h1'
    refine ⟨Bool.eq_false_iff.2 hm, rfl, ?_⟩
    dsimp only
    split <;> rfl

theorem Gen.tmpVar_some {v : N} {k : Ctx} {a : SVal} {k' : Ctx} (h : (Gen.tmpVar v).1 k = some (a, k')) : k' = { k with tmp := k.tmp + 1 } := by
  obtain ⟨r, h1, h2⟩ := Option.map_eq_some_iff.1 h
  cases h2
  have h1' : (if k.mock then none else some (_, _)) = some r := h1
  split at h1' <;> cases h1'
  rfl

/-- What `squeeze` does to the context. -/
theorem Gen.squeeze_some {st : HashSt rate} {k : Ctx} {a : SVal × HashSt rate} {k' : Ctx} (h : (Gen.squeeze K ps st).1 k = some (a, k')) :
    k.mock = false ∧ ∃ m, k.memory ≤ m ∧ a.1.expr = .memory m .scalar ∧ k' = { k with
      memory := m + 1
      stmts := k.stmts ++ [.assign (.memory m .scalar) (.hash k.absorbing)]
      maxAbsorbing := max k.absorbing k.maxAbsorbing
      absorbing := 1 } := by
  have h' : (if k.mock then none else _) = some (a, k') := h
  cases hm : k.mock
  · rw [hm] at h'
    obtain ⟨r, h1, h2⟩ := Option.bind_eq_some_iff.1 h'
    have hg := (Api.spongeSqueeze genChip ps st.sponge : Gen _).2 _ _ _ h1
    have hs := hg.still rfl
    refine ⟨rfl, r.2.memory, hg.memory, ?_⟩
    split at h2
    · cases h2
    · cases h2
      refine ⟨rfl, ?_⟩
      rw [hs]
      have : (if k.maxAbsorbing < k.absorbing then k.absorbing else k.maxAbsorbing) = max k.absorbing k.maxAbsorbing := by
        split <;> omega
      simp only [hm, this]
  · rw [hm] at h'
    cases h'

theorem OEns.squeeze (st : HashSt rate) : OEns cs0 (Gen.squeeze K ps st) fun r => r.1.expr.Known (defsOf cs0) := by
  intro k a k' hk _ _ hs
  obtain ⟨-, m, -, ha, rfl⟩ := Gen.squeeze_some hk
  refine ⟨hs.push (Expr.known_leaf rfl nofun nofun nofun nofun), fun hp => ?_⟩
  show a.1.expr.Known _
  rw [ha]
  exact Expr.known_memory (defsOf_mem (hp.subset (List.mem_append_right _ (List.mem_singleton.2 rfl))))

theorem OEns.scalarVar (v : N) : OEns cs0 (Gen.scalarVar v) fun r => r.expr.Known (defsOf cs0) := by
  refine .quiet fun k a k' hk => ?_
  obtain ⟨-, -, h⟩ := Gen.scalarVar_some hk
  split at h <;> obtain ⟨h1, h2⟩ := Prod.mk.inj h
  · rw [h1, h2]
    exact ⟨rfl, Expr.known_leaf rfl nofun nofun nofun nofun⟩
  · rw [h1, h2]
    exact ⟨rfl, Expr.known_leaf rfl nofun nofun nofun nofun⟩

theorem OEns.pointVar (v : Pt) : OEns cs0 (Gen.pointVar v) fun r => r.expr.Known (defsOf cs0) := by
  refine .quiet fun k a k' hk => ?_
  obtain ⟨-, -, h⟩ := Gen.pointVar_some hk
  split at h <;> obtain ⟨h1, h2⟩ := Prod.mk.inj h
  · rw [h1, h2]
    exact ⟨rfl, Expr.known_leaf rfl nofun nofun nofun nofun⟩
  · rw [h1, h2]
    exact ⟨rfl, Expr.known_leaf rfl nofun nofun nofun nofun⟩

theorem OEns.tmpVar (v : N) : OEns cs0 (Gen.tmpVar v) fun _ => True :=
  .quiet fun k a k' hk => by
    rw [Gen.tmpVar_some hk]
    exact ⟨rfl, trivial⟩

theorem OEns.commonPoint (st : HashSt rate) {p : PVal} (h : p.expr.Known (defsOf cs0)) :
    OEns cs0 ((codegenTranscript K ps).commonPoint st p : Gen _) fun _ => True :=
  OEns.bind (.tmpVar _) fun _ _ => OEns.bind (.tmpVar _) fun _ _ => OEns.bind (.update h 3) fun _ _ => (orderRules cs0).pure trivial

theorem OEns.commonScalar (st : HashSt rate) {a : SVal} (h : a.expr.Known (defsOf cs0)) :
    OEns cs0 ((codegenTranscript K ps).commonScalar st a : Gen _) fun _ => True :=
  OEns.bind (.update h 2) fun _ _ => (orderRules cs0).pure trivial

/-- The same for computations that use the transcript. -/
def OREns (cs0 : List Stmt) {α : Type} (x : Api.Rd (codegenTranscript K ps) α) (Q : α → Prop) : Prop := ∀ s, OEns cs0 (x s : Gen _) fun r => Q r.1

namespace OREns

theorem ret {α : Type} {a : α} {Q : α → Prop} (h : Q a) : OREns cs0 (Pure.pure a : Api.Rd (codegenTranscript K ps) α) Q :=
  fun s => (orderRules cs0).pure (a := (a, s)) (Q := fun r => Q r.1) h

theorem bind {α β : Type} {x : Api.Rd (codegenTranscript K ps) α} {f : α → Api.Rd (codegenTranscript K ps) β} {Q : α → Prop} {R : β → Prop}
    (hx : OREns cs0 x Q) (hf : ∀ a, Q a → OREns cs0 (f a) R) : OREns cs0 (x >>= f) R := fun s => OEns.bind (hx s) fun r hr => hf r.1 hr r.2

theorem lift {α : Type} {x : Gen α} {Q : α → Prop} (h : OEns cs0 x Q) : OREns cs0 (Api.Rd.lift (c := genChip) (T := codegenTranscript K ps) x) Q :=
  fun s => OEns.bind h fun a ha => (orderRules cs0).pure (a := (a, s)) (Q := fun r => Q r.1) ha

theorem absorbPoint (e : genChip.P → Api.Event genChip.P genChip.S) {p : genChip.P} (h : (PVal.expr p).Known (defsOf cs0)) :
    OREns cs0 (Api.Rd.absorbPoint (c := genChip) (T := codegenTranscript K ps) e p) fun _ => True :=
  fun s => OEns.bind (.commonPoint s.st h) fun st _ =>
    (orderRules cs0).pure (a := ((), (⟨s.bytes, st, s.trace ++ [e p]⟩ : Api.Reader (codegenTranscript K ps)))) trivial

theorem absorbScalar (e : genChip.S → Api.Event genChip.P genChip.S) {p : genChip.S} (h : (SVal.expr p).Known (defsOf cs0)) :
    OREns cs0 (Api.Rd.absorbScalar (c := genChip) (T := codegenTranscript K ps) e p) fun _ => True :=
  fun s => OEns.bind (.commonScalar s.st h) fun st _ =>
    (orderRules cs0).pure (a := ((), (⟨s.bytes, st, s.trace ++ [e p]⟩ : Api.Reader (codegenTranscript K ps)))) trivial

end OREns

noncomputable def orderReading (cs0 : List Stmt) (K : Digest) (ps : Api.PoseidonSpec N rate) : Api.Reading (orderRules cs0).frame (codegenTranscript K ps) where
  Ens := OREns cs0
  ret := .ret
  bind := .bind
  mono hx h s := (orderRules cs0).mono (hx s) fun r hr => h r.1 hr
  lift := .lift
  fail s := (orderRules cs0).fail
  sized h s := h s.bytes.length s
  commonPoint h := .absorbPoint _ h
  commonScalar h := .absorbScalar _ h
  squeeze s := OEns.bind (.squeeze s.st) fun r h =>
    (orderRules cs0).pure (Q := fun x : genChip.S × Api.Reader (codegenTranscript K ps) => Expr.Known (defsOf cs0) (SVal.expr x.1)) h
  nextPoint d s := by
    unfold Api.Rd.nextPoint
    split <;> exact (orderRules cs0).pure trivial
  nextScalar d s := by
    unfold Api.Rd.nextScalar
    split <;> exact (orderRules cs0).pure trivial
  acceptPoint P := OREns.bind (.lift (.pointVar P)) fun _ h => OREns.bind (.absorbPoint _ h) fun _ _ => .ret h
  acceptScalar k := OREns.bind (.lift (.scalarVar k)) fun _ h => OREns.bind (.absorbScalar _ h) fun _ _ => .ret h

/-! ### Places, types and the transcript -/

/-- Every location is written once, and those written later are higher. -/
inductive Written : List Stmt → ℕ → Prop
  | nil : Written [] 0
  | gap {cs : List Stmt} {m m' : ℕ} : Written cs m → m ≤ m' → Written cs m'
  | assign {cs : List Stmt} {m : ℕ} (r : Expr) : Written cs m → Written (cs ++ [.assign (.memory m r.type) r]) (m + r.type.len)
  | hash {cs : List Stmt} {m : ℕ} (e : Expr) (off : ℕ) : Written cs m → Written (cs ++ [.updateHash e off]) m

/-- The statements that use the array of the hash. -/
def Stmt.isHash : Stmt → Bool
  | .updateHash _ _ | .assign _ (.hash _) => true
  | _ => false

/-- The statements that only the optimiser makes. -/
def Stmt.isLoop : Stmt → Bool
  | .loop .. | .mulLoop .. => true
  | _ => false

structure Ctx.Inv (k : Ctx) : Prop where
  placed : Written k.stmts k.memory
  typed : ∀ c ∈ k.stmts, c.Typed
  flat : ∀ c ∈ k.stmts, c.Flat ∧ c.isLoop = false

/-- What the operations of the chips do not touch. -/
structure Ctx.Same (k k' : Ctx) : Prop where
  absorbing : k'.absorbing = k.absorbing
  maxAbsorbing : k'.maxAbsorbing = k.maxAbsorbing
  transcript : k'.transcript = k.transcript
  inst : k'.inst = k.inst
  inInstance : k'.inInstance = k.inInstance
  hash : k'.stmts.filter Stmt.isHash = k.stmts.filter Stmt.isHash

theorem Ctx.Same.refl (k : Ctx) : k.Same k := ⟨rfl, rfl, rfl, rfl, rfl, rfl⟩

theorem Ctx.Same.trans {a b c : Ctx} (h : a.Same b) (h' : b.Same c) : a.Same c :=
  ⟨h'.1.trans h.1, h'.2.trans h.2, h'.3.trans h.3, h'.4.trans h.4, h'.5.trans h.5, h'.6.trans h.6⟩

def SEns {α : Type} (x : Gen α) (Q : α → Prop) : Prop :=
  ∀ k a k', x.1 k = some (a, k') → k.mock = false → k.Inv → k'.Inv ∧ k.Same k' ∧ Q a

theorem Written.push {cs : List Stmt} {m : ℕ} (h : Written cs m) (r : Expr) {t : Ty} (ht : r.type = t) :
    Written (cs ++ [.assign (.memory m t) r]) (m + t.len) := ht ▸ h.assign r

theorem typed_push {cs : List Stmt} (h : ∀ c ∈ cs, c.Typed) {c : Stmt} (hc : c.Typed) : ∀ d ∈ cs ++ [c], d.Typed := by
  intro d hd
  rcases List.mem_append.1 hd with hd | hd
  · exact h d hd
  · rw [List.mem_singleton.1 hd]
    exact hc

theorem flat_push {cs : List Stmt} (h : ∀ c ∈ cs, c.Flat ∧ c.isLoop = false) {c : Stmt} (hc : c.Flat) (hn : c.isLoop = false) :
    ∀ d ∈ cs ++ [c], d.Flat ∧ d.isLoop = false := by
  intro d hd
  rcases List.mem_append.1 hd with hd | hd
  · exact h d hd
  · rw [List.mem_singleton.1 hd]
    exact ⟨hc, hn⟩

def sameRules : Rules where
  Ens := SEns
  good _ := True
  pure h k b k' hk _ hi := by
    cases hk
    exact ⟨hi, .refl k, h⟩
  bind {_ _ x f _ _} hx hf k b k' hk hm hi := by
    obtain ⟨r, h1, h2⟩ := Option.bind_eq_some_iff.1 (show (x.1 k).bind (fun r => (f r.1).1 r.2) = some (b, k') from hk)
    obtain ⟨g1, g2, g3⟩ := hx k r.1 r.2 h1 hm hi
    obtain ⟨g4, g5, g6⟩ := hf r.1 g3 r.2 b k' h2 ((x.2 _ _ _ h1).mock.trans hm) g1
    exact ⟨g4, g2.trans g5, g6⟩
  mono h hi k a k' hk hm hinv := ⟨(h k a k' hk hm hinv).1, (h k a k' hk hm hinv).2.1, hi a (h k a k' hk hm hinv).2.2⟩
  fail := fun k a k' h => by cases h
  scalar _ := trivial
  point _ _ := trivial
  add _ _ _ := trivial
  sub _ _ _ := trivial
  mul _ _ _ := trivial
  div _ _ _ := trivial
  memory {e} he hl _ hh k o k' hk hm hi := by
    have hk' : k.assignMemory e = (o, k') := Option.some.inj hk
    unfold Ctx.assignMemory at hk'
    split at hk'
    · cases hk'
      exact ⟨hi, .refl k, trivial⟩
    · rw [hm] at hk'
      cases hk'
      refine ⟨⟨hi.placed.push e rfl, typed_push hi.typed ⟨rfl, he⟩, flat_push hi.flat ⟨.inl rfl, hl⟩ rfl⟩, ⟨rfl, rfl, rfl, rfl, rfl, ?_⟩, trivial⟩
      have : Stmt.isHash (.assign (.memory k.memory e.type) e) = false := by
        cases e <;> first | rfl | exact absurd rfl (hh _)
      rw [List.filter_append, List.filter_cons_of_neg (by simp [this]), List.filter_nil, List.append_nil]

/-- The statements about the hash that belong to a trace, with the positions they use: the array of the hash, and the proof. -/
inductive Linked : List (Api.Event PVal SVal) → List Stmt → ℕ → ℕ → ℕ → Prop
  | nil : Linked [] [] 0 0 0
  | commonPoint {tr : List (Api.Event PVal SVal)} {cs : List Stmt} {a m t : ℕ} (p : PVal) :
    Linked tr cs a m t → Linked (tr ++ [.commonPoint p]) (cs ++ [.updateHash p.expr a]) (a + 3) m t
  | commonScalar {tr : List (Api.Event PVal SVal)} {cs : List Stmt} {a m t : ℕ} (s : SVal) :
    Linked tr cs a m t → Linked (tr ++ [.commonScalar s]) (cs ++ [.updateHash s.expr a]) (a + 2) m t
  | point {tr : List (Api.Event PVal SVal)} {cs : List Stmt} {a m t : ℕ} {p : PVal} :
    Linked tr cs a m t → p.expr = .transcript t .point → Linked (tr ++ [.point p]) (cs ++ [.updateHash p.expr a]) (a + 3) m (t + 2)
  | scalar {tr : List (Api.Event PVal SVal)} {cs : List Stmt} {a m t : ℕ} {s : SVal} :
    Linked tr cs a m t → s.expr = .transcript t .scalar → Linked (tr ++ [.scalar s]) (cs ++ [.updateHash s.expr a]) (a + 2) m (t + 1)
  | challenge {tr : List (Api.Event PVal SVal)} {cs : List Stmt} {a m t o : ℕ} {s : SVal} :
    Linked tr cs a m t → s.expr = .memory o .scalar →
    Linked (tr ++ [.challenge s]) (cs ++ [.assign (.memory o .scalar) (.hash a)]) 1 (max a m) t

/-- The context after the events of a trace. -/
structure Ctx.At (k : Ctx) (tr : List (Api.Event PVal SVal)) : Prop where
  mock : k.mock = false
  inv : k.Inv
  inInstance : k.inInstance = false
  linked : Linked tr (k.stmts.filter Stmt.isHash) k.absorbing k.maxAbsorbing k.transcript

/-- Computations that use the transcript, leave the context as it belongs to their trace, and use no word of the instances. -/
def LEns {α : Type} (x : Api.Rd (codegenTranscript K ps) α) (Q : α → Prop) : Prop :=
  ∀ s k r k', (show Gen (α × Api.Reader (codegenTranscript K ps)) from x s).1 k = some (r, k') → k.At s.trace → (k'.At r.2.trace ∧ k'.inst = k.inst) ∧ Q r.1

theorem Ctx.At.same {k k' : Ctx} {tr : List (Api.Event PVal SVal)} (h : k.At tr) (hm : k'.mock = k.mock) (hi : k'.Inv) (hs : k.Same k') : k'.At tr :=
  ⟨hm.trans h.mock, hi, hs.inInstance.trans h.inInstance, by rw [hs.hash, hs.absorbing, hs.maxAbsorbing, hs.transcript]; exact h.linked⟩

namespace LEns

theorem ret {α : Type} {a : α} {Q : α → Prop} (h : Q a) : LEns (Pure.pure a : Api.Rd (codegenTranscript K ps) α) Q := by
  intro s k r k' hk ht
  cases hk
  exact ⟨⟨ht, rfl⟩, h⟩

theorem bind {α β : Type} {x : Api.Rd (codegenTranscript K ps) α} {f : α → Api.Rd (codegenTranscript K ps) β} {Q : α → Prop} {R : β → Prop}
    (hx : LEns x Q) (hf : ∀ a, Q a → LEns (f a) R) : LEns (x >>= f) R := by
  intro s k r k' hk ht
  obtain ⟨y, h1, h2⟩ := Option.bind_eq_some_iff.1 hk
  obtain ⟨⟨g1, g0⟩, g2⟩ := hx s k y.1 y.2 h1 ht
  obtain ⟨⟨g3, g4⟩, g5⟩ := hf y.1.1 g2 y.1.2 y.2 r k' h2 g1
  exact ⟨⟨g3, g4.trans g0⟩, g5⟩

theorem lift {α : Type} {x : Gen α} {Q : α → Prop} (h : SEns x Q) : LEns (Api.Rd.lift (c := genChip) (T := codegenTranscript K ps) x) Q := by
  intro s k r k' hk ht
  obtain ⟨y, h1, h2⟩ := Option.bind_eq_some_iff.1 hk
  cases h2
  obtain ⟨g1, g2, g3⟩ := h k y.1 y.2 h1 ht.mock ht.inv
  exact ⟨⟨ht.same (x.2 _ _ _ h1).mock g1 g2, g2.inst⟩, g3⟩

end LEns

theorem commonPoint_some {st st' : HashSt rate} {p : PVal} {k k' : Ctx}
    (h : (show Gen (HashSt rate) from (codegenTranscript K ps).commonPoint st p).1 k = some (st', k')) :
    k' = { k with tmp := k.tmp + 1 + 1, stmts := k.stmts ++ [.updateHash p.expr k.absorbing], absorbing := k.absorbing + 3 } := by
  obtain ⟨a, h1, h2⟩ := Option.bind_eq_some_iff.1 h
  obtain ⟨b, h3, h4⟩ := Option.bind_eq_some_iff.1 h2
  obtain ⟨c, h5, h6⟩ := Option.bind_eq_some_iff.1 h4
  cases h6
  have e1 := Gen.tmpVar_some h1
  have e2 := Gen.tmpVar_some h3
  have h5' : (if b.2.mock then none else some ((), _)) = some c := h5
  split at h5' <;> cases h5'
  rw [e2, e1]

theorem commonScalar_some {st st' : HashSt rate} {p : SVal} {k k' : Ctx}
    (h : (show Gen (HashSt rate) from (codegenTranscript K ps).commonScalar st p).1 k = some (st', k')) :
    k' = { k with stmts := k.stmts ++ [.updateHash p.expr k.absorbing], absorbing := k.absorbing + 2 } := by
  obtain ⟨c, h5, h6⟩ := Option.bind_eq_some_iff.1 h
  cases h6
  have h5' : (if k.mock then none else some ((), _)) = some c := h5
  split at h5' <;> cases h5'
  rfl

theorem Ctx.Inv.update {k : Ctx} (h : k.Inv) {e : Expr} (he : e.Typed) (hl : e.Operand) (off : ℕ) (k' : Ctx) (h1 : k'.stmts = k.stmts ++ [.updateHash e off])
    (h2 : k'.memory = k.memory) : k'.Inv :=
  ⟨by rw [h1, h2]; exact h.placed.hash e off, by rw [h1]; exact typed_push h.typed he, by rw [h1]; exact flat_push h.flat hl rfl⟩

theorem filter_push_hash {cs : List Stmt} {c : Stmt} (h : c.isHash = true) : (cs ++ [c]).filter Stmt.isHash = cs.filter Stmt.isHash ++ [c] := by
  rw [List.filter_append, List.filter_cons_of_pos h, List.filter_nil]

namespace LEns

theorem commonPoint (p : genChip.P) : LEns (Api.Rd.commonPoint (c := genChip) (T := codegenTranscript K ps) p) fun _ => True := by
  intro s k r k' hk ht
  obtain ⟨y, h1, h2⟩ := Option.bind_eq_some_iff.1 hk
  cases h2
  have e := commonPoint_some (k' := y.2) h1
  refine ⟨?_, trivial⟩
  rw [e]
  refine ⟨⟨ht.mock, ht.inv.update (PVal.form p).typed.2 (PVal.form p).operand _ _ rfl rfl, ht.inInstance, ?_⟩, rfl⟩
  dsimp only
  rw [filter_push_hash rfl]
  exact ht.linked.commonPoint p

theorem commonScalar (p : genChip.S) : LEns (Api.Rd.commonScalar (c := genChip) (T := codegenTranscript K ps) p) fun _ => True := by
  intro s k r k' hk ht
  obtain ⟨y, h1, h2⟩ := Option.bind_eq_some_iff.1 hk
  cases h2
  have e := commonScalar_some (k' := y.2) h1
  refine ⟨?_, trivial⟩
  rw [e]
  refine ⟨⟨ht.mock, ht.inv.update (SVal.form p).typed.2 (SVal.form p).operand _ _ rfl rfl, ht.inInstance, ?_⟩, rfl⟩
  dsimp only
  rw [filter_push_hash rfl]
  exact ht.linked.commonScalar p

theorem squeeze : LEns (Api.Rd.squeeze (c := genChip) (T := codegenTranscript K ps)) fun _ => True := by
  intro s k r k' hk ht
  obtain ⟨y, h1, h2⟩ := Option.bind_eq_some_iff.1 hk
  cases h2
  obtain ⟨-, m, hm, he, e⟩ := Gen.squeeze_some (k' := y.2) h1
  refine ⟨?_, trivial⟩
  rw [e]
  refine ⟨⟨ht.mock, ⟨(ht.inv.placed.gap hm).push (t := .scalar) (.hash _) rfl, typed_push ht.inv.typed ⟨rfl, trivial⟩, flat_push ht.inv.flat ⟨.inl rfl, trivial⟩ rfl⟩, ht.inInstance, ?_⟩, rfl⟩
  dsimp only
  rw [filter_push_hash rfl]
  exact ht.linked.challenge he

theorem acceptPoint (P : Pt) : LEns (Api.Rd.acceptPoint (c := genChip) (T := codegenTranscript K ps) P) fun _ => True := by
  intro s k r k' hk ht
  obtain ⟨y, h1, h2⟩ := Option.bind_eq_some_iff.1 hk
  obtain ⟨z, h3, h4⟩ := Option.bind_eq_some_iff.1 h1
  cases h4
  obtain ⟨u, h5, h6⟩ := Option.bind_eq_some_iff.1 h2
  cases h6
  obtain ⟨w, h7, h8⟩ := Option.bind_eq_some_iff.1 h5
  cases h8
  have e := commonPoint_some (k' := w.2) h7
  obtain ⟨-, -, h9⟩ := Gen.pointVar_some (a := z.1) (k' := z.2) h3
  rw [ht.inInstance] at h9
  obtain ⟨e1, e2⟩ := Prod.mk.inj h9
  refine ⟨?_, trivial⟩
  dsimp only at e ⊢
  rw [e, e2]
  refine ⟨⟨ht.mock, ht.inv.update (PVal.form z.1).typed.2 (PVal.form z.1).operand k.absorbing _ rfl rfl, rfl, ?_⟩, rfl⟩
  dsimp only
  rw [filter_push_hash rfl]
  exact ht.linked.point e1

theorem acceptScalar (v : N) : LEns (Api.Rd.acceptScalar (c := genChip) (T := codegenTranscript K ps) v) fun _ => True := by
  intro s k r k' hk ht
  obtain ⟨y, h1, h2⟩ := Option.bind_eq_some_iff.1 hk
  obtain ⟨z, h3, h4⟩ := Option.bind_eq_some_iff.1 h1
  cases h4
  obtain ⟨u, h5, h6⟩ := Option.bind_eq_some_iff.1 h2
  cases h6
  obtain ⟨w, h7, h8⟩ := Option.bind_eq_some_iff.1 h5
  cases h8
  have e := commonScalar_some (k' := w.2) h7
  obtain ⟨-, -, h9⟩ := Gen.scalarVar_some (a := z.1) (k' := z.2) h3
  rw [ht.inInstance] at h9
  obtain ⟨e1, e2⟩ := Prod.mk.inj h9
  refine ⟨?_, trivial⟩
  dsimp only at e ⊢
  rw [e, e2]
  refine ⟨⟨ht.mock, ht.inv.update (SVal.form z.1).typed.2 (SVal.form z.1).operand k.absorbing _ rfl rfl, rfl, ?_⟩, rfl⟩
  dsimp only
  rw [filter_push_hash rfl]
  exact ht.linked.scalar e1

end LEns

noncomputable def linkReading (K : Digest) (ps : Api.PoseidonSpec N rate) : Api.Reading sameRules.frame (codegenTranscript K ps) where
  Ens := LEns
  ret := .ret
  bind := .bind
  mono hx h s k r k' hk ht := ⟨(hx s k r k' hk ht).1, h _ (hx s k r k' hk ht).2⟩
  lift := .lift
  fail s k r k' hk := by cases hk
  sized h s := h s.bytes.length s
  commonPoint _ := .commonPoint _
  commonScalar _ := .commonScalar _
  squeeze := .squeeze
  nextPoint d s k r k' hk ht := by
    unfold Api.Rd.nextPoint at hk
    split at hk <;> cases hk <;> exact ⟨⟨ht, rfl⟩, trivial⟩
  nextScalar d s k r k' hk ht := by
    unfold Api.Rd.nextScalar at hk
    split at hk <;> cases hk <;> exact ⟨⟨ht, rfl⟩, trivial⟩
  acceptPoint P := .acceptPoint P
  acceptScalar k := .acceptScalar k

end Verif.Sol
