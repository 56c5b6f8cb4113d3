import Verif.Api.Verify

/-!
# The verifier only uses the assigned values it was given

A `Frame` is a property of assigned values that every operation of a chip passes on from its operands to its result, together with a way
of running computations in which that is meant. The generic verifier then passes the property on too. This is used for properties of the
code generator that depend on when a value was assigned; `Logic` has no place for them, because its rules hold for all values.
-/

namespace Verif.Api

variable {F G : Type}

/-! ### Interface -/

structure Frame (c : Chip F G) where
  Ens : {α : Type} → c.m α → (α → Prop) → Prop
  sg : c.S → Prop
  pg : c.P → Prop
  pure : ∀ {α : Type} {a : α} {Q : α → Prop}, Q a → Ens (Pure.pure a) Q
  bind : ∀ {α β : Type} {x : c.m α} {f : α → c.m β} {Q : α → Prop} {R : β → Prop}, Ens x Q → (∀ a, Q a → Ens (f a) R) → Ens (x >>= f) R
  mono : ∀ {α : Type} {x : c.m α} {Q R : α → Prop}, Ens x Q → (∀ a, Q a → R a) → Ens x R
  panic : ∀ {α : Type} {Q : α → Prop}, Ens c.panic Q
  add : ∀ {a b}, sg a → sg b → Ens (c.add a b) sg
  sub : ∀ {a b}, sg a → sg b → Ens (c.sub a b) sg
  mul : ∀ {a b}, sg a → sg b → Ens (c.mul a b) sg
  div : ∀ {a b}, sg a → sg b → Ens (c.div a b) sg
  square : ∀ {a}, sg a → Ens (c.square a) sg
  sumWithCoeff : ∀ {l k}, (∀ x ∈ l, sg x.1) → Ens (c.sumWithCoeff l k) sg
  assignZero : Ens c.assignZero sg
  assignOne : Ens c.assignOne sg
  assignConst : ∀ k, Ens (c.assignConst k) sg
  toValue : ∀ {a}, sg a → Ens (c.toValue a) fun _ => True
  pAdd : ∀ {a b}, pg a → pg b → Ens (c.pAdd a b) pg
  pSub : ∀ {a b}, pg a → pg b → Ens (c.pSub a b) pg
  pAssignOne : Ens c.pAssignOne pg
  pAssignConst : ∀ P, Ens (c.pAssignConst P) pg
  normalize : ∀ {a}, pg a → Ens (c.normalize a) pg
  scalarMul : ∀ {s a}, sg s → pg a → Ens (c.scalarMul s a) pg
  scalarMulConstant : ∀ {s} P, sg s → Ens (c.scalarMulConstant s P) pg
  multiExp : ∀ {ps ss}, (∀ p ∈ ps, pg p) → (∀ s ∈ ss, sg s) → Ens (c.multiExp ps ss) pg

/-- The same for computations that use the transcript. -/
structure Reading {c : Chip F G} (X : Frame c) (T : Transcript c) where
  Ens : {α : Type} → Rd T α → (α → Prop) → Prop
  ret : ∀ {α : Type} {a : α} {Q : α → Prop}, Q a → Ens (Pure.pure a : Rd T α) Q
  bind : ∀ {α β : Type} {x : Rd T α} {f : α → Rd T β} {Q : α → Prop} {R : β → Prop}, Ens x Q → (∀ a, Q a → Ens (f a) R) → Ens (x >>= f) R
  mono : ∀ {α : Type} {x : Rd T α} {Q R : α → Prop}, Ens x Q → (∀ a, Q a → R a) → Ens x R
  lift : ∀ {α : Type} {x : c.m α} {Q : α → Prop}, X.Ens x Q → Ens (Rd.lift x) Q
  fail : ∀ {α : Type} {Q : α → Prop}, Ens (Rd.fail : Rd T α) Q
  sized : ∀ {α : Type} {f : ℕ → Rd T α} {Q : α → Prop}, (∀ n, Ens (f n) Q) → Ens (fun s => f s.bytes.length s) Q
  commonPoint : ∀ {p}, X.pg p → Ens (Rd.commonPoint p) fun _ => True
  commonScalar : ∀ {s}, X.sg s → Ens (Rd.commonScalar s) fun _ => True
  squeeze : Ens Rd.squeeze X.sg
  nextPoint : ∀ d, Ens (Rd.nextPoint d) fun _ => True
  nextScalar : ∀ d, Ens (Rd.nextScalar d) fun _ => True
  acceptPoint : ∀ P, Ens (Rd.acceptPoint P) X.pg
  acceptScalar : ∀ k, Ens (Rd.acceptScalar k) X.sg

/-! ### Records whose values all have the property -/

section Records
variable {P S : Type} (pg : P → Prop) (sg : S → Prop)

def Ast.Has : Ast S → Prop
  | .value v => sg v
  | .add a b | .sub a b | .mul a b | .div a b => a.Has ∧ b.Has

def Expr.Has : Expr S → Prop
  | .constant k => sg k
  | .selector _ | .fixed _ | .advice _ | .instance _ | .challenge _ => True
  | .negated a => a.Has
  | .sum a b | .product a b => a.Has ∧ b.Has
  | .scaled a f => a.Has ∧ sg f

structure QueryEvals.Has (q : QueryEvals S) : Prop where
  fixed : ∀ s ∈ q.fixed, sg s
  advice : ∀ s ∈ q.advice, sg s
  inst : ∀ s ∈ q.instance, sg s
  challenges : ∀ s ∈ q.challenges, sg s

structure PermSet.Has (x : PermSet P S) : Prop where
  commitment : pg x.commitment
  eval : sg x.eval
  next : sg x.next
  last : ∀ s ∈ x.last, sg s

structure PermEval.Has (q : PermEval P S) : Prop where
  x : sg q.x
  sets : ∀ s ∈ q.sets, s.Has pg sg
  evals : ∀ s ∈ q.evals, sg s

structure LookupEval.Has (k : LookupEval P S) : Prop where
  input : ∀ e ∈ k.input, e.Has sg
  table : ∀ e ∈ k.table, e.Has sg
  permutedInput : pg k.permutedInput
  permutedTable : pg k.permutedTable
  product : pg k.product
  productEval : sg k.productEval
  productNext : sg k.productNext
  inputEval : sg k.inputEval
  inputInv : sg k.inputInv
  tableEval : sg k.tableEval

structure CommitQuery.Has (q : CommitQuery P S) : Prop where
  commitment : ∀ p ∈ q.commitment, pg p
  eval : ∀ s ∈ q.eval, sg s

def Schema.Has : Schema P S → Prop
  | .commitment q | .eval q => q.Has pg sg
  | .scalar s => sg s
  | .add l _ r _ | .mul l _ r _ => l.Has ∧ r.Has

structure Params.Has (p : Params P S) : Prop where
  gates : ∀ g ∈ p.gates, ∀ e ∈ g, e.Has sg
  lookups : ∀ l ∈ p.lookups, ∀ k ∈ l, k.Has pg sg
  perms : ∀ q ∈ p.perms, q.Has pg sg
  instanceCommitments : ∀ r ∈ p.instanceCommitments, ∀ q ∈ r, pg q
  instanceEvals : ∀ r ∈ p.instanceEvals, ∀ s ∈ r, sg s
  challenges : ∀ s ∈ p.challenges, sg s
  adviceCommitments : ∀ r ∈ p.adviceCommitments, ∀ q ∈ r, pg q
  adviceEvals : ∀ r ∈ p.adviceEvals, ∀ s ∈ r, sg s
  fixedCommitments : ∀ q ∈ p.fixedCommitments, pg q
  fixedEvals : ∀ s ∈ p.fixedEvals, sg s
  permutationCommitments : ∀ q ∈ p.permutationCommitments, pg q
  permutationEvals : ∀ s ∈ p.permutationEvals, sg s
  vanishCommitments : ∀ q ∈ p.vanishCommitments, pg q
  randomCommitment : pg p.randomCommitment
  w : ∀ q ∈ p.w, pg q
  randomEval : sg p.randomEval
  beta : sg p.beta
  gamma : sg p.gamma
  theta : sg p.theta
  delta : sg p.delta
  x : sg p.x
  xNext : sg p.xNext
  xLast : sg p.xLast
  xInv : sg p.xInv
  xn : sg p.xn
  y : sg p.y
  u : sg p.u
  v : sg p.v
  omega : sg p.omega
  zero : sg p.zero
  one : sg p.one
  n : sg p.n

end Records

namespace Frame
variable {c : Chip F G} (X : Frame c)

def Entry (e : Api.Entry c) : Prop := (∀ p ∈ e.2.1, X.pg p) ∧ ∀ s ∈ e.2.2, X.sg s
def Schema (s : Api.Schema c.P c.S) : Prop := s.Has X.pg X.sg
def Query (q : EvalQuery c) : Prop := X.sg q.point ∧ X.Schema q.s
def Group (g : Api.Group c) : Prop := X.sg g.2.1 ∧ ∀ s ∈ g.2.2, X.Schema s
def Proof (p : EvalProof c) : Prop := X.sg p.point ∧ X.Schema p.s ∧ X.pg p.w
def Open (m : MultiOpen c) : Prop := X.Schema m.wx ∧ X.Schema m.wg

variable {X}

/-! ### Scalars -/

theorem index {α : Type} {Q : α → Prop} {l : List α} (h : ∀ a ∈ l, Q a) (i : ℕ) : X.Ens (Api.index c l i) Q := by
  unfold Api.index
  split
  · next a ha => exact X.pure (h a (List.mem_of_getElem? ha))
  · exact X.panic

theorem unwrap {α : Type} {Q : α → Prop} {o : Option α} (h : ∀ a ∈ o, Q a) : X.Ens (Api.unwrap c o) Q := by
  cases o with
  | none => exact X.panic
  | some a => exact X.pure (h a rfl)

theorem mapM' {α β : Type} {f : α → c.m β} {Q : β → Prop} : ∀ {l : List α}, (∀ a ∈ l, X.Ens (f a) Q) →
    X.Ens (Api.mapM' c f l) fun r => ∀ b ∈ r, Q b
  | [], _ => X.pure fun b hb => absurd hb List.not_mem_nil
  | a :: l, h => X.bind (h a List.mem_cons_self) fun b hb => X.bind (mapM' fun a' ha' => h a' (List.mem_cons_of_mem _ ha')) fun bs hbs =>
      X.pure fun x hx => (List.mem_cons.1 hx).elim (fun h => h ▸ hb) (hbs x)

theorem sumWithConstant [One F] {l : List c.S} {b : F} (h : ∀ s ∈ l, X.sg s) : X.Ens (Api.sumWithConstant c l b) X.sg :=
  X.sumWithCoeff fun x hx => by
    obtain ⟨s, hs, rfl⟩ := List.mem_map.1 hx
    exact h s hs

theorem mulAdd {a b d : c.S} (ha : X.sg a) (hb : X.sg b) (hd : X.sg d) : X.Ens (Api.mulAdd c a b d) X.sg :=
  X.bind (X.mul ha hb) fun _ ht => X.add ht hd

theorem accLoop {b : c.S} (hb : X.sg b) : ∀ {l : List c.S} {acc : c.S}, (∀ s ∈ l, X.sg s) → X.sg acc → X.Ens (Api.accLoop c b l acc) X.sg
  | [], _, _, ha => X.pure ha
  | _ :: _, _, hl, ha => X.bind (mulAdd ha hb (hl _ List.mem_cons_self)) fun _ h => accLoop hb (fun s hs => hl s (List.mem_cons_of_mem _ hs)) h

theorem mulAddAccumulate {l : List c.S} {b : c.S} (hl : ∀ s ∈ l, X.sg s) (hb : X.sg b) : X.Ens (Api.mulAddAccumulate c l b) X.sg :=
  X.bind X.assignZero fun _ h => accLoop hb hl h

theorem powLoop {base : c.S} (hb : X.sg base) (e : ℕ) (b : ℕ) : ∀ {acc : c.S}, X.sg acc → X.Ens (Api.powLoop c base e b acc) X.sg := by
  induction b using Nat.strong_induction_on with
  | _ b ih =>
    intro acc ha
    rw [Api.powLoop]
    split
    · next hpos =>
      refine X.bind (X.square ha) fun a ha => ?_
      have hlt : b / 2 < b := Nat.div_lt_self hpos (by omega)
      split
      · exact X.bind (X.mul ha hb) fun a ha => ih _ hlt ha
      · exact ih _ hlt ha
    · exact X.pure ha

theorem powConst {base : c.S} (hb : X.sg base) (e : ℕ) : X.Ens (Api.powConst c base e) X.sg := by
  unfold Api.powConst
  split
  · next x hx =>
    unfold Api.powConstant at hx
    split at hx
    · obtain ⟨b, -, rfl⟩ := Option.map_eq_some_iff.1 hx
      exact powLoop hb e _ hb
    · cases hx
      exact X.panic
  · exact X.panic

theorem ast : ∀ {a : Ast c.S}, a.Has X.sg → X.Ens (Ast.eval c a) X.sg
  | .value _, h => X.pure h
  | .add _ _, h => X.bind (ast h.1) fun _ ha => X.bind (ast h.2) fun _ hb => X.add ha hb
  | .sub _ _, h => X.bind (ast h.1) fun _ ha => X.bind (ast h.2) fun _ hb => X.sub ha hb
  | .mul _ _, h => X.bind (ast h.1) fun _ ha => X.bind (ast h.2) fun _ hb => X.mul ha hb
  | .div _ _, h => X.bind (ast h.1) fun _ ha => X.bind (ast h.2) fun _ hb => X.div ha hb

theorem chipEvaluate {q : QueryEvals c.S} {zero : c.S} (hq : q.Has X.sg) (hz : X.sg zero) : ∀ {e : Expr c.S}, e.Has X.sg →
    X.Ens (Api.chipEvaluate c q zero e) X.sg
  | .constant _, h => X.pure h
  | .selector _, _ => X.panic
  | .fixed i, _ => index hq.fixed i
  | .advice i, _ => index hq.advice i
  | .instance i, _ => index hq.inst i
  | .challenge i, _ => index hq.challenges i
  | .negated _, h => X.bind (chipEvaluate hq hz h) fun _ ha => ast ⟨hz, ha⟩
  | .sum _ _, h => X.bind (chipEvaluate hq hz h.1) fun _ ha => X.bind (chipEvaluate hq hz h.2) fun _ hb => ast ⟨ha, hb⟩
  | .product _ _, h => X.bind (chipEvaluate hq hz h.1) fun _ ha => X.bind (chipEvaluate hq hz h.2) fun _ hb => ast ⟨ha, hb⟩
  | .scaled _ _, h => X.bind (chipEvaluate hq hz h.1) fun _ ha => ast ⟨h.2, ha⟩

theorem convertExpression : ∀ e : Expr F, X.Ens (Api.convertExpression c e) fun r => r.Has X.sg
  | .constant k => X.bind (X.assignConst k) fun _ h => X.pure h
  | .selector _ | .fixed _ | .advice _ | .instance _ | .challenge _ => X.pure trivial
  | .negated a => X.bind (convertExpression a) fun _ h => X.pure h
  | .sum a b => X.bind (convertExpression a) fun _ h => X.bind (convertExpression b) fun _ h' => X.pure ⟨h, h'⟩
  | .product a b => X.bind (convertExpression a) fun _ h => X.bind (convertExpression b) fun _ h' => X.pure ⟨h, h'⟩
  | .scaled a f => X.bind (convertExpression a) fun _ h => X.bind (X.assignConst f) fun _ h' => X.pure ⟨h, h'⟩

/-! ### Schemas -/

theorem mergeOne {one : c.S} (h1 : X.sg one) {e : Api.Entry c} (he : X.Entry e) : ∀ {l : List (Api.Entry c)}, (∀ e ∈ l, X.Entry e) →
    X.Ens (Api.mergeOne c one e l) fun r => ∀ e ∈ r, X.Entry e
  | [], _ => X.pure (by simpa using he)
  | p :: res, h => by
    have hp := h p List.mem_cons_self
    have hres : ∀ e ∈ res, X.Entry e := fun e he => h e (List.mem_cons_of_mem _ he)
    have hget : ∀ o : Option c.S, (∀ s ∈ o, X.sg s) → X.sg (o.getD one) := fun o ho => by
      cases o with
      | none => exact h1
      | some s => exact ho s rfl
    unfold Api.mergeOne
    split
    · refine X.bind (X.add (hget _ hp.2) (hget _ he.2)) fun s hs => X.pure ?_
      simp only [List.mem_cons, forall_eq_or_imp]
      refine ⟨⟨hp.1, fun s' hs' => ?_⟩, hres⟩
      cases hs'
      exact hs
    · exact X.bind (mergeOne h1 he hres) fun r hr => X.pure fun e' he' => (List.mem_cons.1 he').elim (fun h => h ▸ hp) (hr e')

theorem mergeAll {one : c.S} (h1 : X.sg one) : ∀ {l res : List (Api.Entry c)}, (∀ e ∈ l, X.Entry e) → (∀ e ∈ res, X.Entry e) →
    X.Ens (Api.mergeAll c one l res) fun r => ∀ e ∈ r, X.Entry e
  | [], _, _, h => X.pure h
  | _ :: _, _, hl, h => X.bind (mergeOne h1 (hl _ List.mem_cons_self) h) fun _ hr => mergeAll h1 (fun e he => hl e (List.mem_cons_of_mem _ he)) hr

theorem timesOpt {o : Option c.S} {s : c.S} (ho : ∀ s ∈ o, X.sg s) (hs : X.sg s) : X.Ens (Api.timesOpt c o s) X.sg := by
  cases o with
  | none => exact X.pure hs
  | some k => exact X.mul (ho k rfl) hs

theorem optTimes {o : Option c.S} {s : c.S} (ho : ∀ s ∈ o, X.sg s) (hs : X.sg s) : X.Ens (Api.optTimes c o s) X.sg := by
  cases o with
  | none => exact X.pure hs
  | some k => exact X.mul hs (ho k rfl)

theorem only {l : List (Api.Entry c)} (h : ∀ e ∈ l, X.Entry e) : X.Ens (Api.only c l) X.sg := by
  unfold Api.only
  split
  · next e => exact unwrap (h e List.mem_cons_self).2
  · exact X.panic

theorem entry_scalar {s : c.S} (hs : X.sg s) : ∀ e ∈ [(("", none, some s) : Api.Entry c)], X.Entry e := by
  intro e he
  rw [List.mem_singleton] at he
  subst he
  refine ⟨fun p hp => ?_, fun s' hs' => ?_⟩
  · cases hp
  · cases hs'
    exact hs

theorem evalPrepare {one : c.S} (h1 : X.sg one) : ∀ {s : Api.Schema c.P c.S} {o : Option c.S}, X.Schema s → (∀ k ∈ o, X.sg k) →
    X.Ens (Api.evalPrepare c one s o) fun r => ∀ e ∈ r, X.Entry e
  | .commitment q, o, h, ho => X.bind (unwrap h.commitment) fun p hp => X.pure (by
      intro e he
      rw [List.mem_singleton] at he
      subst he
      exact ⟨fun p' hp' => by cases hp'; exact hp, ho⟩)
  | .eval q, o, h, ho => X.bind (unwrap h.eval) fun _ he => X.bind (timesOpt ho he) fun _ he => X.pure (entry_scalar he)
  | .scalar s, o, h, ho => X.bind (optTimes ho h) fun _ he => X.pure (entry_scalar he)
  | .add l lc r rc, o, h, ho => by
    unfold Api.evalPrepare
    split
    · exact X.bind (evalPrepare h1 h.1 nofun) fun _ hl => X.bind (evalPrepare h1 h.2 nofun) fun _ hr => X.bind (only hl) fun _ ha =>
        X.bind (only hr) fun _ hb => X.bind (X.add ha hb) fun _ hs => X.bind (timesOpt ho hs) fun _ hs => X.pure (entry_scalar hs)
    · exact X.bind (evalPrepare h1 h.1 ho) fun _ hl => X.bind (mergeAll h1 hl (fun e he => absurd he List.not_mem_nil)) fun _ hres =>
        X.bind (evalPrepare h1 h.2 ho) fun _ hr => mergeAll h1 hr hres
  | .mul l lc r rc, o, h, ho => by
    unfold Api.evalPrepare
    split
    · exact X.bind (evalPrepare h1 h.1 nofun) fun _ hl => X.bind (only hl) fun _ hs => X.bind (timesOpt ho hs) fun s hs =>
        evalPrepare h1 h.2 fun k hk => by cases hk; exact hs
    · exact X.bind (evalPrepare h1 h.2 nofun) fun _ hl => X.bind (only hl) fun _ hs => X.bind (timesOpt ho hs) fun s hs =>
        evalPrepare h1 h.1 fun k hk => by cases hk; exact hs

theorem addAll : ∀ {l : List c.P} {acc : c.P}, (∀ p ∈ l, X.pg p) → X.pg acc → X.Ens (Api.addAll c l acc) X.pg
  | [], _, _, h => X.pure h
  | _ :: _, _, hl, h => X.bind (X.pAdd h (hl _ List.mem_cons_self)) fun _ h => addAll (fun p hp => hl p (List.mem_cons_of_mem _ hp)) h

theorem scalarOf {o : Option (Api.Entry c)} (h : ∀ e ∈ o, X.Entry e) : X.Ens (Api.scalarOf c o) fun r => ∀ s ∈ r, X.sg s := by
  cases o with
  | none => exact X.pure nofun
  | some e => exact X.bind (unwrap (h e rfl).2) fun v hv => X.pure fun s hs => by cases hs; exact hv

theorem evalSchema {one : c.S} (h1 : X.sg one) {s : Api.Schema c.P c.S} (h : X.Schema s) :
    X.Ens (Api.evalSchema c one s) fun r => X.pg r.1 ∧ ∀ e ∈ r.2.1, X.sg e := by
  refine X.bind (evalPrepare h1 h nofun) fun pts hp => X.bind (scalarOf fun e he => hp e (List.mem_of_find?_eq_some he)) fun e he =>
    X.bind (X.multiExp ?_ ?_) fun acc ha => X.bind (addAll ?_ ha) fun acc ha => X.pure ⟨ha, he⟩
  · intro p hpm
    obtain ⟨q, hq, rfl⟩ := List.mem_map.1 hpm
    obtain ⟨b, hb, h2⟩ := List.mem_filterMap.1 hq
    obtain ⟨p, h3, h4⟩ := Option.bind_eq_some_iff.1 h2
    obtain ⟨s, -, rfl⟩ := Option.map_eq_some_iff.1 h4
    exact (hp b hb).1 p h3
  · intro p hpm
    obtain ⟨q, hq, rfl⟩ := List.mem_map.1 hpm
    obtain ⟨b, hb, h2⟩ := List.mem_filterMap.1 hq
    obtain ⟨p, -, h4⟩ := Option.bind_eq_some_iff.1 h2
    obtain ⟨s, h5, rfl⟩ := Option.map_eq_some_iff.1 h4
    exact (hp b hb).2 s h5
  · intro p hpm
    obtain ⟨b, hb, h2⟩ := List.mem_filterMap.1 hpm
    split at h2
    · exact (hp b hb).1 p h2
    · cases h2

/-! ### Multi-opening -/

theorem schema_add {a b : Api.Schema c.P c.S} (ha : X.Schema a) (hb : X.Schema b) : X.Schema (a + b) := ⟨ha, hb⟩
theorem schema_mul {a b : Api.Schema c.P c.S} (ha : X.Schema a) (hb : X.Schema b) : X.Schema (a * b) := ⟨ha, hb⟩

theorem query_mk {rotation : ℤ} {key : String} {point : c.S} {commitment : c.P} {eval : c.S} (h1 : X.sg point) (h2 : X.pg commitment)
    (h3 : X.sg eval) : X.Query (EvalQuery.mk' c rotation key point commitment eval) := by
  have h : CommitQuery.Has X.pg X.sg (⟨key, some commitment, some eval⟩ : CommitQuery c.P c.S) :=
    ⟨fun p hp => by cases hp; exact h2, fun p hp => by cases hp; exact h3⟩
  exact ⟨h1, h, h⟩

theorem addQuery {q : EvalQuery c} (hq : X.Query q) : ∀ {gs : List (Api.Group c)}, (∀ g ∈ gs, X.Group g) → ∀ g ∈ Api.addQuery c q gs, X.Group g
  | [], _ => by
    intro g hg
    rw [Api.addQuery, List.mem_singleton] at hg
    subst hg
    exact ⟨hq.1, fun s hs => by rw [List.mem_singleton] at hs; exact hs ▸ hq.2⟩
  | g :: gs, h => by
    have hg := h g List.mem_cons_self
    have hgs : ∀ g ∈ gs, X.Group g := fun g hg => h g (List.mem_cons_of_mem _ hg)
    unfold Api.addQuery
    split
    · simp only [List.mem_cons, forall_eq_or_imp]
      refine ⟨⟨hg.1, fun s hs => ?_⟩, hgs⟩
      rcases List.mem_append.1 hs with hs | hs
      · exact hg.2 s hs
      · rw [List.mem_singleton] at hs
        exact hs ▸ hq.2
    · simp only [List.mem_cons, forall_eq_or_imp]
      exact ⟨hg, addQuery hq hgs⟩

theorem groupQueries {qs : List (EvalQuery c)} (h : ∀ q ∈ qs, X.Query q) : ∀ g ∈ Api.groupQueries c qs, X.Group g := by
  have : ∀ (qs : List (EvalQuery c)) (gs : List (Api.Group c)), (∀ q ∈ qs, X.Query q) → (∀ g ∈ gs, X.Group g) →
      ∀ g ∈ qs.foldl (fun gs q => Api.addQuery c q gs) gs, X.Group g := by
    intro qs
    induction qs with
    | nil => exact fun gs _ h => h
    | cons q qs ih => exact fun gs hq hg => ih _ (fun q' h' => hq q' (List.mem_cons_of_mem _ h')) (addQuery (hq q List.mem_cons_self) hg)
  exact this qs [] h (fun g hg => absurd hg List.not_mem_nil)

theorem reduceLeft {v : c.S} (hv : X.sg v) {l : List (Api.Schema c.P c.S)} (h : ∀ s ∈ l, X.Schema s) :
    ∀ s ∈ Api.reduceLeft c v l, X.Schema s := by
  have : ∀ (l : List (Api.Schema c.P c.S)) (a : Api.Schema c.P c.S), (∀ s ∈ l, X.Schema s) → X.Schema a →
      X.Schema (l.foldl (fun acc q => .scalar v * acc + q) a) := by
    intro l
    induction l with
    | nil => exact fun a _ h => h
    | cons q l ih =>
      exact fun a hl ha => ih _ (fun s hs => hl s (List.mem_cons_of_mem _ hs)) (schema_add (schema_mul hv ha) (hl q List.mem_cons_self))
  intro s hs
  cases l with
  | nil => cases hs
  | cons a l =>
    cases hs
    exact this l a (fun s hs => h s (List.mem_cons_of_mem _ hs)) (h a List.mem_cons_self)

theorem pointProofs {v : c.S} (hv : X.sg v) : ∀ {gs : List (Api.Group c)} {ws : List c.P}, (∀ g ∈ gs, X.Group g) → (∀ w ∈ ws, X.pg w) →
    X.Ens (Api.pointProofs c v gs ws) fun r => ∀ p ∈ r, X.Proof p
  | [], [], _, _ | [], _ :: _, _, _ | _ :: _, [], _, _ => by
    unfold Api.pointProofs
    exact X.pure fun p hp => absurd hp List.not_mem_nil
  | g :: gs, w :: ws, hg, hw => by
    have h1 := hg g List.mem_cons_self
    refine X.bind (unwrap (reduceLeft hv fun s hs => h1.2 s (List.mem_reverse.1 hs))) fun s hs =>
      X.bind (pointProofs hv (fun g' h' => hg g' (List.mem_cons_of_mem _ h')) fun w' h' => hw w' (List.mem_cons_of_mem _ h')) fun ps hps => X.pure ?_
    simp only [List.mem_cons, forall_eq_or_imp]
    exact ⟨⟨h1.1, hs, hw w List.mem_cons_self⟩, hps⟩

theorem getPointSchemas {v : c.S} (hv : X.sg v) {w : List c.P} (hw : ∀ p ∈ w, X.pg p) {qs : List (EvalQuery c)} (h : ∀ q ∈ qs, X.Query q) :
    X.Ens (Api.getPointSchemas c v w qs) fun r => ∀ p ∈ r, X.Proof p := by
  unfold Api.getPointSchemas
  dsimp only
  split
  · exact pointProofs hv (groupQueries h) hw
  · exact X.panic

theorem batchStep {key : String} {u : c.S} (hu : X.sg u) {i : ℕ} {p : EvalProof c} (hp : X.Proof p)
    {acc : Option (Api.Schema c.P c.S) × Option (Api.Schema c.P c.S)} (h : (∀ s ∈ acc.1, X.Schema s) ∧ ∀ s ∈ acc.2, X.Schema s) :
    (∀ s ∈ (Api.batchStep c key u i p acc).1, X.Schema s) ∧ ∀ s ∈ (Api.batchStep c key u i p acc).2, X.Schema s := by
  obtain ⟨a, b⟩ := acc
  have hw : X.Schema (.commitment ⟨wKey key i, some p.w, none⟩) := ⟨fun q hq => by cases hq; exact hp.2.2, fun s hs => by cases hs⟩
  have hpw : X.Schema (.scalar p.point * .commitment ⟨wKey key i, some p.w, none⟩) := schema_mul hp.1 hw
  constructor
  · intro s hs
    cases hs
    cases a with
    | none => exact hw
    | some a => exact schema_add (schema_mul hu (h.1 a rfl)) hw
  · intro s hs
    cases hs
    cases b with
    | none => exact schema_add hpw hp.2.1
    | some b => exact schema_add (schema_add (schema_mul hu (h.2 b rfl)) hpw) hp.2.1

theorem batchLoop {key : String} {u : c.S} (hu : X.sg u) {ps : List (EvalProof c)} (hp : ∀ p ∈ ps, X.Proof p) :
    (∀ s ∈ (Api.batchLoop c key u ps).1, X.Schema s) ∧ ∀ s ∈ (Api.batchLoop c key u ps).2, X.Schema s := by
  have : ∀ (l : List (EvalProof c × ℕ)) (acc : Option (Api.Schema c.P c.S) × Option (Api.Schema c.P c.S)), (∀ p ∈ l, X.Proof p.1) →
      ((∀ s ∈ acc.1, X.Schema s) ∧ ∀ s ∈ acc.2, X.Schema s) →
      (∀ s ∈ (l.foldl (fun acc p => Api.batchStep c key u p.2 p.1 acc) acc).1, X.Schema s) ∧
        ∀ s ∈ (l.foldl (fun acc p => Api.batchStep c key u p.2 p.1 acc) acc).2, X.Schema s := by
    intro l
    induction l with
    | nil => exact fun acc _ h => h
    | cons p l ih => exact fun acc hl ha => ih _ (fun q hq => hl q (List.mem_cons_of_mem _ hq)) (batchStep hu (hl p List.mem_cons_self) ha)
  refine this _ _ (fun p hpm => hp p.1 ?_) ⟨nofun, nofun⟩
  rw [List.mem_reverse] at hpm
  exact List.fst_mem_of_mem_zipIdx hpm

theorem batchMultiOpen {key : String} {u v : c.S} (hu : X.sg u) (hv : X.sg v) {w : List c.P} (hw : ∀ p ∈ w, X.pg p) {qs : List (EvalQuery c)}
    (h : ∀ q ∈ qs, X.Query q) : X.Ens (Api.batchMultiOpen c key u v w qs) X.Open :=
  X.bind (getPointSchemas hv hw h) fun ps hps => X.bind (unwrap (batchLoop hu hps).1) fun _ h1 =>
    X.bind (unwrap (batchLoop hu hps).2) fun _ h2 => X.pure ⟨h1, h2⟩

theorem addGen {g p : c.P} {o : Option c.S} (hg : X.pg g) (hp : X.pg p) (ho : ∀ s ∈ o, X.sg s) : X.Ens (Api.addGen c g p o) X.pg := by
  cases o with
  | none => exact X.pure hp
  | some e => exact X.bind (X.scalarMul (ho e rfl) hg) fun _ hs => X.pAdd hp hs

theorem subGen {g p : c.P} {o : Option c.S} (hg : X.pg g) (hp : X.pg p) (ho : ∀ s ∈ o, X.sg s) : X.Ens (Api.subGen c g p o) X.pg := by
  cases o with
  | none => exact X.pure hp
  | some e => exact X.bind (X.scalarMul (ho e rfl) hg) fun _ hs => X.pSub hp hs

theorem evaluateMultiopen {m : MultiOpen c} (h : X.Open m) : X.Ens (Api.evaluateMultiopen c m) fun r => X.pg r.1 ∧ X.pg r.2 :=
  X.bind X.assignOne fun _ h1 => X.bind (evalSchema h1 h.1) fun _ hl => X.bind (evalSchema h1 h.2) fun _ hr =>
    X.bind X.pAssignOne fun _ hg => X.bind (addGen hg hl.1 hl.2) fun _ ha => X.bind (subGen hg hr.1 hr.2) fun _ hb => X.pure ⟨ha, hb⟩

/-! ### The arguments -/

theorem wsLoop {omega : c.S} (ho : X.sg omega) : ∀ (k : ℕ) {w : c.S}, X.sg w → X.Ens (Api.wsLoop c omega k w) fun r => ∀ s ∈ r, X.sg s
  | 0, _, _ => X.pure fun s hs => absurd hs List.not_mem_nil
  | k + 1, _, hw => X.bind (X.div hw ho) fun _ hw => X.bind (wsLoop ho k hw) fun _ hws => X.pure (by simpa using ⟨hw, hws⟩)

theorem lagrangeCommits {omega n x xn one : c.S} (ho : X.sg omega) (hn : X.sg n) (hx : X.sg x) (hxn : X.sg xn) (h1 : X.sg one) (l : ℕ) :
    X.Ens (Api.lagrangeCommits c omega n x xn one l) fun r => ∀ s ∈ r, X.sg s := by
  refine X.bind (wsLoop ho l h1) fun ws hws => mapM' fun w hw => ast ?_
  have : X.sg w := by
    rcases List.mem_cons.1 hw with rfl | hw
    · exact h1
    · exact hws w hw
  exact ⟨⟨⟨this, hn⟩, hxn, h1⟩, hx, this⟩

theorem firstExpr {l0 one : c.S} (h0 : X.sg l0) (h1 : X.sg one) {o : Option (PermSet c.P c.S)} (ho : ∀ s ∈ o, s.Has X.pg X.sg) :
    X.Ens (Api.firstExpr c l0 one o) fun r => ∀ s ∈ r, X.sg s := by
  cases o with
  | none => exact X.pure fun s hs => absurd hs List.not_mem_nil
  | some s => exact X.bind (ast ⟨h0, h1, (ho s rfl).eval⟩) fun r hr => X.pure (by simpa using hr)

theorem lastExpr {l : c.S} (h0 : X.sg l) {o : Option (PermSet c.P c.S)} (ho : ∀ s ∈ o, s.Has X.pg X.sg) :
    X.Ens (Api.lastExpr c l o) fun r => ∀ s ∈ r, X.sg s := by
  cases o with
  | none => exact X.pure fun s hs => absurd hs List.not_mem_nil
  | some s => exact X.bind (ast ⟨h0, ⟨(ho s rfl).eval, (ho s rfl).eval⟩, (ho s rfl).eval⟩) fun r hr => X.pure (by simpa using hr)

theorem chainExprs {l0 : c.S} (h0 : X.sg l0) {l : List (PermSet c.P c.S × PermSet c.P c.S)} (h : ∀ p ∈ l, p.1.Has X.pg X.sg ∧ p.2.Has X.pg X.sg) :
    X.Ens (Api.chainExprs c l0 l) fun r => ∀ s ∈ r, X.sg s :=
  mapM' fun p hp => X.bind (unwrap (h p hp).2.last) fun _ hl => ast ⟨⟨(h p hp).1.eval, hl⟩, h0⟩

theorem permInner {delta beta gamma : c.S} (hd : X.sg delta) (hb : X.sg beta) (hg : X.sg gamma) : ∀ {l : List (c.S × c.S)} {a b d : c.S},
    (∀ p ∈ l, X.sg p.1 ∧ X.sg p.2) → X.sg a → X.sg b → X.sg d → X.Ens (Api.permInner c delta beta gamma l a b d) fun r => X.sg r.1 ∧ X.sg r.2
  | [], _, _, _, _, ha, hb, _ => X.pure ⟨ha, hb⟩
  | (e, pe) :: l, a, b, d, hl, h1, h2, h3 => by
    have h := hl _ List.mem_cons_self
    exact X.bind (ast ⟨h.1, hg⟩) fun _ ht => X.bind (ast ⟨⟨ht, hb, h.2⟩, h1⟩) fun _ ha => X.bind (ast ⟨⟨ht, h3⟩, h2⟩) fun _ hb' =>
      X.bind (ast ⟨hd, h3⟩) fun _ hd' => permInner hd hb hg (fun p hp => hl p (List.mem_cons_of_mem _ hp)) ha hb' hd'

theorem deltaPow {delta one : c.S} (hd : X.sg delta) (h1 : X.sg one) (i k : ℕ) : X.Ens (Api.deltaPow c delta one i k) X.sg := by
  unfold Api.deltaPow
  split
  · exact X.pure h1
  · exact powConst hd _

theorem zip_has {α β : Type} {p : α → Prop} {q : β → Prop} {l : List α} {l' : List β} (h : ∀ a ∈ l, p a) (h' : ∀ b ∈ l', q b) :
    ∀ x ∈ l.zip l', p x.1 ∧ q x.2 := fun x hx => ⟨h _ (List.of_mem_zip hx).1, h' _ (List.of_mem_zip hx).2⟩

theorem permChunk {delta beta gamma one t0 t1 : c.S} (hd : X.sg delta) (hb : X.sg beta) (hg : X.sg gamma) (h1 : X.sg one) (ht0 : X.sg t0)
    (ht1 : X.sg t1) (k i : ℕ) {set : PermSet c.P c.S} (hs : set.Has X.pg X.sg) {ev pe : List c.S} (hev : ∀ s ∈ ev, X.sg s) (hpe : ∀ s ∈ pe, X.sg s) :
    X.Ens (Api.permChunk c delta beta gamma one t0 t1 k i set ev pe) X.sg :=
  X.bind (deltaPow hd h1 i k) fun _ hdp => X.bind (ast ⟨ht0, hdp⟩) fun _ hd' => X.bind (permInner hd hb hg (zip_has hev hpe) hs.next hs.eval hd')
    fun _ hlr => ast ⟨⟨hlr.1, hlr.2⟩, ht1⟩

theorem permChunks {delta beta gamma one t0 t1 : c.S} (hd : X.sg delta) (hb : X.sg beta) (hg : X.sg gamma) (h1 : X.sg one) (ht0 : X.sg t0)
    (ht1 : X.sg t1) (k : ℕ) : ∀ (i : ℕ) {l : List ((PermSet c.P c.S × List c.S) × List c.S)},
    (∀ x ∈ l, (x.1.1.Has X.pg X.sg ∧ ∀ s ∈ x.1.2, X.sg s) ∧ ∀ s ∈ x.2, X.sg s) →
    X.Ens (Api.permChunks c delta beta gamma one t0 t1 k i l) fun r => ∀ s ∈ r, X.sg s
  | _, [], _ => X.pure fun s hs => absurd hs List.not_mem_nil
  | i, x :: l, h => by
    have hx := h x List.mem_cons_self
    exact X.bind (permChunk hd hb hg h1 ht0 ht1 k i hx.1.1 hx.1.2 hx.2) fun _ hr =>
      X.bind (permChunks hd hb hg h1 ht0 ht1 k (i + 1) fun y hy => h y (List.mem_cons_of_mem _ hy)) fun _ hrs => X.pure (by simpa using ⟨hr, hrs⟩)

theorem chunks_has {α : Type} {p : α → Prop} (k : ℕ) : ∀ {l : List α}, (∀ a ∈ l, p a) → ∀ ch ∈ chunks k l, ∀ a ∈ ch, p a := by
  intro l
  induction hn : l.length using Nat.strong_induction_on generalizing l with
  | _ n ih =>
    intro h ch hch a ha
    rw [chunks] at hch
    split at hch
    · cases hch
    · next hne =>
      rw [not_or] at hne
      have hpos := List.length_pos_iff.2 hne.2
      rcases List.mem_cons.1 hch with rfl | hch
      · exact h a (List.mem_of_mem_take ha)
      · exact ih _ (by rw [List.length_drop]; omega) rfl (fun a ha => h a (List.mem_of_mem_drop ha)) ch hch a ha

theorem chunksM {α : Type} {p : α → Prop} (k : ℕ) {l : List α} (h : ∀ a ∈ l, p a) : X.Ens (Api.chunksM c k l) fun r => ∀ ch ∈ r, ∀ a ∈ ch, p a := by
  unfold Api.chunksM
  split
  · exact X.panic
  · exact X.pure (chunks_has k h)

theorem append_has {α : Type} {p : α → Prop} {l l' : List α} (h : ∀ a ∈ l, p a) (h' : ∀ a ∈ l', p a) : ∀ a ∈ l ++ l', p a :=
  fun a ha => (List.mem_append.1 ha).elim (h a) (h' a)

theorem flatten_has {α : Type} {p : α → Prop} {l : List (List α)} (h : ∀ x ∈ l, ∀ a ∈ x, p a) : ∀ a ∈ l.flatten, p a := fun a ha => by
  obtain ⟨x, hx, hax⟩ := List.mem_flatten.1 ha
  exact h x hx a hax

theorem permExpressions {p : PermEval c.P c.S} (hp : p.Has X.pg X.sg) {pe : List c.S} (hpe : ∀ s ∈ pe, X.sg s)
    {l0 llast lblind delta beta gamma x one : c.S} (h0 : X.sg l0) (hl : X.sg llast) (hbl : X.sg lblind) (hd : X.sg delta) (hb : X.sg beta)
    (hg : X.sg gamma) (hx : X.sg x) (h1 : X.sg one) :
    X.Ens (Api.permExpressions c p pe l0 llast lblind delta beta gamma x one) fun r => ∀ s ∈ r, X.sg s := by
  refine X.bind (firstExpr h0 h1 fun s hs => hp.sets s (List.mem_of_mem_head? hs)) fun r1 hr1 =>
    X.bind (lastExpr hl fun s hs => hp.sets s (List.mem_of_mem_getLast? hs)) fun r2 hr2 =>
    X.bind (chainExprs h0 (zip_has (fun s hs => hp.sets s (List.mem_of_mem_drop hs)) hp.sets)) fun r3 hr3 =>
    X.bind (ast ⟨hb, hx⟩) fun t0 ht0 => X.bind (ast ⟨h1, hl, hbl⟩) fun t1 ht1 => X.bind (chunksM _ hp.evals) fun ev hev =>
    X.bind (chunksM _ hpe) fun ps hps => X.bind (permChunks hd hb hg h1 ht0 ht1 _ 0 (zip_has (zip_has hp.sets hev) hps)) fun r4 hr4 => X.pure ?_
  exact append_has (append_has (append_has hr1 hr2) hr3) hr4

theorem lookupExpressions {k : LookupEval c.P c.S} (hk : k.Has X.pg X.sg) {q : QueryEvals c.S} (hq : q.Has X.sg)
    {l0 llast lblind theta beta gamma zero one : c.S} (h0 : X.sg l0) (hl : X.sg llast) (hbl : X.sg lblind) (ht : X.sg theta) (hb : X.sg beta)
    (hg : X.sg gamma) (hz : X.sg zero) (h1 : X.sg one) :
    X.Ens (Api.lookupExpressions c k q l0 llast lblind theta beta gamma zero one) fun r => ∀ s ∈ r, X.sg s := by
  refine X.bind (ast ⟨⟨hk.productNext, hk.inputEval, hb⟩, hk.tableEval, hg⟩) fun left hleft =>
    X.bind (mapM' fun e he => chipEvaluate hq hz (hk.input e he)) fun ie hie => X.bind (mulAddAccumulate hie ht) fun i hi =>
    X.bind (mapM' fun e he => chipEvaluate hq hz (hk.table e he)) fun te hte => X.bind (mulAddAccumulate hte ht) fun t htt =>
    X.bind (ast ⟨h1, hl, hbl⟩) fun t0 ht0 => X.bind (ast ⟨hk.inputEval, hk.tableEval⟩) fun t1 ht1 =>
    X.bind (ast ⟨h0, h1, hk.productEval⟩) fun e1 he1 => X.bind (ast ⟨hl, ⟨hk.productEval, hk.productEval⟩, hk.productEval⟩) fun e2 he2 =>
    X.bind (ast ⟨⟨hleft, ⟨hk.productEval, hi, hb⟩, htt, hg⟩, ht0⟩) fun e3 he3 => X.bind (ast ⟨h0, ht1⟩) fun e4 he4 =>
    X.bind (ast ⟨⟨ht1, hk.inputEval, hk.inputInv⟩, ht0⟩) fun e5 he5 => X.pure ?_
  simp only [List.mem_cons, List.not_mem_nil, or_false, forall_eq_or_imp, forall_eq]
  exact ⟨he1, he2, he3, he4, he5⟩

structure Vanish (X : Frame c) (v : VanishEval c) : Prop where
  h : X.Schema v.h
  expectedEval : X.sg v.expectedEval
  random : X.pg v.random
  randomEval : X.sg v.randomEval

theorem vanishNew {es : List c.S} (hes : ∀ s ∈ es, X.sg s) {y xn : c.S} (hy : X.sg y) (hxn : X.sg xn) {random : c.P} (hr : X.pg random)
    {re : c.S} (hre : X.sg re) {cs : List c.P} (hcs : ∀ p ∈ cs, X.pg p) {one : c.S} (h1 : X.sg one) (key : String) :
    X.Ens (VanishEval.new c es y xn random re cs one key) X.Vanish := by
  refine X.bind (mulAddAccumulate hes hy) fun e he => X.bind (ast ⟨he, hxn, h1⟩) fun ex hex => X.bind (unwrap (reduceLeft hxn fun s hs => ?_))
    fun h hh => X.pure ⟨hh, hex, hr, hre⟩
  obtain ⟨i, hi, rfl⟩ := List.mem_mapIdx.1 hs
  exact ⟨fun p hp => by cases hp; exact hcs _ (List.mem_reverse.1 (List.getElem_mem _)), fun s hs => by cases hs⟩

theorem vanishQueries {v : VanishEval c} (h : X.Vanish v) {x : c.S} (hx : X.sg x) : ∀ q ∈ v.queries c x, X.Query q := by
  intro q hq
  unfold VanishEval.queries at hq
  rcases List.mem_cons.1 hq with rfl | hq
  · exact ⟨hx, schema_add h.h h.expectedEval⟩
  · rw [List.mem_singleton] at hq
    exact hq ▸ query_mk hx h.random h.randomEval

/-! ### The queries -/

section Queries
variable [Field F] {p : Params c.P c.S} (hp : p.Has X.pg X.sg)
include hp

omit hp in
theorem rotateBase (omega : F) (at' : ℤ) : X.Ens (Api.rotateBase c omega at') fun _ => True := by
  unfold Api.rotateBase
  split
  · split
    · exact X.panic
    · exact X.pure trivial
  · exact X.pure trivial

theorem xRotateOmega (at' : ℤ) : X.Ens (Api.xRotateOmega c p at') X.sg :=
  X.bind (X.toValue hp.omega) fun _ _ => X.bind (rotateBase _ _) fun _ _ => X.sumWithCoeff fun x hx => by
    rw [List.mem_singleton] at hx
    exact hx ▸ hp.x

theorem columnQuery (key : ℕ → String) {cs : List c.P} (hcs : ∀ q ∈ cs, X.pg q) {es : List c.S} (hes : ∀ s ∈ es, X.sg s) (q : (ℕ × ℤ) × ℕ) :
    X.Ens (Api.columnQuery c p key cs es q) X.Query :=
  X.bind (xRotateOmega hp _) fun _ h1 => X.bind (index hcs _) fun _ h2 => X.bind (index hes _) fun _ h3 => X.pure (query_mk h1 h2 h3)

theorem permCommonQueries : ∀ q ∈ Api.permCommonQueries c p, X.Query q := by
  intro q hq
  obtain ⟨i, hi, rfl⟩ := List.mem_mapIdx.1 hq
  have h := zip_has hp.permutationCommitments hp.permutationEvals _ (List.getElem_mem hi)
  exact query_mk hp.x h.1 h.2

omit hp [Field F] in
theorem permQueries {q : PermEval c.P c.S} (hq : q.Has X.pg X.sg) {xNext xLast : c.S} (hn : X.sg xNext) (hl : X.sg xLast) :
    X.Ens (Api.permQueries c q xNext xLast) fun r => ∀ q ∈ r, X.Query q := by
  have hz : ∀ s ∈ q.sets.zipIdx, s.1.Has X.pg X.sg := fun s hs => hq.sets _ (List.fst_mem_of_mem_zipIdx hs)
  refine X.bind (mapM' (Q := X.Query) fun s hs => ?_) fun last hlast => X.pure (append_has ?_ hlast)
  · have h := hz s (List.mem_reverse.1 (List.mem_of_mem_drop hs))
    exact X.bind (unwrap h.last) fun _ h1 => X.pure (query_mk hl h.commitment h1)
  · intro e he
    obtain ⟨s, hs, he⟩ := List.mem_flatMap.1 he
    have h := hz s hs
    simp only [List.mem_cons, List.not_mem_nil, or_false] at he
    rcases he with rfl | rfl
    · exact query_mk hq.x h.commitment h.eval
    · exact query_mk hn h.commitment h.next

omit hp [Field F] in
theorem lookupQueries {x xInv xNext : c.S} (hx : X.sg x) (hi : X.sg xInv) (hn : X.sg xNext) {k : LookupEval c.P c.S} (hk : k.Has X.pg X.sg) :
    ∀ q ∈ Api.lookupQueries c x xInv xNext k, X.Query q := by
  intro q hq
  unfold Api.lookupQueries at hq
  simp only [List.mem_cons, List.not_mem_nil, or_false] at hq
  rcases hq with rfl | rfl | rfl | rfl | rfl
  · exact query_mk hx hk.product hk.productEval
  · exact query_mk hx hk.permutedInput hk.inputEval
  · exact query_mk hx hk.permutedTable hk.tableEval
  · exact query_mk hi hk.permutedInput hk.inputInv
  · exact query_mk hn hk.product hk.productNext

omit [Field F] in
theorem proofExpressions {l0 llast lblind : c.S} (h0 : X.sg l0) (hl : X.sg llast) (hb : X.sg lblind) (k : ℕ) :
    X.Ens (Api.proofExpressions c p l0 llast lblind k) fun r => ∀ s ∈ r, X.sg s := by
  refine X.bind (index hp.adviceEvals k) fun ae hae => X.bind (index hp.instanceEvals k) fun ie hie => X.bind (index hp.perms k) fun pm hpm =>
    X.bind (index hp.lookups k) fun ls hls => ?_
  have hq : (⟨p.fixedEvals, ae, ie, p.challenges⟩ : QueryEvals c.S).Has X.sg := ⟨hp.fixedEvals, hae, hie, hp.challenges⟩
  refine X.bind (mapM' fun e he => chipEvaluate hq hp.zero (flatten_has hp.gates e he)) fun gs hgs =>
    X.bind (permExpressions hpm hp.permutationEvals h0 hl hb hp.delta hp.beta hp.gamma hp.x hp.one) fun ps hps =>
    X.bind (mapM' fun k hk => lookupExpressions (hls k hk) hq h0 hl hb hp.theta hp.beta hp.gamma hp.zero hp.one) fun rs hrs => X.pure ?_
  exact append_has (append_has hgs hps) (flatten_has hrs)

theorem proofQueries (i : ℕ) : X.Ens (Api.proofQueries c p i) fun r => ∀ q ∈ r, X.Query q := by
  refine X.bind (index hp.instanceCommitments i) fun ic hic => X.bind (index hp.instanceEvals i) fun ie hie =>
    X.bind (index hp.adviceCommitments i) fun ac hac => X.bind (index hp.adviceEvals i) fun ae hae => X.bind (index hp.perms i) fun pm hpm =>
    X.bind (index hp.lookups i) fun ls hls => X.bind (mapM' fun q _ => columnQuery hp _ hic hie q) fun q1 h1 =>
    X.bind (mapM' fun q _ => columnQuery hp _ hac hae q) fun q2 h2 => X.bind (permQueries hpm hp.xNext hp.xLast) fun q3 h3 => X.pure ?_
  refine append_has (append_has (append_has h1 h2) h3) fun q hq => ?_
  obtain ⟨k, hk, hq⟩ := List.mem_flatMap.1 hq
  exact lookupQueries hp.x hp.xInv hp.xNext (hls k hk) q hq

theorem queries : X.Ens (Api.queries c p) fun r => ∀ q ∈ r, X.Query q := by
  refine X.bind (lagrangeCommits hp.omega hp.n hp.x hp.xn hp.one p.l) fun ls hls => X.bind (index hls 0) fun l0 h0 =>
    X.bind (index hls p.l) fun ll hll => X.bind (Q := fun r => ∀ s ∈ r, X.sg s) ?_ fun mid hmid => X.bind (sumWithConstant hmid) fun lb hlb =>
    X.bind (mapM' fun k _ => proofExpressions hp h0 hll hlb k) fun es hes => X.bind (mapM' fun i _ => proofQueries hp i) fun qs hqs =>
    X.bind (mapM' fun q _ => columnQuery hp _ hp.fixedCommitments hp.fixedEvals q) fun fs hfs =>
    X.bind (vanishNew (flatten_has hes) hp.y hp.xn hp.randomCommitment hp.randomEval hp.vanishCommitments hp.one p.key) fun v hv => X.pure ?_
  · unfold Api.slice1
    split
    · exact X.panic
    · exact X.pure fun s hs => hls s (List.mem_of_mem_take (List.mem_of_mem_drop hs))
  · exact append_has (append_has (append_has (flatten_has hqs) hfs) (permCommonQueries hp)) (vanishQueries hv hp.x)

theorem openParams : X.Ens (Api.openParams p) X.Open :=
  X.bind (queries hp) fun _ hqs => batchMultiOpen hp.u hp.v hp.w hqs

end Queries

/-! ### Instances -/

theorem columnAcc [AddCommGroup G] (vk : VK F G) : ∀ {l : List c.S} (i : ℕ) {acc : Option c.P}, (∀ s ∈ l, X.sg s) → (∀ p ∈ acc, X.pg p) →
    X.Ens (Api.columnAcc vk i l acc) fun r => ∀ p ∈ r, X.pg p
  | [], _, _, _, h => X.pure h
  | s :: l, i, acc, hl, h => by
    have hl' : ∀ s ∈ l, X.sg s := fun s hs => hl s (List.mem_cons_of_mem _ hs)
    refine X.bind (index (Q := fun _ => True) (fun _ _ => trivial) i) fun g _ => X.bind (X.scalarMulConstant g (hl s List.mem_cons_self)) fun ls hls => ?_
    cases acc with
    | none => exact columnAcc vk (i + 1) hl' fun p hp => by cases hp; exact hls
    | some a => exact X.bind (X.pAdd (h a rfl) hls) fun a ha => columnAcc vk (i + 1) hl' fun p hp => by cases hp; exact ha

theorem columnCommitment [AddCommGroup G] (vk : VK F G) {l : List c.S} (hl : ∀ s ∈ l, X.sg s) : X.Ens (Api.columnCommitment vk l) X.pg := by
  refine X.bind (columnAcc vk 0 hl nofun) fun r hr => ?_
  cases r with
  | none => exact X.pAssignConst 0
  | some a => exact X.normalize (hr a rfl)

end Frame

/-! ### Reading -/

namespace Reading
variable {c : Chip F G} {X : Frame c} {T : Transcript c} (R : Reading X T) (d : Codec F G)

variable {R}

theorem readPoint : R.Ens (Rd.readPoint d) X.pg :=
  R.bind (R.nextPoint d) fun o _ => by
    cases o with
    | none => exact R.fail
    | some P => exact R.acceptPoint P

theorem readScalar : R.Ens (Rd.readScalar d) X.sg :=
  R.bind (R.nextScalar d) fun o _ => by
    cases o with
    | none => exact R.fail
    | some P => exact R.acceptScalar P

theorem times {α : Type} {x : Rd T α} {Q : α → Prop} (h : R.Ens x Q) : ∀ n, R.Ens (Rd.times x n) fun r => ∀ a ∈ r, Q a
  | 0 => R.ret fun a ha => absurd ha List.not_mem_nil
  | n + 1 => R.bind h fun _ ha => R.bind (times h n) fun _ hl => R.ret (by simpa using ⟨ha, hl⟩)

theorem each {α β : Type} {f : α → Rd T β} {Q : β → Prop} : ∀ {l : List α}, (∀ a ∈ l, R.Ens (f a) Q) → R.Ens (Rd.each f l) fun r => ∀ b ∈ r, Q b
  | [], _ => R.ret fun a ha => absurd ha List.not_mem_nil
  | a :: l, h => R.bind (h a List.mem_cons_self) fun _ hb => R.bind (each fun a' ha' => h a' (List.mem_cons_of_mem _ ha')) fun _ hbs =>
      R.ret (by simpa using ⟨hb, hbs⟩)

theorem readAll : ∀ n, R.Ens (Rd.readAll d n) fun r => ∀ p ∈ r, X.pg p
  | 0 => R.ret fun a ha => absurd ha List.not_mem_nil
  | n + 1 => R.bind (R.nextPoint d) fun o _ => by
      cases o with
      | none => exact R.ret fun a ha => absurd ha List.not_mem_nil
      | some P => exact R.bind (R.acceptPoint P) fun _ hp => R.bind (readAll n) fun _ hl => R.ret (by simpa using ⟨hp, hl⟩)

theorem readW : R.Ens (Api.readW d) fun r => ∀ p ∈ r, X.pg p := R.sized fun n => readAll d n

theorem adviceRow (cur : ℕ) : ∀ (phs : List ℕ) {row : List (Option c.P)}, (∀ o ∈ row, ∀ p ∈ o, X.pg p) →
    R.Ens (Api.adviceRow d cur phs row) fun r => ∀ o ∈ r, ∀ p ∈ o, X.pg p
  | [], row, h => by
    unfold Api.adviceRow
    exact R.ret h
  | _ :: _, [], h => by
    unfold Api.adviceRow
    exact R.ret h
  | ph :: phs, o :: row, h => by
    have h' : ∀ o ∈ row, ∀ p ∈ o, X.pg p := fun o ho => h o (List.mem_cons_of_mem _ ho)
    unfold Api.adviceRow
    split
    · refine R.bind (readPoint d) fun p hp => R.bind (adviceRow cur phs h') fun r hr => R.ret ?_
      simp only [List.mem_cons, forall_eq_or_imp]
      exact ⟨fun q hq => by cases hq; exact hp, hr⟩
    · refine R.bind (adviceRow cur phs h') fun r hr => R.ret ?_
      simp only [List.mem_cons, forall_eq_or_imp]
      exact ⟨h o List.mem_cons_self, hr⟩

theorem challengeRow (cur : ℕ) : ∀ (phs : List ℕ) {row : List c.S}, (∀ s ∈ row, X.sg s) →
    R.Ens (Api.challengeRow cur phs row) fun r => ∀ s ∈ r, X.sg s
  | [], row, h => by
    unfold Api.challengeRow
    exact R.ret h
  | _ :: _, [], h => by
    unfold Api.challengeRow
    exact R.ret h
  | ph :: phs, o :: row, h => by
    have h' : ∀ s ∈ row, X.sg s := fun o ho => h o (List.mem_cons_of_mem _ ho)
    unfold Api.challengeRow
    split
    · exact R.bind R.squeeze fun p hp => R.bind (challengeRow cur phs h') fun r hr => R.ret (by simpa using ⟨hp, hr⟩)
    · exact R.bind (challengeRow cur phs h') fun r hr => R.ret (by simpa using ⟨h o List.mem_cons_self, hr⟩)

theorem phaseLoop (vk : VK F G) : ∀ (phs : List ℕ) {table : List (List (Option c.P))} {chs : List c.S},
    (∀ r ∈ table, ∀ o ∈ r, ∀ p ∈ o, X.pg p) → (∀ s ∈ chs, X.sg s) →
    R.Ens (Api.phaseLoop d vk phs table chs) fun r => (∀ row ∈ r.1, ∀ o ∈ row, ∀ p ∈ o, X.pg p) ∧ ∀ s ∈ r.2, X.sg s
  | [], _, _, h1, h2 => R.ret ⟨h1, h2⟩
  | cur :: phs, _, _, h1, h2 => R.bind (each fun r hr => adviceRow d cur vk.advicePhase (h1 r hr)) fun _ ht =>
      R.bind (challengeRow cur vk.challengePhase h2) fun _ hc => phaseLoop vk phs ht hc

theorem readSets : ∀ {l : List c.P}, (∀ p ∈ l, X.pg p) → R.Ens (Api.readSets d l) fun r => ∀ s ∈ r, s.Has X.pg X.sg
  | [], _ => R.ret fun a ha => absurd ha List.not_mem_nil
  | p :: l, h => by
    refine R.bind (readScalar d) fun e he => R.bind (readScalar d) fun n hn => R.bind (Q := fun o => ∀ s ∈ o, X.sg s) ?_ fun o ho =>
      R.bind (readSets fun q hq => h q (List.mem_cons_of_mem _ hq)) fun sets hs => R.ret ?_
    · unfold Api.readLast
      split
      · exact R.bind (readScalar d) fun s hs => R.ret fun s' hs' => by cases hs'; exact hs
      · exact R.ret nofun
    · simp only [List.mem_cons, forall_eq_or_imp]
      exact ⟨⟨h p List.mem_cons_self, he, hn, ho⟩, hs⟩

theorem columnEval {vk : VK F G} {advice inst fixed : List c.S} (ha : ∀ s ∈ advice, X.sg s) (hi : ∀ s ∈ inst, X.sg s) (hf : ∀ s ∈ fixed, X.sg s)
    (col : ColKind × ℕ) : X.Ens (Api.columnEval vk advice inst fixed col) X.sg := by
  unfold Api.columnEval
  split
  · exact X.bind (Frame.unwrap (Q := fun _ => True) fun _ _ => trivial) fun i _ => Frame.index ha i
  · exact X.bind (Frame.unwrap (Q := fun _ => True) fun _ _ => trivial) fun i _ => Frame.index hf i
  · exact X.bind (Frame.unwrap (Q := fun _ => True) fun _ _ => trivial) fun i _ => Frame.index hi i

theorem columnEvals {vk : VK F G} {fixed : List c.S} (hf : ∀ s ∈ fixed, X.sg s) {e : List c.S × List c.S} (he : (∀ s ∈ e.1, X.sg s) ∧ ∀ s ∈ e.2, X.sg s) :
    X.Ens (Api.columnEvals vk fixed e) fun r => ∀ s ∈ r, X.sg s :=
  X.bind (Frame.chunksM (p := fun _ => True) _ fun _ _ => trivial) fun _ _ =>
    X.bind (Frame.mapM' fun _ _ => Frame.mapM' fun col _ => columnEval he.1 he.2 hf col) fun _ hr => X.pure (Frame.flatten_has hr)

theorem buildPermutation (vk : VK F G) {x : c.S} (hx : X.sg x) {committed : List (List c.P)} (hc : ∀ l ∈ committed, ∀ p ∈ l, X.pg p)
    {advice inst : List (List c.S)} (ha : ∀ l ∈ advice, ∀ s ∈ l, X.sg s) (hi : ∀ l ∈ inst, ∀ s ∈ l, X.sg s) {fixed : List c.S}
    (hf : ∀ s ∈ fixed, X.sg s) (key : String) :
    R.Ens (Api.buildPermutation d vk x committed advice inst fixed key) fun r => ∀ q ∈ r, q.Has X.pg X.sg := by
  refine R.bind (each fun l hl => readSets d (hc l hl)) fun sets hsets =>
    R.bind (R.lift (Frame.mapM' fun e he => columnEvals hf (Frame.zip_has ha hi e he))) fun evals hev => R.ret fun q hq => ?_
  obtain ⟨i, hi, rfl⟩ := List.mem_mapIdx.1 hq
  have h := Frame.zip_has hsets hev _ (List.getElem_mem hi)
  exact ⟨hx, h.1, h.2⟩

theorem readLookup (key : String) (i : ℕ) {q : (((c.P × c.P) × c.P) × (List (Expr F) × List (Expr F))) × ℕ}
    (hq : X.pg q.1.1.1.1 ∧ X.pg q.1.1.1.2 ∧ X.pg q.1.1.2) : R.Ens (Api.readLookup d key i q) fun r => r.Has X.pg X.sg := by
  refine R.bind (readScalar d) fun _ h1 => R.bind (readScalar d) fun _ h2 => R.bind (readScalar d) fun _ h3 => R.bind (readScalar d) fun _ h4 =>
    R.bind (readScalar d) fun _ h5 => R.bind (R.lift (Frame.mapM' fun e _ => Frame.convertExpression e)) fun _ h6 =>
    R.bind (R.lift (Frame.mapM' fun e _ => Frame.convertExpression e)) fun _ h7 => R.ret ?_
  exact ⟨h6, h7, hq.1, hq.2.1, hq.2.2, h1, h2, h3, h4, h5⟩

theorem buildLookup (vk : VK F G) {permuted : List (List (c.P × c.P))} (hp : ∀ l ∈ permuted, ∀ q ∈ l, X.pg q.1 ∧ X.pg q.2)
    {committed : List (List c.P)} (hc : ∀ l ∈ committed, ∀ p ∈ l, X.pg p) (key : String) :
    R.Ens (Api.buildLookup d vk permuted committed key) fun r => ∀ l ∈ r, ∀ k ∈ l, k.Has X.pg X.sg := by
  refine each fun q hq => each fun e he => readLookup d key q.2 ?_
  have h := Frame.zip_has hp hc _ (List.fst_mem_of_mem_zipIdx hq)
  have h2 := Frame.zip_has h.1 h.2 _ (List.of_mem_zip (List.fst_mem_of_mem_zipIdx he)).1
  exact ⟨h2.1.1, h2.1.2, h2.2⟩

section
variable [Field F]

theorem rotateOmega {x : c.S} (hx : X.sg x) (omega : F) (at' : ℤ) : X.Ens (Api.rotateOmega x omega at') X.sg :=
  X.bind (Frame.rotateBase _ _) fun _ _ => X.sumWithCoeff fun y hy => by
    rw [List.mem_singleton] at hy
    exact hy ▸ hx

theorem buildParams (vk : VK F G) {ics : List (List c.P)} (hics : ∀ l ∈ ics, ∀ p ∈ l, X.pg p) (key : String) :
    R.Ens (Api.buildParams d vk ics key) fun r => r.Has X.pg X.sg := by
  refine R.bind (R.bind (R.lift (X.assignConst vk.digest)) fun _ hk => R.commonScalar hk) fun _ _ =>
    R.bind (Q := fun _ => True) (R.bind (each (Q := fun _ => True) fun l hl => R.mono (each (Q := fun _ => True) fun p hp => R.commonPoint (hics l hl p hp)) fun _ _ => trivial)
      fun _ _ => R.ret trivial) fun _ _ =>
    R.bind (R.lift (X.assignConst 0)) fun zero0 hz0 =>
    R.bind (phaseLoop d vk vk.phases ?_ ?_) fun r hr =>
    R.bind (R.lift (Frame.mapM' fun l hl => Frame.mapM' fun o ho => Frame.unwrap (hr.1 l hl o ho))) fun advice hadvice =>
    R.bind R.squeeze fun theta htheta =>
    R.bind (times (Q := fun l : List (c.P × c.P) => ∀ q ∈ l, X.pg q.1 ∧ X.pg q.2)
      (times (Q := fun q : c.P × c.P => X.pg q.1 ∧ X.pg q.2) (R.bind (readPoint d) fun _ h1 => R.bind (readPoint d) fun _ h2 => R.ret ⟨h1, h2⟩) _) _) fun permuted hpermuted =>
    R.bind R.squeeze fun beta hbeta => R.bind R.squeeze fun gamma hgamma =>
    R.bind (R.lift (Frame.chunksM (p := fun _ => True) _ fun _ _ => trivial)) fun ch _ =>
    R.bind (times (times (readPoint d) _) _) fun permCommitted hpc =>
    R.bind (each fun _ _ => each fun _ _ => readPoint d) fun lookupCommitted hlc =>
    R.bind (readPoint d) fun random hrandom => R.bind R.squeeze fun y hy => R.bind (times (readPoint d) _) fun h hh =>
    R.bind R.squeeze fun x hx => R.bind (times (times (readScalar d) _) _) fun ie hie => R.bind (times (times (readScalar d) _) _) fun ae hae =>
    R.bind (times (readScalar d) _) fun fe hfe => R.bind (readScalar d) fun re hre => R.bind (times (readScalar d) _) fun pe hpe =>
    R.bind (buildPermutation d vk hx hpc hae hie hfe key) fun perms hperms => R.bind (buildLookup d vk hpermuted hlc key) fun lookups hlookups =>
    R.bind (R.lift (Frame.mapM' fun P _ => X.pAssignConst P)) fun fc hfc => R.bind R.squeeze fun v hv => R.bind (readW d) fun w hw =>
    R.bind R.squeeze fun u hu => R.bind (R.lift (rotateOmega hx _ _)) fun _ hxn => R.bind (R.lift (rotateOmega hx _ _)) fun _ hxl =>
    R.bind (R.lift (rotateOmega hx _ _)) fun _ hxi => R.bind (R.lift (Frame.powConst hx _)) fun _ hxnn =>
    R.bind (R.lift (Frame.mapM' fun _ _ => Frame.mapM' fun e _ => Frame.convertExpression e)) fun _ hgates =>
    R.bind (R.lift (Frame.mapM' fun P _ => X.pAssignConst P)) fun _ hpcs => R.bind (R.lift (X.assignConst _)) fun _ hdelta =>
    R.bind (R.lift (X.assignConst _)) fun _ homega => R.bind (R.lift (X.assignConst _)) fun _ hzero =>
    R.bind (R.lift (X.assignConst _)) fun _ hone => R.bind (R.lift (X.assignConst _)) fun _ hn => R.ret ?_
  · intro l hl o ho p hp
    obtain ⟨a, -, rfl⟩ := List.mem_map.1 hl
    obtain ⟨b, -, rfl⟩ := List.mem_map.1 ho
    cases hp
  · intro s hs
    obtain ⟨a, -, rfl⟩ := List.mem_map.1 hs
    exact hz0
  · exact ⟨hgates, hlookups, hperms, hics, hie, hr.2, hadvice, hae, hfc, hfe, hpcs, hpe, hh, hrandom, hw, hre, hbeta, hgamma, htheta, hdelta,
      hx, hxn, hxl, hxi, hxnn, hy, hu, hv, homega, hzero, hone, hn⟩

theorem verifyNoEval [AddCommGroup G] (vk : VK F G) {ics : List (List c.P)} (hics : ∀ l ∈ ics, ∀ p ∈ l, X.pg p) (key : String) :
    R.Ens (Api.verifyNoEval d vk ics key) fun r => X.Open r.1 ∧ ∀ p ∈ r.2, X.pg p :=
  R.bind (buildParams d vk hics key) fun _ hp => R.bind (R.lift (Frame.openParams hp)) fun _ ho =>
    R.bind (R.lift (Frame.index hp.adviceCommitments 0)) fun _ ha => R.ret ⟨ho, ha⟩

end

end Reading
end Verif.Api
