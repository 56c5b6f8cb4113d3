import Verif.Api.Link

/-!
# Linked chips run the verifier alike

For every function of the generic verifier: on related inputs, if the first chip's run returns then so does the second's, with related
results.
-/

namespace Verif.Api
namespace Link

variable {F G G' : Type} {c : Chip F G} {c' : Chip F G'} {φ : G → G'} {X : Link c c' φ}

/-- Run the first steps of both sides, which are related by `t`, and go on at the stage reached. -/
macro "bnd " t:term " with " a:ident b:ident h:ident : tactic =>
  `(tactic| (refine Link.bind _ $t fun _ $a $b hw => ?_; up hw; clear hw; intro $h:ident))

instance {P : X.W → Prop} : Up X.le fun w => ∀ w', X.le w w' → P w' := ⟨fun h p w' h' => p w' (X.trans h h')⟩

/-! ### Scalars -/

theorem index {w : X.W} {α α' : Type} {Q : X.W → α → α' → Prop} {l : List α} {l' : List α'} (h : List.Forall₂ (Q w) l l') (i : ℕ) :
    X.R w (Api.index c l i) (Api.index c' l' i) Q := by
  unfold Api.index
  have := rel_getElem? h i
  revert this
  cases l[i]? with
  | none => exact fun _ => X.panic
  | some a =>
    intro h
    generalize l'[i]? = o at h
    cases h with
    | some h => exact X.pure h

theorem indexSame {w : X.W} {α : Type} (l : List α) (i : ℕ) : X.R w (Api.index c l i) (Api.index c' l i) fun _ a b => a = b :=
  index (Q := fun _ a b => a = b) (by
    induction l with
    | nil => exact .nil
    | cons a l ih => exact .cons rfl ih) i

theorem unwrap {w : X.W} {α α' : Type} {Q : X.W → α → α' → Prop} {o : Option α} {o' : Option α'} (h : Option.Rel (Q w) o o') :
    X.R w (Api.unwrap c o) (Api.unwrap c' o') Q := by
  cases h with
  | none => exact X.panic
  | some h => exact X.pure h

theorem mapM' {α α' β β' : Type} {A : X.W → α → α' → Prop} [∀ a b, Up X.le fun w => A w a b] {Q : X.W → β → β' → Prop}
    [∀ a b, Up X.le fun w => Q w a b] {f : α → c.m β} {f' : α' → c'.m β'} : ∀ {w : X.W} {l : List α} {l' : List α'}, List.Forall₂ (A w) l l' →
    (∀ w', X.le w w' → ∀ a a', A w' a a' → X.R w' (f a) (f' a') Q) → X.R w (Api.mapM' c f l) (Api.mapM' c' f' l') fun w => List.Forall₂ (Q w) := by
  intro w l
  induction l generalizing w with
  | nil =>
    intro l' hl h
    cases hl
    exact X.pure .nil
  | cons a l ih =>
    intro l' hl h
    cases hl with
    | cons ha hl =>
      bnd h _ (X.refl _) _ _ ha with b b' hb
      bnd ih hl h with bs bs' hbs
      exact X.pure (.cons hb hbs)

theorem mapMSame {α β β' : Type} {Q : X.W → β → β' → Prop} [∀ a b, Up X.le fun w => Q w a b] {f : α → c.m β} {f' : α → c'.m β'} {w : X.W} (l : List α)
    (h : ∀ w', X.le w w' → ∀ a, X.R w' (f a) (f' a) Q) : X.R w (Api.mapM' c f l) (Api.mapM' c' f' l) fun w => List.Forall₂ (Q w) :=
  mapM' (A := fun _ a b => a = b) (by
    induction l with
    | nil => exact .nil
    | cons a l ih => exact .cons rfl ih) fun w' hw a a' ha => ha ▸ h w' hw a

theorem mapMImage {α α' β β' : Type} {Q : X.W → β → β' → Prop} [∀ a b, Up X.le fun w => Q w a b] {f : α → c.m β} {f' : α' → c'.m β'} {w : X.W}
    (g : α → α') (l : List α) (h : ∀ w', X.le w w' → ∀ a, X.R w' (f a) (f' (g a)) Q) :
    X.R w (Api.mapM' c f l) (Api.mapM' c' f' (l.map g)) fun w => List.Forall₂ (Q w) :=
  mapM' (A := fun _ a b => b = g a) (by
    induction l with
    | nil => exact .nil
    | cons a l ih => exact .cons rfl ih) fun w' hw a a' ha => ha ▸ h w' hw a

theorem sumWithConstant [One F] {w : X.W} {l : List c.S} {l' : List c'.S} {b : F} (h : List.Forall₂ (X.s w) l l') :
    X.R w (Api.sumWithConstant c l b) (Api.sumWithConstant c' l' b) X.s :=
  X.sumWithCoeff (rel_map (fun _ _ h => ⟨h, rfl⟩) h)

theorem mulAdd {w : X.W} {a b d : c.S} {a' b' d' : c'.S} (ha : X.s w a a') (hb : X.s w b b') (hd : X.s w d d') :
    X.R w (Api.mulAdd c a b d) (Api.mulAdd c' a' b' d') X.s := by
  bnd X.mul ha hb with t t' ht
  exact X.add ht hd

theorem accLoop {l : List c.S} {b : c.S} {b' : c'.S} : ∀ {w : X.W} {l' : List c'.S} {acc : c.S} {acc' : c'.S}, X.s w b b' →
    List.Forall₂ (X.s w) l l' → X.s w acc acc' → X.R w (Api.accLoop c b l acc) (Api.accLoop c' b' l' acc') X.s := by
  induction l with
  | nil =>
    intro w l' acc acc' hb hl ha
    cases hl
    exact X.pure ha
  | cons v l ih =>
    intro w l' acc acc' hb hl ha
    cases hl with
    | cons hv hl =>
      bnd mulAdd ha hb hv with r r' hr
      exact ih hb hl hr

theorem mulAddAccumulate {w : X.W} {l : List c.S} {l' : List c'.S} {b : c.S} {b' : c'.S} (hl : List.Forall₂ (X.s w) l l') (hb : X.s w b b') :
    X.R w (Api.mulAddAccumulate c l b) (Api.mulAddAccumulate c' l' b') X.s := by
  bnd X.assignZero with z z' hz
  exact accLoop hb hl hz

theorem powLoop {base : c.S} {base' : c'.S} (e : ℕ) (b : ℕ) : ∀ {w : X.W} {acc : c.S} {acc' : c'.S}, X.s w base base' → X.s w acc acc' →
    X.R w (Api.powLoop c base e b acc) (Api.powLoop c' base' e b acc') X.s := by
  induction b using Nat.strong_induction_on with
  | _ b ih =>
    intro w acc acc' hb ha
    rw [Api.powLoop.eq_def c, Api.powLoop.eq_def c']
    by_cases hpos : 0 < b
    · rw [dif_pos hpos, dif_pos hpos]
      bnd X.square ha with a a' ha
      have hlt : b / 2 < b := Nat.div_lt_self hpos (by omega)
      by_cases he : e / b % 2 ≠ 0
      · rw [if_pos he, if_pos he]
        bnd X.mul ha hb with a a' ha
        exact ih _ hlt hb ha
      · rw [if_neg he, if_neg he]
        exact ih _ hlt hb ha
    · rw [dif_neg hpos, dif_neg hpos]
      exact X.pure ha

theorem powConst {w : X.W} {base : c.S} {base' : c'.S} (hb : X.s w base base') (e : ℕ) : X.R w (Api.powConst c base e) (Api.powConst c' base' e) X.s := by
  unfold Api.powConst Api.powConstant
  by_cases h : 1 ≤ e
  · rw [if_pos h, if_pos h]
    cases findTop e 32 1 with
    | none => exact X.panic
    | some b => exact powLoop e _ hb hb
  · rw [if_neg h, if_neg h]
    exact X.panic

theorem ast : ∀ {a : Api.Ast c.S} {w : X.W} {a' : Api.Ast c'.S}, X.Ast w a a' → X.R w (Ast.eval c a) (Ast.eval c' a') X.s := by
  intro a
  induction a with
  | value v =>
    intro w a' h
    cases h with
    | value h => exact X.pure h
  | add a b iha ihb =>
    intro w a' h
    cases h with
    | add ha hb =>
      have hb : X.Ast w _ _ := hb
      bnd iha ha with x x' hx
      bnd ihb hb with y y' hy
      exact X.add hx hy
  | sub a b iha ihb =>
    intro w a' h
    cases h with
    | sub ha hb =>
      have hb : X.Ast w _ _ := hb
      bnd iha ha with x x' hx
      bnd ihb hb with y y' hy
      exact X.sub hx hy
  | mul a b iha ihb =>
    intro w a' h
    cases h with
    | mul ha hb =>
      have hb : X.Ast w _ _ := hb
      bnd iha ha with x x' hx
      bnd ihb hb with y y' hy
      exact X.mul hx hy
  | div a b iha ihb =>
    intro w a' h
    cases h with
    | div ha hb =>
      have hb : X.Ast w _ _ := hb
      bnd iha ha with x x' hx
      bnd ihb hb with y y' hy
      exact X.div hx hy

theorem chipEvaluate {q : QueryEvals c.S} {q' : QueryEvals c'.S} {zero : c.S} {zero' : c'.S} : ∀ {e : Api.Expr c.S} {w : X.W} {e' : Api.Expr c'.S},
    X.Evals w q q' → X.s w zero zero' → X.Expr w e e' → X.R w (Api.chipEvaluate c q zero e) (Api.chipEvaluate c' q' zero' e') X.s := by
  intro e
  induction e with
  | constant k =>
    intro w e' hq hz h
    cases h with
    | constant h => exact X.pure h
  | selector i =>
    intro w e' hq hz h
    exact X.panic
  | fixed i =>
    intro w e' hq hz h
    cases h
    exact index hq.fixed i
  | advice i =>
    intro w e' hq hz h
    cases h
    exact index hq.advice i
  | «instance» i =>
    intro w e' hq hz h
    cases h
    exact index hq.inst i
  | challenge i =>
    intro w e' hq hz h
    cases h
    exact index hq.challenges i
  | negated a ih =>
    intro w e' hq hz h
    cases h with
    | negated h =>
      bnd ih hq hz h with x x' hx
      exact ast (.sub (.value hz) (.value hx))
  | sum a b iha ihb =>
    intro w e' hq hz h
    cases h with
    | sum ha hb =>
      have hb : X.Expr w _ _ := hb
      bnd iha hq hz ha with x x' hx
      bnd ihb hq hz hb with y y' hy
      exact ast (.add (.value hx) (.value hy))
  | product a b iha ihb =>
    intro w e' hq hz h
    cases h with
    | product ha hb =>
      have hb : X.Expr w _ _ := hb
      bnd iha hq hz ha with x x' hx
      bnd ihb hq hz hb with y y' hy
      exact ast (.mul (.value hx) (.value hy))
  | scaled a f ih =>
    intro w e' hq hz h
    cases h with
    | scaled ha hf =>
      bnd ih hq hz ha with x x' hx
      exact ast (.mul (.value hf) (.value hx))

theorem convertExpression : ∀ (e : Api.Expr F) {w : X.W}, X.R w (Api.convertExpression c e) (Api.convertExpression c' e) X.Expr := by
  intro e
  induction e with
  | constant k =>
    intro w
    bnd X.assignConst k with x x' hx
    exact X.pure (.constant (X.known_s hx))
  | selector i => exact X.pure .selector
  | fixed i => exact X.pure .fixed
  | advice i => exact X.pure .advice
  | «instance» i => exact X.pure .instance
  | challenge i => exact X.pure .challenge
  | negated a ih =>
    intro w
    bnd ih with x x' hx
    exact X.pure (.negated hx)
  | sum a b iha ihb =>
    intro w
    bnd iha with x x' hx
    bnd ihb with y y' hy
    exact X.pure (.sum hx hy)
  | product a b iha ihb =>
    intro w
    bnd iha with x x' hx
    bnd ihb with y y' hy
    exact X.pure (.product hx hy)
  | scaled a f ih =>
    intro w
    bnd ih with x x' hx
    bnd X.assignConst f with y y' hy
    exact X.pure (.scaled hx (X.known_s hy))

/-! ### Schemas -/

theorem getD {w : X.W} {one : c.S} {one' : c'.S} (h1 : X.s w one one') {o : Option c.S} {o' : Option c'.S} (h : Option.Rel (X.s w) o o') :
    X.s w (o.getD one) (o'.getD one') := by
  cases h with
  | none => exact h1
  | some h => exact h

theorem mergeOne {one : c.S} {one' : c'.S} {e : Api.Entry c} {e' : Api.Entry c'} : ∀ {l : List (Api.Entry c)} {w : X.W} {l' : List (Api.Entry c')},
    X.s w one one' → X.Entry w e e' → List.Forall₂ (X.Entry w) l l' →
    X.R w (Api.mergeOne c one e l) (Api.mergeOne c' one' e' l') fun w => List.Forall₂ (X.Entry w) := by
  intro l
  induction l with
  | nil =>
    intro w l' h1 he hl
    cases hl
    exact X.pure (.cons he .nil)
  | cons q l ih =>
    intro w l' h1 he hl
    cases hl with
    | cons hq hl =>
      unfold Api.mergeOne
      by_cases h : q.1 = e.1
      · rw [if_pos h, if_pos (by rw [← hq.key, ← he.key, h])]
        bnd X.add (getD h1 hq.coef) (getD h1 he.coef) with s s' hs
        exact X.pure (.cons ⟨hq.key, hq.point, .some hs⟩ hl)
      · rw [if_neg h, if_neg (by rw [← hq.key, ← he.key]; exact h)]
        bnd ih h1 he hl with r r' hr
        exact X.pure (.cons hq hr)

theorem mergeAll {one : c.S} {one' : c'.S} : ∀ {l : List (Api.Entry c)} {w : X.W} {l' : List (Api.Entry c')} {res : List (Api.Entry c)}
    {res' : List (Api.Entry c')}, X.s w one one' → List.Forall₂ (X.Entry w) l l' → List.Forall₂ (X.Entry w) res res' →
    X.R w (Api.mergeAll c one l res) (Api.mergeAll c' one' l' res') fun w => List.Forall₂ (X.Entry w) := by
  intro l
  induction l with
  | nil =>
    intro w l' res res' h1 hl hr
    cases hl
    exact X.pure hr
  | cons q l ih =>
    intro w l' res res' h1 hl hr
    cases hl with
    | cons hq hl =>
      bnd mergeOne h1 hq hr with r r' hr
      exact ih h1 hl hr

theorem timesOpt {w : X.W} {o : Option c.S} {o' : Option c'.S} {s : c.S} {s' : c'.S} (ho : Option.Rel (X.s w) o o') (hs : X.s w s s') :
    X.R w (Api.timesOpt c o s) (Api.timesOpt c' o' s') X.s := by
  cases ho with
  | none => exact X.pure hs
  | some h => exact X.mul h hs

theorem optTimes {w : X.W} {o : Option c.S} {o' : Option c'.S} {s : c.S} {s' : c'.S} (ho : Option.Rel (X.s w) o o') (hs : X.s w s s') :
    X.R w (Api.optTimes c o s) (Api.optTimes c' o' s') X.s := by
  cases ho with
  | none => exact X.pure hs
  | some h => exact X.mul hs h

theorem only {w : X.W} {l : List (Api.Entry c)} {l' : List (Api.Entry c')} (h : List.Forall₂ (X.Entry w) l l') :
    X.R w (Api.only c l) (Api.only c' l') X.s := by
  cases h with
  | nil => exact X.panic
  | cons he hl =>
    cases hl with
    | nil => exact unwrap he.coef
    | cons => exact X.panic

theorem entry_scalar {w : X.W} {s : c.S} {s' : c'.S} (hs : X.s w s s') :
    List.Forall₂ (X.Entry w) [(("", none, some s) : Api.Entry c)] [(("", none, some s') : Api.Entry c')] :=
  .cons ⟨rfl, .none, .some hs⟩ .nil

theorem evalPrepare {one : c.S} {one' : c'.S} : ∀ {s : Api.Schema c.P c.S} {w : X.W} {s' : Api.Schema c'.P c'.S} {o : Option c.S} {o' : Option c'.S},
    X.s w one one' → X.Schema w s s' → Option.Rel (X.s w) o o' →
    X.R w (Api.evalPrepare c one s o) (Api.evalPrepare c' one' s' o') fun w => List.Forall₂ (X.Entry w) := by
  intro s
  induction s with
  | commitment q =>
    intro w s' o o' h1 hs ho
    cases hs with
    | commitment hq =>
      have hk := hq.key
      bnd unwrap hq.commitment with p p' hp
      exact X.pure (.cons ⟨hk, .some hp, ho⟩ .nil)
  | eval q =>
    intro w s' o o' h1 hs ho
    cases hs with
    | eval hq =>
      bnd unwrap hq.eval with p p' hp
      bnd timesOpt ho hp with r r' hr
      exact X.pure (entry_scalar hr)
  | scalar s =>
    intro w s' o o' h1 hs ho
    cases hs with
    | scalar hs =>
      bnd optTimes ho hs with r r' hr
      exact X.pure (entry_scalar hr)
  | add l lc r rc ihl ihr =>
    intro w s' o o' h1 hs ho
    cases hs with
    | add hl hr =>
      have hr : X.Schema w _ _ := hr
      unfold Api.evalPrepare
      by_cases h : (!lc && !rc) = true
      · rw [if_pos h, if_pos h]
        bnd ihl h1 hl .none with el el' hel
        bnd ihr h1 hr .none with er er' her
        bnd only hel with a a' ha
        bnd only her with b b' hb
        bnd X.add ha hb with s s' hs
        bnd timesOpt ho hs with s s' hs
        exact X.pure (entry_scalar hs)
      · rw [if_neg h, if_neg h]
        bnd ihl h1 hl ho with el el' hel
        bnd mergeAll h1 hel .nil with res res' hres
        bnd ihr h1 hr ho with er er' her
        exact mergeAll h1 her hres
  | mul l lc r rc ihl ihr =>
    intro w s' o o' h1 hs ho
    cases hs with
    | mul hl hr =>
      have hl : X.Schema w _ _ := hl
      have hr : X.Schema w _ _ := hr
      unfold Api.evalPrepare
      by_cases h : (!lc) = true
      · rw [if_pos h, if_pos h]
        bnd ihl h1 hl .none with el el' hel
        bnd only hel with s s' hs
        bnd timesOpt ho hs with s s' hs
        exact ihr h1 hr (.some hs)
      · rw [if_neg h, if_neg h]
        bnd ihr h1 hr .none with el el' hel
        bnd only hel with s s' hs
        bnd timesOpt ho hs with s s' hs
        exact ihl h1 hl (.some hs)

theorem addAll {l : List c.P} : ∀ {w : X.W} {l' : List c'.P} {acc : c.P} {acc' : c'.P}, List.Forall₂ (X.p w) l l' → X.p w acc acc' →
    X.R w (Api.addAll c l acc) (Api.addAll c' l' acc') X.p := by
  induction l with
  | nil =>
    intro w l' acc acc' hl ha
    cases hl
    exact X.pure ha
  | cons v l ih =>
    intro w l' acc acc' hl ha
    cases hl with
    | cons hv hl =>
      bnd X.pAdd ha hv with r r' hr
      exact ih hl hr

theorem scalarOf {w : X.W} {o : Option (Api.Entry c)} {o' : Option (Api.Entry c')} (h : Option.Rel (X.Entry w) o o') :
    X.R w (Api.scalarOf c o) (Api.scalarOf c' o') fun w => Option.Rel (X.s w) := by
  cases h with
  | none => exact X.pure .none
  | some h =>
    bnd unwrap h.coef with v v' hv
    exact X.pure (.some hv)

theorem evalSchema {w : X.W} {one : c.S} {one' : c'.S} (h1 : X.s w one one') {s : Api.Schema c.P c.S} {s' : Api.Schema c'.P c'.S} (h : X.Schema w s s') :
    X.R w (Api.evalSchema c one s) (Api.evalSchema c' one' s') fun w r r' => X.p w r.1 r'.1 ∧ Option.Rel (X.s w) r.2.1 r'.2.1 := by
  bnd evalPrepare h1 h .none with pts pts' hp
  bnd scalarOf (rel_find? (f' := fun b => decide (b.1 = "")) (fun a a' h => by rw [h.key]) hp) with e e' he
  have hpair : ∀ w, List.Forall₂ (X.Entry w) pts pts' → List.Forall₂ (fun x x' => X.n w x.1 x'.1 ∧ X.s w x.2 x'.2)
      (pts.filterMap fun b => b.2.1.bind fun p => b.2.2.map fun s => (p, s)) (pts'.filterMap fun b => b.2.1.bind fun p => b.2.2.map fun s => (p, s)) := by
    intro w hp
    refine rel_filterMap (fun a a' h => ?_) hp
    obtain ⟨k, pt, co⟩ := a
    obtain ⟨k', pt', co'⟩ := a'
    obtain ⟨-, h1, h2⟩ := h
    cases h1 with
    | none => exact .none
    | some h1 =>
      cases h2 with
      | none => exact .none
      | some h2 => exact .some ⟨h1, h2⟩
  bnd X.multiExp (rel_map (fun _ _ h => h.1) (hpair _ hp)) (rel_map (fun _ _ h => h.2) (hpair _ hp)) with acc acc' ha
  refine X.bind (addAll (rel_filterMap (fun a a' h => ?_) hp) ha) fun w' b b' hw hb => ?_
  · obtain ⟨k, pt, co⟩ := a
    obtain ⟨k', pt', co'⟩ := a'
    obtain ⟨-, h1, h2⟩ := h
    cases h2 with
    | none => exact Option.rel_imp (fun _ _ => X.n_p) h1
    | some h2 => exact .none
  · up hw
    exact X.pure ⟨hb, he⟩

/-! ### Multi-opening -/

theorem hasCommitment {w : X.W} {a : Api.Schema c.P c.S} {a' : Api.Schema c'.P c'.S} (h : X.Schema w a a') : a.hasCommitment = a'.hasCommitment := by
  cases h <;> rfl

theorem schema_add {w : X.W} {a b : Api.Schema c.P c.S} {a' b' : Api.Schema c'.P c'.S} (ha : X.Schema w a a') (hb : X.Schema w b b') :
    X.Schema w (a + b) (a' + b') := by
  change Schema.Rel _ _ (.add a a.hasCommitment b b.hasCommitment) (.add a' a'.hasCommitment b' b'.hasCommitment)
  rw [hasCommitment ha, hasCommitment hb]
  exact .add ha hb

theorem schema_mul {w : X.W} {a b : Api.Schema c.P c.S} {a' b' : Api.Schema c'.P c'.S} (ha : X.Schema w a a') (hb : X.Schema w b b') :
    X.Schema w (a * b) (a' * b') := by
  change Schema.Rel _ _ (.mul a a.hasCommitment b b.hasCommitment) (.mul a' a'.hasCommitment b' b'.hasCommitment)
  rw [hasCommitment ha, hasCommitment hb]
  exact .mul ha hb

theorem query_mk {w : X.W} {rotation : ℤ} {key : String} {point : c.S} {point' : c'.S} {commitment : c.P} {commitment' : c'.P} {eval : c.S}
    {eval' : c'.S} (h1 : X.s w point point') (h2 : X.n w commitment commitment') (h3 : X.s w eval eval') :
    X.Query w (EvalQuery.mk' c rotation key point commitment eval) (EvalQuery.mk' c' rotation key point' commitment' eval') :=
  ⟨h1, rfl, schema_add (.commitment ⟨rfl, .some h2, .some h3⟩) (.eval ⟨rfl, .some h2, .some h3⟩)⟩

theorem addQuery {w : X.W} {q : EvalQuery c} {q' : EvalQuery c'} (hq : X.Query w q q') : ∀ {gs : List (Api.Group c)} {gs' : List (Api.Group c')},
    List.Forall₂ (X.Group w) gs gs' → List.Forall₂ (X.Group w) (Api.addQuery c q gs) (Api.addQuery c' q' gs')
  | _, _, .nil => .cons ⟨hq.rotation, hq.point, .cons hq.s .nil⟩ .nil
  | _, _, .cons (a := g) (b := g') h hs => by
    unfold Api.addQuery
    by_cases e : g.1 = q.rotation
    · rw [if_pos e, if_pos (by rw [← h.rotation, ← hq.rotation, e])]
      exact .cons ⟨h.rotation, h.point, rel_append h.list (.cons hq.s .nil)⟩ hs
    · rw [if_neg e, if_neg (by rw [← h.rotation, ← hq.rotation]; exact e)]
      exact .cons h (addQuery hq hs)

theorem groupQueries {w : X.W} {qs : List (EvalQuery c)} {qs' : List (EvalQuery c')} (h : List.Forall₂ (X.Query w) qs qs') :
    List.Forall₂ (X.Group w) (Api.groupQueries c qs) (Api.groupQueries c' qs') := by
  have : ∀ (gs : List (Api.Group c)) (gs' : List (Api.Group c')), List.Forall₂ (X.Group w) gs gs' →
      List.Forall₂ (X.Group w) (qs.foldl (fun gs q => Api.addQuery c q gs) gs) (qs'.foldl (fun gs q => Api.addQuery c' q gs) gs') := by
    induction h with
    | nil => exact fun _ _ h => h
    | cons hq _ ih => exact fun gs gs' hg => ih _ _ (addQuery hq hg)
  exact this [] [] .nil

theorem reduceLeft {w : X.W} {v : c.S} {v' : c'.S} (hv : X.s w v v') {l : List (Api.Schema c.P c.S)} {l' : List (Api.Schema c'.P c'.S)}
    (h : List.Forall₂ (X.Schema w) l l') : Option.Rel (X.Schema w) (Api.reduceLeft c v l) (Api.reduceLeft c' v' l') := by
  cases h with
  | nil => exact .none
  | cons ha hl =>
    rename_i a a' l l'
    refine .some ?_
    induction hl generalizing a a' with
    | nil => exact ha
    | cons hq _ ih => exact ih (schema_add (schema_mul (.scalar hv) ha) hq)

theorem pointProofs {v : c.S} {v' : c'.S} {gs : List (Api.Group c)} : ∀ {w : X.W} {gs' : List (Api.Group c')} {ws : List c.P} {ws' : List c'.P},
    X.s w v v' → List.Forall₂ (X.Group w) gs gs' → List.Forall₂ (X.n w) ws ws' →
    X.R w (Api.pointProofs c v gs ws) (Api.pointProofs c' v' gs' ws') fun w => List.Forall₂ (X.Proof w) := by
  induction gs with
  | nil =>
    intro w gs' ws ws' hv hg hw
    cases hg
    unfold Api.pointProofs
    exact X.pure .nil
  | cons g gs ih =>
    intro w gs' ws ws' hv hg hws
    cases hg with
    | cons hg hgs =>
      cases hws with
      | nil =>
        unfold Api.pointProofs
        exact X.pure .nil
      | cons hp hws =>
        bnd unwrap (reduceLeft hv (rel_reverse hg.list)) with s s' hs
        bnd ih hv hgs hws with ps ps' hps
        exact X.pure (.cons ⟨hg.point, hs, hp⟩ hps)

theorem getPointSchemas {w : X.W} {v : c.S} {v' : c'.S} (hv : X.s w v v') {ws : List c.P} {ws' : List c'.P} (hw : List.Forall₂ (X.n w) ws ws')
    {qs : List (EvalQuery c)} {qs' : List (EvalQuery c')} (h : List.Forall₂ (X.Query w) qs qs') :
    X.R w (Api.getPointSchemas c v ws qs) (Api.getPointSchemas c' v' ws' qs') fun w => List.Forall₂ (X.Proof w) := by
  unfold Api.getPointSchemas
  dsimp only
  have hg := groupQueries h
  by_cases e : ws.length = (Api.groupQueries c qs).length
  · rw [if_pos e, if_pos (by rw [← hw.length_eq, ← hg.length_eq, e])]
    exact pointProofs hv hg hw
  · rw [if_neg e]
    exact X.panic

theorem batchStep {w : X.W} {key : String} {u : c.S} {u' : c'.S} (hu : X.s w u u') {i : ℕ} {q : EvalProof c} {q' : EvalProof c'} (hq : X.Proof w q q')
    {acc : Option (Api.Schema c.P c.S) × Option (Api.Schema c.P c.S)} {acc' : Option (Api.Schema c'.P c'.S) × Option (Api.Schema c'.P c'.S)}
    (h : Option.Rel (X.Schema w) acc.1 acc'.1 ∧ Option.Rel (X.Schema w) acc.2 acc'.2) :
    Option.Rel (X.Schema w) (Api.batchStep c key u i q acc).1 (Api.batchStep c' key u' i q' acc').1 ∧
      Option.Rel (X.Schema w) (Api.batchStep c key u i q acc).2 (Api.batchStep c' key u' i q' acc').2 := by
  obtain ⟨a, b⟩ := acc
  obtain ⟨a', b'⟩ := acc'
  obtain ⟨h1, h2⟩ := h
  have hw : X.Schema w (.commitment ⟨wKey key i, some q.w, none⟩) (.commitment ⟨wKey key i, some q'.w, none⟩) := .commitment ⟨rfl, .some hq.w, .none⟩
  have hpw := schema_mul (.scalar hq.point) hw
  constructor
  · cases h1 with
    | none => exact .some hw
    | some h => exact .some (schema_add (schema_mul (.scalar hu) h) hw)
  · cases h2 with
    | none => exact .some (schema_add hpw hq.s)
    | some h => exact .some (schema_add (schema_add (schema_mul (.scalar hu) h) hpw) hq.s)

theorem batchLoop {w : X.W} {key : String} {u : c.S} {u' : c'.S} (hu : X.s w u u') {ps : List (EvalProof c)} {ps' : List (EvalProof c')}
    (hp : List.Forall₂ (X.Proof w) ps ps') : Option.Rel (X.Schema w) (Api.batchLoop c key u ps).1 (Api.batchLoop c' key u' ps').1 ∧
      Option.Rel (X.Schema w) (Api.batchLoop c key u ps).2 (Api.batchLoop c' key u' ps').2 := by
  have : ∀ (l : List (EvalProof c × ℕ)) (l' : List (EvalProof c' × ℕ)), List.Forall₂ (fun x x' => X.Proof w x.1 x'.1 ∧ x.2 = x'.2) l l' →
      ∀ (acc : Option (Api.Schema c.P c.S) × Option (Api.Schema c.P c.S)) (acc' : Option (Api.Schema c'.P c'.S) × Option (Api.Schema c'.P c'.S)),
      Option.Rel (X.Schema w) acc.1 acc'.1 ∧ Option.Rel (X.Schema w) acc.2 acc'.2 →
      Option.Rel (X.Schema w) (l.foldl (fun acc p => Api.batchStep c key u p.2 p.1 acc) acc).1
          (l'.foldl (fun acc p => Api.batchStep c' key u' p.2 p.1 acc) acc').1 ∧
        Option.Rel (X.Schema w) (l.foldl (fun acc p => Api.batchStep c key u p.2 p.1 acc) acc).2
          (l'.foldl (fun acc p => Api.batchStep c' key u' p.2 p.1 acc) acc').2 := by
    intro l l' h
    induction h with
    | nil => exact fun _ _ h => h
    | cons hx _ ih =>
      intro acc acc' ha
      refine ih _ _ ?_
      dsimp only
      rw [hx.2]
      exact batchStep hu hx.1 ha
  exact this _ _ (rel_reverse (rel_zipIdx 0 hp)) _ _ ⟨.none, .none⟩

theorem batchMultiOpen {w : X.W} {key : String} {u v : c.S} {u' v' : c'.S} (hu : X.s w u u') (hv : X.s w v v') {ws : List c.P} {ws' : List c'.P}
    (hw : List.Forall₂ (X.n w) ws ws') {qs : List (EvalQuery c)} {qs' : List (EvalQuery c')} (h : List.Forall₂ (X.Query w) qs qs') :
    X.R w (Api.batchMultiOpen c key u v ws qs) (Api.batchMultiOpen c' key u' v' ws' qs') X.Open := by
  bnd getPointSchemas hv hw h with ps ps' hps
  bnd unwrap (batchLoop hu hps).1 with a a' ha
  bnd unwrap (batchLoop hu hps).2 with b b' hb
  exact X.pure ⟨ha, hb⟩

theorem addGen {w : X.W} {g q : c.P} {g' q' : c'.P} {o : Option c.S} {o' : Option c'.S} (hg : X.p w g g') (hp : X.p w q q')
    (ho : Option.Rel (X.s w) o o') : X.R w (Api.addGen c g q o) (Api.addGen c' g' q' o') X.p := by
  cases ho with
  | none => exact X.pure hp
  | some h =>
    bnd X.scalarMul h hg with s s' hs
    exact X.pAdd hp hs

theorem subGen {w : X.W} {g q : c.P} {g' q' : c'.P} {o : Option c.S} {o' : Option c'.S} (hg : X.p w g g') (hp : X.p w q q')
    (ho : Option.Rel (X.s w) o o') : X.R w (Api.subGen c g q o) (Api.subGen c' g' q' o') X.o := by
  cases ho with
  | none => exact X.pure (X.p_o hp)
  | some h =>
    bnd X.scalarMul h hg with s s' hs
    exact X.pSub hp hs

theorem evaluateMultiopen {w : X.W} {m : MultiOpen c} {m' : MultiOpen c'} (h : X.Open w m m') :
    X.R w (Api.evaluateMultiopen c m) (Api.evaluateMultiopen c' m') fun w r r' => X.p w r.1 r'.1 ∧ X.o w r.2 r'.2 := by
  bnd X.assignOne with one one' h1
  bnd evalSchema h1 h.wx with l l' hl
  bnd evalSchema h1 h.wg with r r' hr
  bnd X.pAssignOne with g g' hg
  bnd addGen hg hl.1 hl.2 with a a' ha
  bnd subGen hg hr.1 hr.2 with b b' hb
  exact X.pure ⟨ha, hb⟩

theorem aggregateLoop {w : X.W} {ch : c.S} {ch' : c'.S} (hc : X.s w ch ch') {ps : List (MultiOpen c)} {ps' : List (MultiOpen c')}
    (h : List.Forall₂ (X.Open w) ps ps') : ∀ {o : Option (MultiOpen c)} {o' : Option (MultiOpen c')}, Option.Rel (X.Open w) o o' →
    Option.Rel (X.Open w) (Api.aggregateLoop c ch ps o) (Api.aggregateLoop c' ch' ps' o') := by
  induction h with
  | nil => exact fun h => h
  | cons hp _ ih =>
    intro o o' ho
    cases ho with
    | none => exact ih (.some hp)
    | some ho =>
      exact ih (.some ⟨schema_add (schema_mul ho.wx (.scalar hc)) hp.wx, schema_add (schema_mul ho.wg (.scalar hc)) hp.wg⟩)

theorem aggregate {w : X.W} {ch : c.S} {ch' : c'.S} (hc : X.s w ch ch') {ps : List (MultiOpen c)} {ps' : List (MultiOpen c')}
    (h : List.Forall₂ (X.Open w) ps ps') :
    X.R w (Api.aggregate c ch ps) (Api.aggregate c' ch' ps') fun w r r' => X.p w r.1 r'.1 ∧ X.o w r.2 r'.2 := by
  bnd unwrap (aggregateLoop hc h .none) with m m' hm
  exact evaluateMultiopen hm

/-! ### The arguments -/

theorem wsLoop {omega : c.S} {omega' : c'.S} : ∀ (k : ℕ) {w : X.W} {a : c.S} {a' : c'.S}, X.s w omega omega' → X.s w a a' →
    X.R w (Api.wsLoop c omega k a) (Api.wsLoop c' omega' k a') fun w => List.Forall₂ (X.s w) := by
  intro k
  induction k with
  | zero => exact fun _ _ => X.pure .nil
  | succ k ih =>
    intro w a a' ho ha
    bnd X.div ha ho with b b' hb
    bnd ih ho hb with r r' hr
    exact X.pure (.cons hb hr)

theorem lagrangeCommits {w : X.W} {omega n x xn one : c.S} {omega' n' x' xn' one' : c'.S} (ho : X.s w omega omega') (hn : X.s w n n')
    (hx : X.s w x x') (hxn : X.s w xn xn') (h1 : X.s w one one') (l : ℕ) :
    X.R w (Api.lagrangeCommits c omega n x xn one l) (Api.lagrangeCommits c' omega' n' x' xn' one' l) fun w => List.Forall₂ (X.s w) := by
  bnd wsLoop l ho h1 with ws ws' hws
  refine mapM' (A := X.s) (.cons h1 hws) fun w' hw a a' ha => ?_
  up hw
  exact ast (.div (.mul (.div (.value ha) (.value hn)) (.sub (.value hxn) (.value h1))) (.sub (.value hx) (.value ha)))

theorem firstExpr {w : X.W} {l0 one : c.S} {l0' one' : c'.S} (h0 : X.s w l0 l0') (h1 : X.s w one one') {o : Option (PermSet c.P c.S)}
    {o' : Option (PermSet c'.P c'.S)} (ho : Option.Rel (X.Set w) o o') :
    X.R w (Api.firstExpr c l0 one o) (Api.firstExpr c' l0' one' o') fun w => List.Forall₂ (X.s w) := by
  cases ho with
  | none => exact X.pure .nil
  | some h =>
    bnd ast (.mul (.value h0) (.sub (.value h1) (.value h.eval))) with r r' hr
    exact X.pure (.cons hr .nil)

theorem lastExpr {w : X.W} {l : c.S} {l' : c'.S} (h0 : X.s w l l') {o : Option (PermSet c.P c.S)}
    {o' : Option (PermSet c'.P c'.S)} (ho : Option.Rel (X.Set w) o o') :
    X.R w (Api.lastExpr c l o) (Api.lastExpr c' l' o') fun w => List.Forall₂ (X.s w) := by
  cases ho with
  | none => exact X.pure .nil
  | some h =>
    bnd ast (.mul (.value h0) (.sub (.mul (.value h.eval) (.value h.eval)) (.value h.eval))) with r r' hr
    exact X.pure (.cons hr .nil)

theorem chainExprs {w : X.W} {l0 : c.S} {l0' : c'.S} (h0 : X.s w l0 l0') {l : List (PermSet c.P c.S × PermSet c.P c.S)}
    {l' : List (PermSet c'.P c'.S × PermSet c'.P c'.S)} (h : List.Forall₂ (fun x x' => X.Set w x.1 x'.1 ∧ X.Set w x.2 x'.2) l l') :
    X.R w (Api.chainExprs c l0 l) (Api.chainExprs c' l0' l') fun w => List.Forall₂ (X.s w) := by
  refine mapM' (A := fun w x x' => X.Set w x.1 x'.1 ∧ X.Set w x.2 x'.2) h fun w' hw a a' ha => ?_
  up hw
  bnd unwrap ha.2.last with r r' hr
  exact ast (.mul (.sub (.value ha.1.eval) (.value hr)) (.value h0))

theorem permInner {delta beta gamma : c.S} {delta' beta' gamma' : c'.S} {l : List (c.S × c.S)} : ∀ {w : X.W} {l' : List (c'.S × c'.S)} {a b d : c.S}
    {a' b' d' : c'.S}, X.s w delta delta' → X.s w beta beta' → X.s w gamma gamma' →
    List.Forall₂ (fun x x' => X.s w x.1 x'.1 ∧ X.s w x.2 x'.2) l l' → X.s w a a' → X.s w b b' → X.s w d d' →
    X.R w (Api.permInner c delta beta gamma l a b d) (Api.permInner c' delta' beta' gamma' l' a' b' d')
      fun w r r' => X.s w r.1 r'.1 ∧ X.s w r.2 r'.2 := by
  induction l with
  | nil =>
    intro w l' a b d a' b' d' hd hb hg hl h1 h2 h3
    cases hl
    exact X.pure ⟨h1, h2⟩
  | cons x l ih =>
    intro w l' a b d a' b' d' hd hb hg hl h1 h2 h3
    cases hl with
    | cons hx hl =>
      bnd ast (.add (.value hx.1) (.value hg)) with t t' ht
      bnd ast (.mul (.add (.value ht) (.mul (.value hb) (.value hx.2))) (.value h1)) with y y' hy
      bnd ast (.mul (.add (.value ht) (.value h3)) (.value h2)) with z z' hz
      bnd ast (.mul (.value hd) (.value h3)) with u u' hu
      exact ih hd hb hg hl hy hz hu

theorem deltaPow {w : X.W} {delta one : c.S} {delta' one' : c'.S} (hd : X.s w delta delta') (h1 : X.s w one one') (i k : ℕ) :
    X.R w (Api.deltaPow c delta one i k) (Api.deltaPow c' delta' one' i k) X.s := by
  unfold Api.deltaPow
  by_cases h : i = 0
  · rw [if_pos h, if_pos h]
    exact X.pure h1
  · rw [if_neg h, if_neg h]
    exact powConst hd _

theorem permChunk {w : X.W} {delta beta gamma one t0 t1 : c.S} {delta' beta' gamma' one' t0' t1' : c'.S} (hd : X.s w delta delta')
    (hb : X.s w beta beta') (hg : X.s w gamma gamma') (h1 : X.s w one one') (ht0 : X.s w t0 t0') (ht1 : X.s w t1 t1') (k i : ℕ)
    {set : PermSet c.P c.S} {set' : PermSet c'.P c'.S} (hs : X.Set w set set') {ev pe : List c.S} {ev' pe' : List c'.S}
    (hev : List.Forall₂ (X.s w) ev ev') (hpe : List.Forall₂ (X.s w) pe pe') :
    X.R w (Api.permChunk c delta beta gamma one t0 t1 k i set ev pe) (Api.permChunk c' delta' beta' gamma' one' t0' t1' k i set' ev' pe') X.s := by
  bnd deltaPow hd h1 i k with dp dp' hdp
  bnd ast (.mul (.value ht0) (.value hdp)) with d d' hd'
  bnd permInner hd hb hg (rel_zip hev hpe) hs.next hs.eval hd' with lr lr' hlr
  exact ast (.mul (.sub (.value hlr.1) (.value hlr.2)) (.value ht1))

theorem permChunks {delta beta gamma one t0 t1 : c.S} {delta' beta' gamma' one' t0' t1' : c'.S} (k : ℕ)
    {l : List ((PermSet c.P c.S × List c.S) × List c.S)} : ∀ (i : ℕ) {w : X.W} {l' : List ((PermSet c'.P c'.S × List c'.S) × List c'.S)},
    X.s w delta delta' → X.s w beta beta' → X.s w gamma gamma' → X.s w one one' → X.s w t0 t0' → X.s w t1 t1' →
    List.Forall₂ (fun x x' => (X.Set w x.1.1 x'.1.1 ∧ List.Forall₂ (X.s w) x.1.2 x'.1.2) ∧ List.Forall₂ (X.s w) x.2 x'.2) l l' →
    X.R w (Api.permChunks c delta beta gamma one t0 t1 k i l) (Api.permChunks c' delta' beta' gamma' one' t0' t1' k i l')
      fun w => List.Forall₂ (X.s w) := by
  induction l with
  | nil =>
    intro i w l' hd hb hg h1 ht0 ht1 hl
    cases hl
    exact X.pure .nil
  | cons x l ih =>
    intro i w l' hd hb hg h1 ht0 ht1 hl
    cases hl with
    | cons hx hl =>
      bnd permChunk hd hb hg h1 ht0 ht1 k i hx.1.1 hx.1.2 hx.2 with r r' hr
      bnd ih (i + 1) hd hb hg h1 ht0 ht1 hl with rs rs' hrs
      exact X.pure (.cons hr hrs)

theorem chunksM {w : X.W} {α α' : Type} {Q : X.W → α → α' → Prop} (k : ℕ) {l : List α} {l' : List α'} (h : List.Forall₂ (Q w) l l') :
    X.R w (Api.chunksM c k l) (Api.chunksM c' k l') fun w => List.Forall₂ (List.Forall₂ (Q w)) := by
  unfold Api.chunksM
  by_cases hk : k = 0
  · rw [if_pos hk]
    exact X.panic
  · rw [if_neg hk, if_neg hk]
    exact X.pure (rel_chunks k h)

theorem chunksSame {w : X.W} {α : Type} (k : ℕ) (l : List α) : X.R w (Api.chunksM c k l) (Api.chunksM c' k l) fun _ a b => a = chunks k l ∧ b = chunks k l := by
  unfold Api.chunksM
  by_cases hk : k = 0
  · rw [if_pos hk]
    exact X.panic
  · rw [if_neg hk, if_neg hk]
    exact X.pure ⟨rfl, rfl⟩

theorem permExpressions {w : X.W} {q : PermEval c.P c.S} {q' : PermEval c'.P c'.S} (hq : X.Perm w q q') {pe : List c.S} {pe' : List c'.S}
    (hpe : List.Forall₂ (X.s w) pe pe') {l0 llast lblind delta beta gamma x one : c.S} {l0' llast' lblind' delta' beta' gamma' x' one' : c'.S}
    (h0 : X.s w l0 l0') (hl : X.s w llast llast') (hbl : X.s w lblind lblind') (hd : X.s w delta delta') (hb : X.s w beta beta')
    (hg : X.s w gamma gamma') (hx : X.s w x x') (h1 : X.s w one one') :
    X.R w (Api.permExpressions c q pe l0 llast lblind delta beta gamma x one) (Api.permExpressions c' q' pe' l0' llast' lblind' delta' beta' gamma' x' one')
      fun w => List.Forall₂ (X.s w) := by
  unfold Api.permExpressions
  have hc := hq.chunkLen
  have hsets : List.Forall₂ (X.Set w) q.sets q'.sets := hq.sets
  bnd firstExpr h0 h1 (rel_head? hsets) with r1 r1' hr1
  bnd lastExpr hl (rel_getLast? hsets) with r2 r2' hr2
  bnd chainExprs h0 (rel_zip (List.forall₂_drop 1 hsets) hsets) with r3 r3' hr3
  bnd ast (.mul (.value hb) (.value hx)) with t0 t0' ht0
  bnd ast (.sub (.value h1) (.add (.value hl) (.value hbl))) with t1 t1' ht1
  rw [hc]
  bnd chunksM (Q := X.s) _ hq.evals with ev ev' hev
  bnd chunksM (Q := X.s) _ hpe with ps ps' hps
  bnd permChunks _ 0 hd hb hg h1 ht0 ht1 (rel_zip (rel_zip hsets hev) hps) with r4 r4' hr4
  exact X.pure (rel_append (rel_append (rel_append hr1 hr2) hr3) hr4)

theorem lookupExpressions {w : X.W} {k : LookupEval c.P c.S} {k' : LookupEval c'.P c'.S} (hk : X.Lookup w k k') {q : QueryEvals c.S}
    {q' : QueryEvals c'.S} (hq : X.Evals w q q') {l0 llast lblind theta beta gamma zero one : c.S}
    {l0' llast' lblind' theta' beta' gamma' zero' one' : c'.S} (h0 : X.s w l0 l0') (hl : X.s w llast llast') (hbl : X.s w lblind lblind')
    (ht : X.s w theta theta') (hb : X.s w beta beta') (hg : X.s w gamma gamma') (hz : X.s w zero zero') (h1 : X.s w one one') :
    X.R w (Api.lookupExpressions c k q l0 llast lblind theta beta gamma zero one)
      (Api.lookupExpressions c' k' q' l0' llast' lblind' theta' beta' gamma' zero' one') fun w => List.Forall₂ (X.s w) := by
  have hin : List.Forall₂ (X.Expr w) k.input k'.input := hk.input
  have htab : List.Forall₂ (X.Expr w) k.table k'.table := hk.table
  bnd ast (.mul (.mul (.value hk.productNext) (.add (.value hk.inputEval) (.value hb))) (.add (.value hk.tableEval) (.value hg))) with left left' hleft
  refine X.bind (mapM' (A := X.Expr) (Q := X.s) hin fun w' hw e e' he => ?_) fun w' ie ie' hw hie => ?_
  · up hw
    exact chipEvaluate hq hz he
  up hw
  bnd mulAddAccumulate hie ht with i i' hi
  refine X.bind (mapM' (A := X.Expr) (Q := X.s) htab fun w' hw e e' he => ?_) fun w' te te' hw hte => ?_
  · up hw
    exact chipEvaluate hq hz he
  up hw
  bnd mulAddAccumulate hte ht with t t' htt
  bnd ast (.sub (.value h1) (.add (.value hl) (.value hbl))) with t0 t0' ht0
  bnd ast (.sub (.value hk.inputEval) (.value hk.tableEval)) with t1 t1' ht1
  bnd ast (.mul (.value h0) (.sub (.value h1) (.value hk.productEval))) with e1 e1' he1
  bnd ast (.mul (.value hl) (.sub (.mul (.value hk.productEval) (.value hk.productEval)) (.value hk.productEval))) with e2 e2' he2
  bnd ast (.mul (.sub (.value hleft) (.mul (.mul (.value hk.productEval) (.add (.value hi) (.value hb))) (.add (.value htt) (.value hg)))) (.value ht0)) with e3 e3' he3
  bnd ast (.mul (.value h0) (.value ht1)) with e4 e4' he4
  bnd ast (.mul (.mul (.value ht1) (.sub (.value hk.inputEval) (.value hk.inputInv))) (.value ht0)) with e5 e5' he5
  exact X.pure (.cons he1 (.cons he2 (.cons he3 (.cons he4 (.cons he5 .nil)))))

theorem vanishNew {w : X.W} {es : List c.S} {es' : List c'.S} (hes : List.Forall₂ (X.s w) es es') {y xn : c.S} {y' xn' : c'.S} (hy : X.s w y y')
    (hxn : X.s w xn xn') {random : c.P} {random' : c'.P} (hr : X.n w random random') {re : c.S} {re' : c'.S} (hre : X.s w re re') {cs : List c.P}
    {cs' : List c'.P} (hcs : List.Forall₂ (X.n w) cs cs') {one : c.S} {one' : c'.S} (h1 : X.s w one one') (key : String) :
    X.R w (VanishEval.new c es y xn random re cs one key) (VanishEval.new c' es' y' xn' random' re' cs' one' key) X.Vanish := by
  bnd mulAddAccumulate hes hy with e e' he
  bnd ast (.div (.value he) (.sub (.value hxn) (.value h1))) with ex ex' hex
  bnd unwrap (reduceLeft hxn (rel_mapIdx (r := X.n _) (fun i a a' ha => .commitment ⟨rfl, .some ha, .none⟩) (rel_reverse hcs))) with h h' hh
  exact X.pure ⟨rfl, hh, hex, hr, hre⟩

theorem vanishQueries {w : X.W} {v : VanishEval c} {v' : VanishEval c'} (h : X.Vanish w v v') {x : c.S} {x' : c'.S} (hx : X.s w x x') :
    List.Forall₂ (X.Query w) (v.queries c x) (v'.queries c' x') := by
  unfold VanishEval.queries
  rw [h.key]
  exact .cons ⟨hx, rfl, schema_add h.h (.scalar h.expectedEval)⟩ (.cons (query_mk hx h.random h.randomEval) .nil)

/-! ### The queries -/

section Queries
variable [Field F] {w : X.W} {q : Api.Params c.P c.S} {q' : Api.Params c'.P c'.S} (hq : X.Params w q q')
include hq

omit hq in
theorem rotateBase (omega : F) (at' : ℤ) : X.R w (Api.rotateBase c omega at') (Api.rotateBase c' omega at') fun _ a b => a = b := by
  unfold Api.rotateBase
  by_cases h : at' < 0
  · rw [if_pos h, if_pos h]
    by_cases h : omega = 0
    · rw [if_pos h]
      exact X.panic
    · rw [if_neg h, if_neg h]
      exact X.pure rfl
  · rw [if_neg h, if_neg h]
    exact X.pure rfl

theorem xRotateOmega (at' : ℤ) : X.R w (Api.xRotateOmega c q at') (Api.xRotateOmega c' q' at') X.s := by
  obtain ⟨k, hk⟩ := hq.omega
  bnd X.toValue hk with o o' ho
  subst ho
  bnd rotateBase _ _ with b b' hb
  subst hb
  exact X.sumWithCoeff (.cons ⟨hq.x, rfl⟩ .nil)

theorem columnQuery (key : ℕ → String) {cs : List c.P} {cs' : List c'.P} (hcs : List.Forall₂ (X.n w) cs cs') {es : List c.S} {es' : List c'.S}
    (hes : List.Forall₂ (X.s w) es es') (a : (ℕ × ℤ) × ℕ) : X.R w (Api.columnQuery c q key cs es a) (Api.columnQuery c' q' key cs' es' a) X.Query := by
  bnd xRotateOmega hq _ with pt pt' h1
  bnd index hcs _ with p p' h2
  bnd index hes _ with e e' h3
  exact X.pure (query_mk h1 h2 h3)

omit [Field F] in
theorem permCommonQueries : List.Forall₂ (X.Query w) (Api.permCommonQueries c q) (Api.permCommonQueries c' q') := by
  unfold Api.permCommonQueries
  rw [hq.key]
  refine rel_mapIdx (fun i a a' ha => ?_) (rel_zip hq.permutationCommitments hq.permutationEvals)
  exact query_mk hq.x ha.1 ha.2

omit hq [Field F] in
theorem permQueries {q : PermEval c.P c.S} {q' : PermEval c'.P c'.S} (hq : X.Perm w q q') {xNext xLast : c.S} {xNext' xLast' : c'.S}
    (hn : X.s w xNext xNext') (hl : X.s w xLast xLast') :
    X.R w (Api.permQueries c q xNext xLast) (Api.permQueries c' q' xNext' xLast') fun w => List.Forall₂ (X.Query w) := by
  have hsets : List.Forall₂ (X.Set w) q.sets q'.sets := hq.sets
  have hk := hq.key
  have hbl := hq.blinding
  refine X.bind (mapM' (A := fun w x x' => X.Set w x.1 x'.1 ∧ x.2 = x'.2) (List.forall₂_drop 1 (rel_reverse (rel_zipIdx 0 hsets)))
    (Q := X.Query) fun w' hw a a' ha => ?_) fun w' last last' hw hlast => ?_
  · up hw
    unfold Api.permLastQuery
    rw [hk, hbl, ha.2]
    bnd unwrap ha.1.last with l l' hl'
    exact X.pure (query_mk hl ha.1.commitment hl')
  · up hw
    refine X.pure (rel_append (rel_flatMap (r := fun x x' => X.Set w' x.1 x'.1 ∧ x.2 = x'.2) (fun a a' ha => ?_) (rel_zipIdx 0 hsets)) hlast)
    rw [hk, ha.2]
    exact .cons (query_mk hq.x ha.1.commitment ha.1.eval) (.cons (query_mk hn ha.1.commitment ha.1.next) .nil)

omit hq [Field F] in
theorem lookupQueries {x xInv xNext : c.S} {x' xInv' xNext' : c'.S} (hx : X.s w x x') (hi : X.s w xInv xInv') (hn : X.s w xNext xNext')
    {k : LookupEval c.P c.S} {k' : LookupEval c'.P c'.S} (hk : X.Lookup w k k') :
    List.Forall₂ (X.Query w) (Api.lookupQueries c x xInv xNext k) (Api.lookupQueries c' x' xInv' xNext' k') := by
  unfold Api.lookupQueries
  rw [hk.key]
  exact .cons (query_mk hx hk.product hk.productEval) (.cons (query_mk hx hk.permutedInput hk.inputEval)
    (.cons (query_mk hx hk.permutedTable hk.tableEval) (.cons (query_mk hi hk.permutedInput hk.inputInv)
    (.cons (query_mk hn hk.product hk.productNext) .nil))))

omit [Field F] in
theorem proofExpressions {l0 llast lblind : c.S} {l0' llast' lblind' : c'.S} (h0 : X.s w l0 l0') (hl : X.s w llast llast')
    (hb : X.s w lblind lblind') (k : ℕ) :
    X.R w (Api.proofExpressions c q l0 llast lblind k) (Api.proofExpressions c' q' l0' llast' lblind' k) fun w => List.Forall₂ (X.s w) := by
  bnd index (Q := fun w => List.Forall₂ (X.s w)) hq.adviceEvals k with ae ae' hae
  bnd index (Q := fun w => List.Forall₂ (X.s w)) hq.instanceEvals k with ie ie' hie
  bnd index (Q := X.Perm) hq.perms k with pm pm' hpm
  bnd index (Q := fun w => List.Forall₂ (X.Lookup w)) hq.lookups k with ls ls' hls
  have he : X.Evals _ (⟨q.fixedEvals, ae, ie, q.challenges⟩ : QueryEvals c.S) (⟨q'.fixedEvals, ae', ie', q'.challenges⟩ : QueryEvals c'.S) :=
    ⟨hq.fixedEvals, hae, hie, hq.challenges⟩
  refine X.bind (mapM' (A := X.Expr) (Q := X.s) (rel_flatten hq.gates) fun w' hw e e' h => ?_) fun w' gs gs' hw hgs => ?_
  · up hw
    exact chipEvaluate he hq.zero h
  up hw
  clear hw
  bnd permExpressions hpm hq.permutationEvals h0 hl hb hq.delta hq.beta hq.gamma hq.x hq.one with ps ps' hps
  refine X.bind (mapM' (A := X.Lookup) (Q := fun w => List.Forall₂ (X.s w)) hls fun w' hw e e' h => ?_) fun w' rs rs' hw hrs => ?_
  · up hw
    exact lookupExpressions h he h0 hl hb hq.theta hq.beta hq.gamma hq.zero hq.one
  up hw
  exact X.pure (rel_append (rel_append hgs hps) (rel_flatten hrs))

theorem proofQueries (i : ℕ) : X.R w (Api.proofQueries c q i) (Api.proofQueries c' q' i) fun w => List.Forall₂ (X.Query w) := by
  unfold Api.proofQueries
  rw [← hq.key, ← hq.instanceQueries, ← hq.adviceQueries]
  bnd index (Q := fun w => List.Forall₂ (X.n w)) hq.instanceCommitments i with ic ic' hic
  bnd index (Q := fun w => List.Forall₂ (X.s w)) hq.instanceEvals i with ie ie' hie
  bnd index (Q := fun w => List.Forall₂ (X.n w)) hq.adviceCommitments i with ac ac' hac
  bnd index (Q := fun w => List.Forall₂ (X.s w)) hq.adviceEvals i with ae ae' hae
  bnd index (Q := X.Perm) hq.perms i with pm pm' hpm
  bnd index (Q := fun w => List.Forall₂ (X.Lookup w)) hq.lookups i with ls ls' hls
  refine X.bind (mapMSame (Q := X.Query) _ fun w' hw a => ?_) fun w' q1 q1' hw h1 => ?_
  · up hw
    exact columnQuery hq _ hic hie a
  up hw
  clear hw
  refine X.bind (mapMSame (Q := X.Query) _ fun w' hw a => ?_) fun w' q2 q2' hw h2 => ?_
  · up hw
    exact columnQuery hq _ hac hae a
  up hw
  clear hw
  bnd permQueries hpm hq.xNext hq.xLast with q3 q3' h3
  exact X.pure (rel_append (rel_append (rel_append h1 h2) h3) (rel_flatMap (fun a a' ha => lookupQueries hq.x hq.xInv hq.xNext ha) hls))

theorem queries : X.R w (Api.queries c q) (Api.queries c' q') fun w => List.Forall₂ (X.Query w) := by
  unfold Api.queries
  obtain ⟨k, hk⟩ := hq.omega
  rw [← hq.key, ← hq.l, ← hq.fixedQueries, ← List.Forall₂.length_eq hq.adviceEvals, ← List.Forall₂.length_eq hq.instanceCommitments]
  bnd lagrangeCommits (X.known_s hk) hq.n hq.x hq.xn hq.one q.l with ls ls' hls
  bnd index hls 0 with l0 l0' h0
  bnd index hls q.l with ll ll' hll
  refine X.bind (Q := fun w => List.Forall₂ (X.s w)) ?_ fun w' mid mid' hw hmid => ?_
  · unfold Api.slice1
    by_cases h : q.l = 0
    · rw [if_pos h]
      exact X.panic
    · rw [if_neg h, if_neg h]
      exact X.pure (List.forall₂_drop 1 (List.forall₂_take q.l hls))
  up hw
  clear hw
  bnd sumWithConstant hmid with lb lb' hlb
  refine X.bind (mapMSame (Q := fun w => List.Forall₂ (X.s w)) _ fun w' hw a => ?_) fun w' es es' hw hes => ?_
  · up hw
    exact proofExpressions hq h0 hll hlb a
  up hw
  clear hw
  refine X.bind (mapMSame (Q := fun w => List.Forall₂ (X.Query w)) _ fun w' hw a => ?_) fun w' qs qs' hw hqs => ?_
  · up hw
    exact proofQueries hq a
  up hw
  clear hw
  refine X.bind (mapMSame (Q := X.Query) _ fun w' hw a => ?_) fun w' fs fs' hw hfs => ?_
  · up hw
    exact columnQuery hq _ hq.fixedCommitments hq.fixedEvals a
  up hw
  clear hw
  bnd vanishNew (rel_flatten hes) hq.y hq.xn hq.randomCommitment hq.randomEval hq.vanishCommitments hq.one q.key with v v' hv
  exact X.pure (rel_append (rel_append (rel_append (rel_flatten hqs) hfs) (permCommonQueries hq)) (vanishQueries hv hq.x))

theorem openParams (hw : List.Forall₂ (X.n w) q.w q'.w) : X.R w (Api.openParams q) (Api.openParams q') X.Open := by
  unfold Api.openParams
  rw [← hq.key]
  bnd queries hq with qs qs' hqs
  exact batchMultiOpen hq.u hq.v hw hqs

end Queries

/-! ### Instances -/

theorem columnAcc [AddCommGroup G] [AddCommGroup G'] (vk : VK F G) {l : List c.S} : ∀ (i : ℕ) {w : X.W} {l' : List c'.S} {acc : Option c.P}
    {acc' : Option c'.P}, List.Forall₂ (X.s w) l l' → Option.Rel (X.p w) acc acc' →
    X.R w (Api.columnAcc vk i l acc) (Api.columnAcc (vk.map φ) i l' acc') fun w => Option.Rel (X.p w) := by
  induction l with
  | nil =>
    intro i w l' acc acc' hl ha
    cases hl
    exact X.pure ha
  | cons s l ih =>
    intro i w l' acc acc' hl ha
    cases hl with
    | cons hs hl =>
      refine X.bind (index (Q := fun _ a b => b = φ a) (l' := (vk.map φ).gLagrange) ?_ i) fun w' g g' hw hg => ?_
      · change List.Forall₂ _ vk.gLagrange (vk.gLagrange.map φ)
        induction vk.gLagrange with
        | nil => exact .nil
        | cons a l ih => exact .cons rfl ih
      subst hg
      up hw
      clear hw
      bnd X.scalarMulConstant g hs with ls ls' hls
      cases ha with
      | none => exact ih (i + 1) hl (.some hls)
      | some ha =>
        bnd X.pAdd ha hls with r r' hr
        exact ih (i + 1) hl (.some hr)

theorem columnCommitment [AddCommGroup G] [AddCommGroup G'] (h0 : φ 0 = 0) (vk : VK F G) {w : X.W} {l : List c.S} {l' : List c'.S}
    (hl : List.Forall₂ (X.s w) l l') : X.R w (Api.columnCommitment vk l) (Api.columnCommitment (vk.map φ) l') X.n := by
  bnd columnAcc vk 0 hl .none with r r' hr
  cases hr with
  | none =>
    have := X.pAssignConst (w := ‹_›) 0
    rw [h0] at this
    exact this
  | some h => exact X.normalize h

theorem assignInstanceCommitment [AddCommGroup G] [AddCommGroup G'] (h0 : φ 0 = 0)
    (hv : ∀ (w : X.W) (k : F), X.R w (c.assignVar k) (c'.assignVar k) X.s) (vk : VK F G) {w : X.W} (instances : List (List (List F))) :
    X.R w (Api.assignInstanceCommitment vk instances) (Api.assignInstanceCommitment (vk.map φ) instances)
      fun w r r' => List.Forall₂ (X.s w) r.1 r'.1 ∧ List.Forall₂ (List.Forall₂ (X.n w)) r.2 r'.2 := by
  unfold Api.assignInstanceCommitment
  by_cases h : (instances.all fun i => decide (i.length = vk.numInstance)) = true
  · change X.R w _ (if (instances.all fun i => decide (i.length = vk.numInstance)) = true then _ else _) _
    rw [if_pos h, if_pos h]
    refine X.bind (mapMSame (Q := fun w => List.Forall₂ (List.Forall₂ (X.s w))) _ fun w' hw a =>
      mapMSame (Q := fun w => List.Forall₂ (X.s w)) _ fun w' hw a => ?_) fun w' as as' hw has => ?_
    · unfold Api.assignColumn
      by_cases h : a.length + (vk.blinding + 1) ≤ vk.n
      · change X.R _ _ (if a.length + (vk.blinding + 1) ≤ vk.n then _ else _) _
        rw [if_pos h, if_pos h]
        exact mapMSame _ fun w' _ k => hv w' k
      · rw [if_neg h]
        exact X.panic
    clear hw
    refine X.bind (mapM' (A := fun w => List.Forall₂ (List.Forall₂ (X.s w))) (Q := fun w => List.Forall₂ (X.n w)) has fun w' hw a a' ha =>
      mapM' (A := fun w => List.Forall₂ (X.s w)) (Q := X.n) ha fun w' hw a a' ha => columnCommitment h0 vk ha) fun w' cs cs' hw hcs => ?_
    up hw
    exact X.pure ⟨rel_flatten (rel_flatten has), hcs⟩
  · rw [if_neg h]
    exact X.panic

end Link
end Verif.Api
