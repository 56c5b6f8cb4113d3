import Verif.Api.Verify
import Mathlib.Data.List.Forall2

/-!
# Running the verifier on two chips side by side

A `Link` relates the values of two chips so that every operation of the first that returns is matched by the same operation of the second,
with related results. The generic verifier only uses the operations, so its runs are matched too (`Verif.Api.LinkVerify`). The first chip
is the native one; taking the circuit or the code generator as the second gives completeness: they do not fail where native verification
does not.

What is known of a value may depend on how far the second chip has got (in a circuit: which rows are written). `W` are these
stages; what is known stays known (`Up`).
-/

namespace Verif.Api

/-- What holds at a stage holds at later stages. -/
class Up {W : Type} (le : W → W → Prop) (P : W → Prop) : Prop where
  up : ∀ {w w'}, le w w' → P w → P w'

open Lean Meta Elab Tactic in
/-- `up h`, for `h : le w w'`, moves the hypotheses about `w` to `w'`. -/
elab "up " t:ident : tactic => withMainContext do
  let e ← elabTerm t none
  let ty ← instantiateMVars (← inferType e)
  let args := ty.getAppArgs
  let n := args.size
  let w := args[n - 2]!
  let w' := args[n - 1]!
  let le := mkAppN ty.getAppFn args[0:n - 2]
  let mut hyps : Array Hypothesis := #[]
  let mut old : Array FVarId := #[]
  for decl in ← getLCtx do
    if decl.isImplementationDetail || decl.toExpr == e || decl.toExpr == w then continue
    let dty ← instantiateMVars decl.type
    unless dty.containsFVar w.fvarId! do continue
    unless ← isProp dty do continue
    let P ← mkLambdaFVars #[w] dty
    let cls ← mkAppM ``Up #[le, P]
    if let some inst ← synthInstance? cls then
      let val ← mkAppOptM ``Up.up #[none, le, P, inst, w, w', e, decl.toExpr]
      hyps := hyps.push { userName := decl.userName, type := P.beta #[w'], value := val }
      old := old.push decl.fvarId
  let (_, g) ← (← getMainGoal).assertHypotheses hyps
  let g ← g.tryClearMany old
  replaceMainGoal [g]

section Instances
variable {W α β : Type} {le : W → W → Prop}

instance (priority := low) Up.const {P : Prop} : Up le fun _ => P := ⟨fun _ h => h⟩

instance Up.and {P Q : W → Prop} [hP : Up le P] [hQ : Up le Q] : Up le fun w => P w ∧ Q w := ⟨fun h p => ⟨hP.up h p.1, hQ.up h p.2⟩⟩

instance Up.list {P : W → α → β → Prop} [hP : ∀ a b, Up le fun w => P w a b] {l : List α} {l' : List β} : Up le fun w => List.Forall₂ (P w) l l' :=
  ⟨fun h p => p.imp fun a b => (hP a b).up h⟩

instance Up.option {P : W → α → β → Prop} [hP : ∀ a b, Up le fun w => P w a b] {o : Option α} {o' : Option β} : Up le fun w => Option.Rel (P w) o o' :=
  ⟨fun h p => by
    cases p with
    | none => exact .none
    | some p => exact .some ((hP _ _).up h p)⟩

end Instances

/-! ### Interface -/

structure Link {F G G' : Type} (c : Chip F G) (c' : Chip F G') (φ : G → G') where
  /-- Stages. -/
  W : Type
  le : W → W → Prop
  refl : ∀ w, le w w
  trans : ∀ {a b d}, le a b → le b d → le a d
  /-- At this stage, if the first computation returns then so does the second, and this holds of the results. -/
  R : {α α' : Type} → W → c.m α → c'.m α' → (W → α → α' → Prop) → Prop
  s : W → c.S → c'.S → Prop
  p : W → c.P → c'.P → Prop
  /-- Points that may be hashed. -/
  n : W → c.P → c'.P → Prop
  /-- Results of subtractions. -/
  o : W → c.P → c'.P → Prop
  /-- Both were assigned as this constant. -/
  known : W → F → c.S → c'.S → Prop
  s_up : ∀ {w w' a b}, le w w' → s w a b → s w' a b
  p_up : ∀ {w w' a b}, le w w' → p w a b → p w' a b
  n_up : ∀ {w w' a b}, le w w' → n w a b → n w' a b
  o_up : ∀ {w w' a b}, le w w' → o w a b → o w' a b
  n_p : ∀ {w a b}, n w a b → p w a b
  p_o : ∀ {w a b}, p w a b → o w a b
  known_up : ∀ {w w' k a b}, le w w' → known w k a b → known w' k a b
  known_s : ∀ {w k a b}, known w k a b → s w a b
  pure : ∀ {α α' : Type} {w : W} {a : α} {a' : α'} {Q : W → α → α' → Prop}, Q w a a' → R w (Pure.pure a) (Pure.pure a') Q
  bind : ∀ {α α' β β' : Type} {w : W} {x : c.m α} {x' : c'.m α'} {f : α → c.m β} {f' : α' → c'.m β'} {Q : W → α → α' → Prop}
    {S : W → β → β' → Prop}, R w x x' Q → (∀ w' a a', le w w' → Q w' a a' → R w' (f a) (f' a') S) → R w (x >>= f) (x' >>= f') S
  mono : ∀ {α α' : Type} {w : W} {x : c.m α} {x' : c'.m α'} {Q S : W → α → α' → Prop}, R w x x' Q →
    (∀ w' a a', le w w' → Q w' a a' → S w' a a') → R w x x' S
  panic : ∀ {α α' : Type} {w : W} {x' : c'.m α'} {Q : W → α → α' → Prop}, R w c.panic x' Q
  add : ∀ {w a b a' b'}, s w a a' → s w b b' → R w (c.add a b) (c'.add a' b') s
  sub : ∀ {w a b a' b'}, s w a a' → s w b b' → R w (c.sub a b) (c'.sub a' b') s
  mul : ∀ {w a b a' b'}, s w a a' → s w b b' → R w (c.mul a b) (c'.mul a' b') s
  div : ∀ {w a b a' b'}, s w a a' → s w b b' → R w (c.div a b) (c'.div a' b') s
  square : ∀ {w a a'}, s w a a' → R w (c.square a) (c'.square a') s
  sumWithCoeff : ∀ {w k l l'}, List.Forall₂ (fun x x' => s w x.1 x'.1 ∧ x.2 = x'.2) l l' → R w (c.sumWithCoeff l k) (c'.sumWithCoeff l' k) s
  assignZero : ∀ {w}, R w c.assignZero c'.assignZero s
  assignOne : ∀ {w}, R w c.assignOne c'.assignOne s
  assignConst : ∀ {w} k, R w (c.assignConst k) (c'.assignConst k) fun w => known w k
  toValue : ∀ {w k a a'}, known w k a a' → R w (c.toValue a) (c'.toValue a') fun _ v v' => v = v'
  pAdd : ∀ {w a b a' b'}, p w a a' → p w b b' → R w (c.pAdd a b) (c'.pAdd a' b') p
  pSub : ∀ {w a b a' b'}, p w a a' → p w b b' → R w (c.pSub a b) (c'.pSub a' b') o
  pAssignOne : ∀ {w}, R w c.pAssignOne c'.pAssignOne p
  pAssignConst : ∀ {w} P, R w (c.pAssignConst P) (c'.pAssignConst (φ P)) n
  normalize : ∀ {w a a'}, p w a a' → R w (c.normalize a) (c'.normalize a') n
  scalarMul : ∀ {w k k' a a'}, s w k k' → p w a a' → R w (c.scalarMul k a) (c'.scalarMul k' a') p
  scalarMulConstant : ∀ {w k k'} P, s w k k' → R w (c.scalarMulConstant k P) (c'.scalarMulConstant k' (φ P)) p
  multiExp : ∀ {w ps ps' ss ss'}, List.Forall₂ (n w) ps ps' → List.Forall₂ (s w) ss ss' → R w (c.multiExp ps ss) (c'.multiExp ps' ss') p

/-! ### Related lists and records -/

section Lists
variable {α α' β β' γ γ' : Type} {r : α → α' → Prop} {q : β → β' → Prop} {t : γ → γ' → Prop}

theorem rel_getElem? : ∀ {l : List α} {l' : List α'}, List.Forall₂ r l l' → ∀ i : ℕ, Option.Rel r l[i]? l'[i]?
  | _, _, .nil, i => by
    rw [List.getElem?_nil, List.getElem?_nil]
    exact .none
  | _, _, .cons h _, 0 => by
    rw [List.getElem?_cons_zero, List.getElem?_cons_zero]
    exact .some h
  | _, _, .cons _ hs, i + 1 => by simpa using rel_getElem? hs i

theorem rel_zip : ∀ {l : List α} {l' : List α'} {m : List β} {m' : List β'}, List.Forall₂ r l l' → List.Forall₂ q m m' →
    List.Forall₂ (fun x x' => r x.1 x'.1 ∧ q x.2 x'.2) (l.zip m) (l'.zip m')
  | _, _, _, _, .nil, _ => .nil
  | _, _, _, _, .cons _ _, .nil => .nil
  | _, _, _, _, .cons h hs, .cons g gs => .cons ⟨h, g⟩ (rel_zip hs gs)

theorem rel_zipIdx : ∀ {l : List α} {l' : List α'} (n : ℕ), List.Forall₂ r l l' →
    List.Forall₂ (fun x x' => r x.1 x'.1 ∧ x.2 = x'.2) (l.zipIdx n) (l'.zipIdx n)
  | _, _, _, .nil => .nil
  | _, _, n, .cons h hs => .cons ⟨h, rfl⟩ (rel_zipIdx (n + 1) hs)

theorem rel_map {f : α → β} {f' : α' → β'} (hf : ∀ a a', r a a' → q (f a) (f' a')) : ∀ {l : List α} {l' : List α'}, List.Forall₂ r l l' →
    List.Forall₂ q (l.map f) (l'.map f')
  | _, _, .nil => .nil
  | _, _, .cons h hs => .cons (hf _ _ h) (rel_map hf hs)

theorem rel_mapIdx {f : ℕ → α → β} {f' : ℕ → α' → β'} (hf : ∀ i a a', r a a' → q (f i a) (f' i a')) {l : List α} {l' : List α'} (h : List.Forall₂ r l l') :
    List.Forall₂ q (l.mapIdx f) (l'.mapIdx f') := by
  rw [List.mapIdx_eq_zipIdx_map, List.mapIdx_eq_zipIdx_map]
  refine rel_map (r := fun x x' => r x.1 x'.1 ∧ x.2 = x'.2) (fun a a' h => ?_) (rel_zipIdx 0 h)
  obtain ⟨a, i⟩ := a
  obtain ⟨a', i'⟩ := a'
  obtain ⟨h, rfl⟩ := h
  exact hf _ _ _ h

theorem rel_append {l m : List α} {l' m' : List α'} (h : List.Forall₂ r l l') (g : List.Forall₂ r m m') : List.Forall₂ r (l ++ m) (l' ++ m') :=
  List.rel_append h g

theorem rel_reverse {l : List α} {l' : List α'} (h : List.Forall₂ r l l') : List.Forall₂ r l.reverse l'.reverse := List.rel_reverse h

theorem rel_flatten {l : List (List α)} {l' : List (List α')} (h : List.Forall₂ (List.Forall₂ r) l l') : List.Forall₂ r l.flatten l'.flatten :=
  List.rel_flatten h

theorem rel_flatMap {f : α → List β} {f' : α' → List β'} (hf : ∀ a a', r a a' → List.Forall₂ q (f a) (f' a')) {l : List α} {l' : List α'}
    (h : List.Forall₂ r l l') : List.Forall₂ q (l.flatMap f) (l'.flatMap f') := by
  rw [List.flatMap_def, List.flatMap_def]
  exact rel_flatten (rel_map hf h)

theorem rel_head? {l : List α} {l' : List α'} (h : List.Forall₂ r l l') : Option.Rel r l.head? l'.head? := by
  cases h with
  | nil => exact .none
  | cons h _ => exact .some h

theorem rel_getLast? {l : List α} {l' : List α'} (h : List.Forall₂ r l l') : Option.Rel r l.getLast? l'.getLast? := by
  rw [← List.head?_reverse, ← List.head?_reverse]
  exact rel_head? (rel_reverse h)

theorem rel_chunks (k : ℕ) : ∀ {l : List α} {l' : List α'}, List.Forall₂ r l l' → List.Forall₂ (List.Forall₂ r) (chunks k l) (chunks k l') := by
  intro l
  induction hn : l.length using Nat.strong_induction_on generalizing l with
  | _ n ih =>
    intro l' h
    rw [chunks.eq_def k l, chunks.eq_def k l']
    have e : l = [] ↔ l' = [] := by rw [← List.length_eq_zero_iff, ← List.length_eq_zero_iff, h.length_eq]
    by_cases hc : k = 0 ∨ l = []
    · rw [dif_pos hc, dif_pos (by rwa [← e])]
      exact .nil
    · rw [dif_neg hc, dif_neg (by rwa [← e])]
      rw [not_or] at hc
      have hpos := List.length_pos_iff.2 hc.2
      exact .cons (List.forall₂_take k h) (ih _ (by rw [List.length_drop]; omega) rfl (List.forall₂_drop k h))

theorem rel_find? {f : α → Bool} {f' : α' → Bool} (hf : ∀ a a', r a a' → f a = f' a') : ∀ {l : List α} {l' : List α'}, List.Forall₂ r l l' →
    Option.Rel r (l.find? f) (l'.find? f')
  | _, _, .nil => .none
  | _, _, .cons (a := a) h hs => by
    rw [List.find?_cons, List.find?_cons, ← hf _ _ h]
    cases f a with
    | true => exact .some h
    | false => exact rel_find? hf hs

theorem rel_filterMap {f : α → Option β} {f' : α' → Option β'} (hf : ∀ a a', r a a' → Option.Rel q (f a) (f' a')) {l : List α} {l' : List α'}
    (h : List.Forall₂ r l l') : List.Forall₂ q (l.filterMap f) (l'.filterMap f') := List.rel_filterMap (P := q) (fun a a' h => hf a a' h) h

theorem rel_isEmpty {l : List α} {l' : List α'} (h : List.Forall₂ r l l') : l.isEmpty = l'.isEmpty := by
  cases h <;> rfl

end Lists

section Records
variable {P P' S S' : Type} (p : P → P' → Prop) (s : S → S' → Prop)

inductive Ast.Rel : Ast S → Ast S' → Prop
  | value {a a'} : s a a' → Rel (.value a) (.value a')
  | add {a a' b b'} : Rel a a' → Rel b b' → Rel (.add a b) (.add a' b')
  | sub {a a' b b'} : Rel a a' → Rel b b' → Rel (.sub a b) (.sub a' b')
  | mul {a a' b b'} : Rel a a' → Rel b b' → Rel (.mul a b) (.mul a' b')
  | div {a a' b b'} : Rel a a' → Rel b b' → Rel (.div a b) (.div a' b')

inductive Expr.Rel : Expr S → Expr S' → Prop
  | constant {a a'} : s a a' → Rel (.constant a) (.constant a')
  | selector {i} : Rel (.selector i) (.selector i)
  | fixed {i} : Rel (.fixed i) (.fixed i)
  | advice {i} : Rel (.advice i) (.advice i)
  | instance {i} : Rel (.instance i) (.instance i)
  | challenge {i} : Rel (.challenge i) (.challenge i)
  | negated {a a'} : Rel a a' → Rel (.negated a) (.negated a')
  | sum {a a' b b'} : Rel a a' → Rel b b' → Rel (.sum a b) (.sum a' b')
  | product {a a' b b'} : Rel a a' → Rel b b' → Rel (.product a b) (.product a' b')
  | scaled {a a' f f'} : Rel a a' → s f f' → Rel (.scaled a f) (.scaled a' f')

structure QueryEvals.Rel (q : QueryEvals S) (q' : QueryEvals S') : Prop where
  fixed : List.Forall₂ s q.fixed q'.fixed
  advice : List.Forall₂ s q.advice q'.advice
  inst : List.Forall₂ s q.instance q'.instance
  challenges : List.Forall₂ s q.challenges q'.challenges

structure PermSet.Rel (x : PermSet P S) (x' : PermSet P' S') : Prop where
  commitment : p x.commitment x'.commitment
  eval : s x.eval x'.eval
  next : s x.next x'.next
  last : Option.Rel s x.last x'.last

structure PermEval.Rel (q : PermEval P S) (q' : PermEval P' S') : Prop where
  key : q.key = q'.key
  blinding : q.blinding = q'.blinding
  x : s q.x q'.x
  sets : List.Forall₂ (PermSet.Rel p s) q.sets q'.sets
  evals : List.Forall₂ s q.evals q'.evals
  chunkLen : q.chunkLen = q'.chunkLen

structure LookupEval.Rel (k : LookupEval P S) (k' : LookupEval P' S') : Prop where
  key : k.key = k'.key
  input : List.Forall₂ (Expr.Rel s) k.input k'.input
  table : List.Forall₂ (Expr.Rel s) k.table k'.table
  permutedInput : p k.permutedInput k'.permutedInput
  permutedTable : p k.permutedTable k'.permutedTable
  product : p k.product k'.product
  productEval : s k.productEval k'.productEval
  productNext : s k.productNext k'.productNext
  inputEval : s k.inputEval k'.inputEval
  inputInv : s k.inputInv k'.inputInv
  tableEval : s k.tableEval k'.tableEval

structure CommitQuery.Rel (q : CommitQuery P S) (q' : CommitQuery P' S') : Prop where
  key : q.key = q'.key
  commitment : Option.Rel p q.commitment q'.commitment
  eval : Option.Rel s q.eval q'.eval

inductive Schema.Rel : Schema P S → Schema P' S' → Prop
  | commitment {q q'} : CommitQuery.Rel p s q q' → Rel (.commitment q) (.commitment q')
  | eval {q q'} : CommitQuery.Rel p s q q' → Rel (.eval q) (.eval q')
  | scalar {a a'} : s a a' → Rel (.scalar a) (.scalar a')
  | add {l l' lc r r' rc} : Rel l l' → Rel r r' → Rel (.add l lc r rc) (.add l' lc r' rc)
  | mul {l l' lc r r' rc} : Rel l l' → Rel r r' → Rel (.mul l lc r rc) (.mul l' lc r' rc)

/-- All but the opening proofs. -/
structure Params.Rel (ks : S → S' → Prop) (a : Params P S) (a' : Params P' S') : Prop where
  key : a.key = a'.key
  gates : List.Forall₂ (List.Forall₂ (Expr.Rel s)) a.gates a'.gates
  l : a.l = a'.l
  lookups : List.Forall₂ (List.Forall₂ (LookupEval.Rel p s)) a.lookups a'.lookups
  perms : List.Forall₂ (PermEval.Rel p s) a.perms a'.perms
  instanceCommitments : List.Forall₂ (List.Forall₂ p) a.instanceCommitments a'.instanceCommitments
  instanceEvals : List.Forall₂ (List.Forall₂ s) a.instanceEvals a'.instanceEvals
  instanceQueries : a.instanceQueries = a'.instanceQueries
  challenges : List.Forall₂ s a.challenges a'.challenges
  adviceCommitments : List.Forall₂ (List.Forall₂ p) a.adviceCommitments a'.adviceCommitments
  adviceEvals : List.Forall₂ (List.Forall₂ s) a.adviceEvals a'.adviceEvals
  adviceQueries : a.adviceQueries = a'.adviceQueries
  fixedCommitments : List.Forall₂ p a.fixedCommitments a'.fixedCommitments
  fixedEvals : List.Forall₂ s a.fixedEvals a'.fixedEvals
  fixedQueries : a.fixedQueries = a'.fixedQueries
  permutationCommitments : List.Forall₂ p a.permutationCommitments a'.permutationCommitments
  permutationEvals : List.Forall₂ s a.permutationEvals a'.permutationEvals
  vanishCommitments : List.Forall₂ p a.vanishCommitments a'.vanishCommitments
  randomCommitment : p a.randomCommitment a'.randomCommitment
  randomEval : s a.randomEval a'.randomEval
  beta : s a.beta a'.beta
  gamma : s a.gamma a'.gamma
  theta : s a.theta a'.theta
  delta : s a.delta a'.delta
  x : s a.x a'.x
  xNext : s a.xNext a'.xNext
  xLast : s a.xLast a'.xLast
  xInv : s a.xInv a'.xInv
  xn : s a.xn a'.xn
  y : s a.y a'.y
  u : s a.u a'.u
  v : s a.v a'.v
  omega : ks a.omega a'.omega
  zero : s a.zero a'.zero
  one : s a.one a'.one
  n : s a.n a'.n

end Records

/-- The key with its points mapped. -/
def VK.map {F G G' : Type} (φ : G → G') (vk : VK F G) : VK F G' :=
  { vk with fixedCommitments := vk.fixedCommitments.map φ, permutationCommitments := vk.permutationCommitments.map φ, gLagrange := vk.gLagrange.map φ }

theorem Option.rel_imp {α β : Type} {r r' : α → β → Prop} (h : ∀ a b, r a b → r' a b) {o : Option α} {o' : Option β} (ho : Option.Rel r o o') :
    Option.Rel r' o o' := by
  cases ho with
  | none => exact .none
  | some ho => exact .some (h _ _ ho)

section Imp
variable {P P' S S' : Type} {p q : P → P' → Prop} {s t : S → S' → Prop} (hp : ∀ a b, p a b → q a b) (hs : ∀ a b, s a b → t a b)
include hs

theorem Ast.Rel.imp {a : Ast S} {a' : Ast S'} (h : a.Rel s a') : a.Rel t a' := by
  induction h with
  | value h => exact .value (hs _ _ h)
  | add _ _ h h' => exact .add h h'
  | sub _ _ h h' => exact .sub h h'
  | mul _ _ h h' => exact .mul h h'
  | div _ _ h h' => exact .div h h'

theorem Expr.Rel.imp {a : Expr S} {a' : Expr S'} (h : a.Rel s a') : a.Rel t a' := by
  induction h with
  | constant h => exact .constant (hs _ _ h)
  | selector => exact .selector
  | fixed => exact .fixed
  | advice => exact .advice
  | «instance» => exact .instance
  | challenge => exact .challenge
  | negated _ h => exact .negated h
  | sum _ _ h h' => exact .sum h h'
  | product _ _ h h' => exact .product h h'
  | scaled _ f h => exact .scaled h (hs _ _ f)

theorem QueryEvals.Rel.imp {a : QueryEvals S} {a' : QueryEvals S'} (h : a.Rel s a') : a.Rel t a' :=
  ⟨h.fixed.imp hs, h.advice.imp hs, h.inst.imp hs, h.challenges.imp hs⟩

include hp

theorem PermSet.Rel.imp {a : PermSet P S} {a' : PermSet P' S'} (h : a.Rel p s a') : a.Rel q t a' :=
  ⟨hp _ _ h.commitment, hs _ _ h.eval, hs _ _ h.next, Option.rel_imp hs h.last⟩

theorem PermEval.Rel.imp {a : PermEval P S} {a' : PermEval P' S'} (h : a.Rel p s a') : a.Rel q t a' :=
  ⟨h.key, h.blinding, hs _ _ h.x, h.sets.imp fun _ _ => .imp hp hs, h.evals.imp hs, h.chunkLen⟩

theorem LookupEval.Rel.imp {a : LookupEval P S} {a' : LookupEval P' S'} (h : a.Rel p s a') : a.Rel q t a' :=
  ⟨h.key, h.input.imp fun _ _ => .imp hs, h.table.imp fun _ _ => .imp hs, hp _ _ h.permutedInput, hp _ _ h.permutedTable, hp _ _ h.product,
    hs _ _ h.productEval, hs _ _ h.productNext, hs _ _ h.inputEval, hs _ _ h.inputInv, hs _ _ h.tableEval⟩

theorem CommitQuery.Rel.imp {a : CommitQuery P S} {a' : CommitQuery P' S'} (h : a.Rel p s a') : a.Rel q t a' :=
  ⟨h.key, Option.rel_imp hp h.commitment, Option.rel_imp hs h.eval⟩

theorem Schema.Rel.imp {a : Schema P S} {a' : Schema P' S'} (h : a.Rel p s a') : a.Rel q t a' := by
  induction h with
  | commitment h => exact .commitment (h.imp hp hs)
  | eval h => exact .eval (h.imp hp hs)
  | scalar h => exact .scalar (hs _ _ h)
  | add _ _ h h' => exact .add h h'
  | mul _ _ h h' => exact .mul h h'

theorem Params.Rel.imp {k k' : S → S' → Prop} (hk : ∀ a b, k a b → k' a b) {a : Params P S} {a' : Params P' S'} (h : a.Rel p s k a') :
    a.Rel q t k' a' where
  key := h.key
  gates := h.gates.imp fun _ _ h => h.imp fun _ _ => .imp hs
  l := h.l
  lookups := h.lookups.imp fun _ _ h => h.imp fun _ _ => .imp hp hs
  perms := h.perms.imp fun _ _ => .imp hp hs
  instanceCommitments := h.instanceCommitments.imp fun _ _ h => h.imp hp
  instanceEvals := h.instanceEvals.imp fun _ _ h => h.imp hs
  instanceQueries := h.instanceQueries
  challenges := h.challenges.imp hs
  adviceCommitments := h.adviceCommitments.imp fun _ _ h => h.imp hp
  adviceEvals := h.adviceEvals.imp fun _ _ h => h.imp hs
  adviceQueries := h.adviceQueries
  fixedCommitments := h.fixedCommitments.imp hp
  fixedEvals := h.fixedEvals.imp hs
  fixedQueries := h.fixedQueries
  permutationCommitments := h.permutationCommitments.imp hp
  permutationEvals := h.permutationEvals.imp hs
  vanishCommitments := h.vanishCommitments.imp hp
  randomCommitment := hp _ _ h.randomCommitment
  randomEval := hs _ _ h.randomEval
  beta := hs _ _ h.beta
  gamma := hs _ _ h.gamma
  theta := hs _ _ h.theta
  delta := hs _ _ h.delta
  x := hs _ _ h.x
  xNext := hs _ _ h.xNext
  xLast := hs _ _ h.xLast
  xInv := hs _ _ h.xInv
  xn := hs _ _ h.xn
  y := hs _ _ h.y
  u := hs _ _ h.u
  v := hs _ _ h.v
  omega := hk _ _ h.omega
  zero := hs _ _ h.zero
  one := hs _ _ h.one
  n := hs _ _ h.n

end Imp

namespace Link
variable {F G G' : Type} {c : Chip F G} {c' : Chip F G'} {φ : G → G'} (X : Link c c' φ)

def konst (w : X.W) (a : c.S) (a' : c'.S) : Prop := ∃ k, X.known w k a a'
def Ast (w : X.W) : Api.Ast c.S → Api.Ast c'.S → Prop := Ast.Rel (X.s w)
def Expr (w : X.W) : Api.Expr c.S → Api.Expr c'.S → Prop := Expr.Rel (X.s w)
def Evals (w : X.W) : QueryEvals c.S → QueryEvals c'.S → Prop := QueryEvals.Rel (X.s w)
def Set (w : X.W) : PermSet c.P c.S → PermSet c'.P c'.S → Prop := PermSet.Rel (X.n w) (X.s w)
def Perm (w : X.W) : PermEval c.P c.S → PermEval c'.P c'.S → Prop := PermEval.Rel (X.n w) (X.s w)
def Lookup (w : X.W) : LookupEval c.P c.S → LookupEval c'.P c'.S → Prop := LookupEval.Rel (X.n w) (X.s w)
def Schema (w : X.W) : Api.Schema c.P c.S → Api.Schema c'.P c'.S → Prop := Schema.Rel (X.n w) (X.s w)
def Params (w : X.W) : Api.Params c.P c.S → Api.Params c'.P c'.S → Prop := Params.Rel (X.n w) (X.s w) (X.konst w)

structure Entry (w : X.W) (e : Api.Entry c) (e' : Api.Entry c') : Prop where
  key : e.1 = e'.1
  point : Option.Rel (X.n w) e.2.1 e'.2.1
  coef : Option.Rel (X.s w) e.2.2 e'.2.2

structure Query (w : X.W) (q : EvalQuery c) (q' : EvalQuery c') : Prop where
  point : X.s w q.point q'.point
  rotation : q.rotation = q'.rotation
  s : X.Schema w q.s q'.s

structure Group (w : X.W) (g : Api.Group c) (g' : Api.Group c') : Prop where
  rotation : g.1 = g'.1
  point : X.s w g.2.1 g'.2.1
  list : List.Forall₂ (X.Schema w) g.2.2 g'.2.2

structure Proof (w : X.W) (q : EvalProof c) (q' : EvalProof c') : Prop where
  point : X.s w q.point q'.point
  s : X.Schema w q.s q'.s
  w : X.n w q.w q'.w

structure Open (w : X.W) (m : MultiOpen c) (m' : MultiOpen c') : Prop where
  wx : X.Schema w m.wx m'.wx
  wg : X.Schema w m.wg m'.wg

structure Vanish (w : X.W) (v : VanishEval c) (v' : VanishEval c') : Prop where
  key : v.key = v'.key
  h : X.Schema w v.h v'.h
  expectedEval : X.s w v.expectedEval v'.expectedEval
  random : X.n w v.random v'.random
  randomEval : X.s w v.randomEval v'.randomEval

instance {a b} : Up X.le fun w => X.s w a b := ⟨X.s_up⟩
instance {a b} : Up X.le fun w => X.p w a b := ⟨X.p_up⟩
instance {a b} : Up X.le fun w => X.n w a b := ⟨X.n_up⟩
instance {a b} : Up X.le fun w => X.o w a b := ⟨X.o_up⟩
instance {k a b} : Up X.le fun w => X.known w k a b := ⟨X.known_up⟩
instance {a b} : Up X.le fun w => X.konst w a b := ⟨fun h ⟨k, hk⟩ => ⟨k, X.known_up h hk⟩⟩
instance {a b} : Up X.le fun w => X.Ast w a b := ⟨fun h => .imp fun _ _ => X.s_up h⟩
instance {a b} : Up X.le fun w => X.Expr w a b := ⟨fun h => .imp fun _ _ => X.s_up h⟩
instance {a b} : Up X.le fun w => X.Evals w a b := ⟨fun h => .imp fun _ _ => X.s_up h⟩
instance {a b} : Up X.le fun w => X.Set w a b := ⟨fun h => .imp (fun _ _ => X.n_up h) fun _ _ => X.s_up h⟩
instance {a b} : Up X.le fun w => X.Perm w a b := ⟨fun h => .imp (fun _ _ => X.n_up h) fun _ _ => X.s_up h⟩
instance {a b} : Up X.le fun w => X.Lookup w a b := ⟨fun h => .imp (fun _ _ => X.n_up h) fun _ _ => X.s_up h⟩
theorem schema_up {w w'} (h : X.le w w') {a b} : X.Schema w a b → X.Schema w' a b := .imp (fun _ _ => X.n_up h) fun _ _ => X.s_up h
instance {a b} : Up X.le fun w => X.Schema w a b := ⟨fun h => X.schema_up h⟩
instance {a b} : Up X.le fun w => X.Params w a b :=
  ⟨fun h => .imp (fun _ _ => X.n_up h) (fun _ _ => X.s_up h) fun _ _ ⟨k, hk⟩ => ⟨k, X.known_up h hk⟩⟩
instance {a b} : Up X.le fun w => X.Entry w a b :=
  ⟨fun h e => ⟨e.key, Option.rel_imp (fun _ _ => X.n_up h) e.point, Option.rel_imp (fun _ _ => X.s_up h) e.coef⟩⟩
instance {a b} : Up X.le fun w => X.Query w a b := ⟨fun h e => ⟨X.s_up h e.point, e.rotation, X.schema_up h e.s⟩⟩
instance {a b} : Up X.le fun w => X.Group w a b := ⟨fun h e => ⟨e.rotation, X.s_up h e.point, e.list.imp fun _ _ => X.schema_up h⟩⟩
instance {a b} : Up X.le fun w => X.Proof w a b := ⟨fun h e => ⟨X.s_up h e.point, X.schema_up h e.s, X.n_up h e.w⟩⟩
instance {a b} : Up X.le fun w => X.Open w a b := ⟨fun h e => ⟨X.schema_up h e.wx, X.schema_up h e.wg⟩⟩
instance {a b} : Up X.le fun w => X.Vanish w a b :=
  ⟨fun h e => ⟨e.key, X.schema_up h e.h, X.s_up h e.expectedEval, X.n_up h e.random, X.s_up h e.randomEval⟩⟩

end Link

end Verif.Api
