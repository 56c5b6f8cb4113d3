import Verif.Sol.GenTotal
import Verif.Sol.ScriptRuns
import Verif.Sol.ContractSha

/-!
# The generated verifier does not revert: C76

C73 and C74 say what a call that returns has computed. Here: a call with the bytes of a proof that native verification accepts does return.
-/

namespace Verif.Sol
open Verif.Circuit Verif.Ecc

/-- The native chip, which fails when the identity is subtracted. -/
noncomputable abbrev strictChip : Api.Chip N Pt := Api.checked N gen (fun x => x⁻¹) (fun _ => true) proper

namespace Runs
variable {E : Env} {s0 : St}

variable (E s0) in
/-- If the native computation returns, and the generator did, then the recorded statements run. -/
def R {α α' : Type} (w : ℕ × St) (x : Option α) (x' : Gen α') (Q : ℕ × St → α → α' → Prop) : Prop :=
  ∀ a, x = some a → CEns E s0 w.1 w.2 x' fun n s a' => Q (n, s) a a'

variable {w : ℕ × St}

theorem R.some {α α' : Type} {a : α} {x' : Gen α'} {Q : ℕ × St → α → α' → Prop} (h : CEns E s0 w.1 w.2 x' fun n s a' => Q (n, s) a a') :
    R E s0 w (.some a) x' Q := fun _ e => by
  cases e
  exact h

theorem R.pure {α α' : Type} {a : α} {a' : α'} {Q : ℕ × St → α → α' → Prop} (h : Q w a a') : R E s0 w (.some a) (Pure.pure a') Q := .some (.pure h)

theorem R.bind {α α' β β' : Type} {x : Option α} {x' : Gen α'} {f : α → Option β} {f' : α' → Gen β'} {Q : ℕ × St → α → α' → Prop}
    {S : ℕ × St → β → β' → Prop} (hx : R E s0 w x x' Q) (h : ∀ w' a a', Later w.1 w.2 w'.1 w'.2 → Q w' a a' → R E s0 w' (f a) (f' a') S) :
    R E s0 w (x.bind f) (x' >>= f') S := fun b e => by
  obtain ⟨a, h1, h2⟩ := Option.bind_eq_some_iff.1 e
  exact .bind (hx a h1) fun a' n' s' hl hq => h (n', s') a a' hl hq b h2

variable (E) in
def S (w : ℕ × St) (a : N) (a' : SVal) : Prop := CEns.S E a w.1 w.2 a'

variable (E) in
def P (w : ℕ × St) (a : Pt) (a' : PVal) : Prop := CEns.P E a w.1 w.2 a'

theorem R.div {a b : N} {a' b' : SVal} (ha : S E w a a') (hb : S E w b b') : R E s0 w (strictChip.div a b) (a'.div b') (S E) := fun r hr => by
  change (if b * b⁻¹ = 1 then Option.some (a * b⁻¹) else none) = _ at hr
  split at hr
  · next e =>
    have hb0 : b ≠ 0 := by
      rintro rfl
      rw [zero_mul] at e
      exact zero_ne_one e
    cases hr
    rw [← div_eq_mul_inv]
    exact CEns.div ha hb hb0
  · cases hr

theorem keepAll (X : Pt) : Api.keep (fun _ => true) X = Option.some X := rfl

theorem R.pSub {a b : Pt} {a' b' : PVal} (ha : P E w a a') (hb : P E w b b') : R E s0 w (strictChip.pSub a b) (a'.sub b') (P E) := fun r hr => by
  change (if proper b = true then Option.some (a - b) else none) = _ at hr
  split at hr
  · next e =>
    cases hr
    exact CEns.pSub ha hb (proper_iff.1 e)
  · cases hr

theorem R.sum {l : List (N × N)} {l' : List (SVal × N)} (h : List.Forall₂ (fun x x' => S E w x.1 x'.1 ∧ x.2 = x'.2) l l') (k : N) :
    R E s0 w (.some (Api.mockSum k l)) (SVal.sumLoop l' (.const k)) (S E) := by
  refine .some ?_
  rw [show Api.mockSum k l = k + (l.map fun y => y.2 * y.1).sum from ?_]
  · exact CEns.sumLoop (h.flip.imp fun a b hab => ⟨hab.1, hab.2.symm⟩) (CEns.const_s k)
  · clear h
    induction l generalizing k with
    | nil => simp [Api.mockSum]
    | cons a l ih =>
      rw [Api.mockSum, ih, List.map_cons, List.sum_cons]
      ring

theorem R.square {a : N} {a' : SVal} (ha : S E w a a') : R E s0 w (.some (a * a)) a'.square (S E) := by
  rw [← sq]
  exact .some (CEns.square ha)

theorem R.multiExp {ps : List Pt} : ∀ {w : ℕ × St} {ps' : List PVal} {ss : List N} {ss' : List SVal} {acc : Option Pt} {acc' : Option PVal},
    List.Forall₂ (P E w) ps ps' → List.Forall₂ (S E w) ss ss' → Option.Rel (P E w) acc acc' →
    R E s0 w (Api.checkedMultiExp (fun _ => true) acc ps ss) (PVal.multiExp acc' ps' ss') (P E) := by
  induction ps with
  | nil =>
    intro w ps' ss ss' acc acc' hp hs ha
    cases hp
    have e : Api.checkedMultiExp (F := N) (fun _ => true) acc [] ss = acc := by cases ss <;> rfl
    rw [e]
    unfold PVal.multiExp
    cases ha with
    | none => exact fun _ h => by cases h
    | some h => exact .pure h
  | cons p ps ih =>
    intro w ps' ss ss' acc acc' hp hs ha
    cases hp with | cons hp hps =>
    cases hs with
    | nil =>
      cases ha with
      | none => exact fun _ h => by cases h
      | some h => exact .pure h
    | cons hs hss =>
      refine R.bind (x := Option.some _) (Q := P E) (.some (CEns.pMul hs hp)) fun w1 cur cur' l1 hc => ?_
      have f1 := hps.imp fun a b hab => CEns.P.later hab l1
      have f2 := hss.imp fun a b hab => CEns.S.later hab l1
      cases ha with
      | none => exact ih f1 f2 (.some hc)
      | some h =>
        refine R.bind (x := Option.some _) (Q := P E) (.some (CEns.pAdd (CEns.P.later h l1) hc)) fun w2 r r' l2 hr => ?_
        exact ih (f1.imp fun a b hab => CEns.P.later hab l2) (f2.imp fun a b hab => CEns.S.later hab l2) (.some hr)

variable (E s0) in
/-- The contract follows the native chip. -/
noncomputable def link : Api.Link strictChip genChip (id : Pt → Pt) where
  W := ℕ × St
  le w w' := Later w.1 w.2 w'.1 w'.2
  refl w := .refl _ _
  trans h h' := h.trans h'
  R w x x' Q := R E s0 w x x' Q
  s w a a' := S E w a a'
  p w a a' := P E w a a'
  n w a a' := P E w a a'
  o w a a' := P E w a a'
  known w k a a' := a = k ∧ a' = SVal.const k
  s_up h hs := CEns.S.later hs h
  p_up h hp := CEns.P.later hp h
  n_up h hp := CEns.P.later hp h
  o_up h hp := CEns.P.later hp h
  n_p h := h
  p_o h := h
  known_up _ h := h
  known_s := fun {w k a b} h => by
    obtain ⟨rfl, rfl⟩ := h
    exact CEns.const_s _
  pure h := R.pure h
  bind hx h := R.bind hx fun w' a a' hl ha => h w' a a' hl ha
  mono hx h := fun a e => (hx a e).mono fun a' n' s' hl hq => h (n', s') a a' hl hq
  panic := fun a e => by cases e
  add ha hb := .some (CEns.add ha hb)
  sub ha hb := .some (CEns.sub ha hb)
  mul ha hb := .some (CEns.mul ha hb)
  div := R.div
  square := R.square
  sumWithCoeff h := R.sum h _
  assignZero := .pure (CEns.const_s 0)
  assignOne := .pure (CEns.const_s 1)
  assignConst k := .pure ⟨rfl, rfl⟩
  toValue := fun {w k a a'} h => by
    obtain ⟨rfl, rfl⟩ := h
    exact .pure rfl
  pAdd ha hb := .some (CEns.pAdd ha hb)
  pSub := R.pSub
  pAssignOne := .pure (CEns.const_p gen)
  pAssignConst P := .pure (CEns.const_p P)
  normalize h := .pure h
  scalarMul hk ha := .some (CEns.pMul hk ha)
  scalarMulConstant P hk := .some (CEns.pMulConstant hk P)
  multiExp hp hs := R.multiExp hp hs .none

end Runs
end Verif.Sol
