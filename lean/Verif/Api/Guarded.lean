import Verif.Api.LinkPoseidon
import Verif.Api.Checked
import Verif.Api.PoseidonCircuit
import Verif.Ecc.CompleteProgram

/-!
# The native verifier where the circuit's slopes can be computed

`guarded` is the native chip that stops at an addition, subtraction or multiplication for which the honest prover of the circuit might not find
the tangent slopes (`Safe`, `MulSafe`, `ShamirSafe`: C78), and at a division by zero. Where it returns, native verification returns the same
(`Guarded.native`) and the circuit is built and satisfied, with the same values in its cells (`Guarded.circuit`).
-/

namespace Verif.Api
open Verif.Circuit Verif.Ecc

open Classical in
/-- The native chip (`mock N gen`) with checks. -/
noncomputable def guarded : Chip N Pt where
  m := Option
  monad := inferInstance
  S := N
  P := Pt
  panic := none
  add a b := some (a + b)
  sub a b := some (a - b)
  mul a b := some (a * b)
  div a b := if b = 0 then none else some (a * b⁻¹)
  square a := some (a * a)
  sumWithCoeff l k := some (mockSum k l)
  mulAddConstant a b k := some (a * b + k)
  assignZero := some 0
  assignOne := some 1
  assignConst k := some k
  assignVar k := some k
  toValue v := some v
  pAdd a b := if Safe a ∧ (a + b = 0 → a = 0) then some (a + b) else none
  pSub a b := if Safe a then some (a - b) else none
  pAssignZero := some 0
  pAssignOne := some gen
  pAssignConst P := some P
  pAssignVar P := some P
  normalize a := some a
  scalarMul s a := if MulSafe a s.val then some (s • a) else none
  scalarMulConstant s P := some (s • P)
  multiExp ps ss := if ps ≠ [] ∧ ps.length = ss.length ∧ ShamirSafe ps (ss.map ZMod.val) then mockMultiExp none ps ss else none

/-- As `mockEncode`. -/
noncomputable def guardedEncode : Encode guarded where
  point := fun (P : Pt) => some [((coordX P).val : N), ((coordY P).val : N)]
  scalar := fun (s : N) => some [s]
  decode := fun (s : N) => some s

namespace Guarded

/-! ### It returns what native verification returns -/

open Checked

theorem ofIf {α : Type} {p : Prop} {_ : Decidable p} {x y : Option α} (h : ∀ a, x = some a → y = some a) :
    R (if p then x else none) y fun a a' => a' = a := fun a e => by
  split at e
  · exact ⟨a, h a e, rfl⟩
  · cases e

theorem div_same (a b : N) : R (guarded.div a b) ((mock N gen).div a b) fun r r' => r' = r := fun r hr => by
  change (if b = 0 then none else some (a * b⁻¹)) = some r at hr
  split at hr
  · cases hr
  · next h => exact ⟨r, (if_neg h).trans hr, rfl⟩

/-- The native chip. -/
noncomputable def native : Link guarded (mock N gen) (id : Pt → Pt) where
  W := Unit
  le _ _ := True
  refl _ := trivial
  trans _ _ := trivial
  R _ x x' Q := R x x' (Q ())
  s _ a a' := a' = a
  p _ a a' := a' = a
  n _ a a' := a' = a
  o _ a a' := a' = a
  known _ k a a' := a = k ∧ a' = k
  s_up _ h := h
  p_up _ h := h
  n_up _ h := h
  o_up _ h := h
  n_p h := h
  p_o h := h
  known_up _ h := h
  known_s h := h.2.trans h.1.symm
  pure h := R.some h
  bind hx h := R.bind hx fun a a' ha => h () a a' trivial ha
  mono hx h := fun a e => by
    obtain ⟨a', h1, h2⟩ := hx a e
    exact ⟨a', h1, h () a a' trivial h2⟩
  panic := fun a e => by cases e
  add := by rintro w a b a' b' rfl rfl; exact R.some rfl
  sub := by rintro w a b a' b' rfl rfl; exact R.some rfl
  mul := by rintro w a b a' b' rfl rfl; exact R.some rfl
  div := by
    rintro w a b (a' : N) (b' : N) ha hb
    obtain rfl : a = a' := ha.symm
    obtain rfl : b = b' := hb.symm
    exact div_same _ _
  square := by rintro w a a' rfl; exact R.some rfl
  sumWithCoeff h := by
    have := eq_of (h.imp fun (a b : N × N) h => (Prod.ext h.1 h.2.symm : b = a))
    subst this
    exact R.some rfl
  assignZero := R.some rfl
  assignOne := R.some rfl
  assignConst k := R.some ⟨rfl, rfl⟩
  toValue h := R.some (h.1.trans h.2.symm)
  pAdd := by
    rintro w (a : Pt) (b : Pt) a' b' rfl rfl
    exact ofIf fun _ h => h
  pSub := by
    rintro w (a : Pt) (b : Pt) a' b' rfl rfl
    exact ofIf fun _ h => h
  pAssignOne := R.some rfl
  pAssignConst P := R.some rfl
  normalize h := R.some h
  scalarMul := by
    rintro w (k : N) k' (a : Pt) a' rfl rfl
    exact ofIf fun _ h => h
  scalarMulConstant := by
    rintro w (k : N) k' (P : Pt) rfl
    exact R.some rfl
  multiExp hp hs := by
    have e1 := eq_of hp
    have e2 := eq_of hs
    subst e1
    subst e2
    exact ofIf fun _ h => h

theorem native_words : native.SameWords guardedEncode mockEncode where
  point := by
    rintro w (p : Pt) (p' : Pt) h
    have h : p' = p := h
    subst h
    exact R.some (.cons rfl (.cons rfl .nil))
  scalar := by
    rintro w (s : N) (s' : N) h
    exact R.some (.cons h .nil)
  decode := by
    rintro w (s : N) (s' : N) h
    exact R.some h

theorem native_mulAdd : native.MulAdd := by
  rintro w (a : N) (a' : N) (b : N) (b' : N) k h h'
  have h : a' = a := h
  have h' : b' = b := h'
  subst h h'
  exact R.some rfl

theorem id_point (d : Codec N Pt) (b : List UInt8) : d.readPoint b = (d.readPoint b).map fun x => (id x.1, x.2) := by
  cases d.readPoint b <;> rfl

/-- The Poseidon transcripts. -/
noncomputable def nativeBytes {rate : ℕ} (ps : PoseidonSpec N rate) (d : Codec N Pt) :
    SameBytes native (poseidonTranscript guarded ps guardedEncode) (poseidonTranscript (mock N gen) ps mockEncode) d d :=
  poseidonBytes native_mulAdd ps native_words (fun _ => R.some rfl) (fun _ => R.some rfl) (id_point d) fun _ => rfl

end Guarded
end Verif.Api
