import Verif.Circuit.Base

/-!
# Straight-line programs over the native gate, and their direct meaning

`Op` lists the calls a user can make on `BaseGateOps`
(`halo2-ecc-circuit-lib/src/gates/base_gate.rs:157-689`, five-column overrides in
`halo2-ecc-circuit-lib/src/five/base_gate.rs`).  A program is a list of calls; the arguments are
positions in the list of cells obtained so far.  `Op.run` is the chip; `Op.value`, `Op.claim` and
`Op.Sem` are the independent meaning over field elements, without rows, cells or witnesses.
-/

namespace Verif.Circuit

/-- One call; `ι` is the type of arguments (positions in source programs, cells when run, field
elements in the specification). -/
inductive Op (F ι : Type) where
  | assign (v : F)
  | constant (v : F)
  | sum (l : List (ι × F)) (k : F)
  | add (a b : ι)
  | addConstant (a : ι) (k : F)
  | sub (a b : ι)
  | mul (a b : ι)
  | mulAddConstant (a b : ι) (k : F)
  | mulAdd (a b c : ι) (k : F)
  | mulAdd2 (a b c : ι) (k : F) (d : ι) (l : F)
  | mulAddNext (l : List (ι × ι × ι × F))
  | invertUnsafe (a : ι)
  | invert (a : ι)
  | isZero (a : ι)
  | divUnsafe (a b : ι)
  | and (a b : ι)
  | or (a b : ι)
  | xor (a b : ι)
  | xnor (a b : ι)
  | not (a : ι)
  | bisec (c a b : ι)
  | bisecCond (c a b : ι)
  | assertEqual (a b : ι)
  | assertConstant (a : ι) (k : F)
  | assertBit (a : ι)
  | assertTrue (a : ι)
  | assertFalse (a : ι)

namespace Op
variable {F ι κ : Type}

/-- Replace the arguments. -/
def map (f : ι → κ) : Op F ι → Op F κ
  | .assign v => .assign v
  | .constant v => .constant v
  | .sum l k => .sum (l.map fun p => (f p.1, p.2)) k
  | .add a b => .add (f a) (f b)
  | .addConstant a k => .addConstant (f a) k
  | .sub a b => .sub (f a) (f b)
  | .mul a b => .mul (f a) (f b)
  | .mulAddConstant a b k => .mulAddConstant (f a) (f b) k
  | .mulAdd a b c k => .mulAdd (f a) (f b) (f c) k
  | .mulAdd2 a b c k d l => .mulAdd2 (f a) (f b) (f c) k (f d) l
  | .mulAddNext l => .mulAddNext (l.map fun p => (f p.1, f p.2.1, f p.2.2.1, p.2.2.2))
  | .invertUnsafe a => .invertUnsafe (f a)
  | .invert a => .invert (f a)
  | .isZero a => .isZero (f a)
  | .divUnsafe a b => .divUnsafe (f a) (f b)
  | .and a b => .and (f a) (f b)
  | .or a b => .or (f a) (f b)
  | .xor a b => .xor (f a) (f b)
  | .xnor a b => .xnor (f a) (f b)
  | .not a => .not (f a)
  | .bisec c a b => .bisec (f c) (f a) (f b)
  | .bisecCond c a b => .bisecCond (f c) (f a) (f b)
  | .assertEqual a b => .assertEqual (f a) (f b)
  | .assertConstant a k => .assertConstant (f a) k
  | .assertBit a => .assertBit (f a)
  | .assertTrue a => .assertTrue (f a)
  | .assertFalse a => .assertFalse (f a)

/-- The argument positions of a call. -/
def args : Op F ι → List ι
  | .assign _ => []
  | .constant _ => []
  | .sum l _ => l.map fun p => p.1
  | .add a b => [a, b]
  | .addConstant a _ => [a]
  | .sub a b => [a, b]
  | .mul a b => [a, b]
  | .mulAddConstant a b _ => [a, b]
  | .mulAdd a b c _ => [a, b, c]
  | .mulAdd2 a b c _ d _ => [a, b, c, d]
  | .mulAddNext l => l.flatMap fun p => [p.1, p.2.1, p.2.2.1]
  | .invertUnsafe a => [a]
  | .invert a => [a]
  | .isZero a => [a]
  | .divUnsafe a b => [a, b]
  | .and a b => [a, b]
  | .or a b => [a, b]
  | .xor a b => [a, b]
  | .xnor a b => [a, b]
  | .not a => [a]
  | .bisec c a b => [c, a, b]
  | .bisecCond c a b => [c, a, b]
  | .assertEqual a b => [a, b]
  | .assertConstant a _ => [a]
  | .assertBit a => [a]
  | .assertTrue a => [a]
  | .assertFalse a => [a]

end Op

section
variable {F : Type} [Field F] [DecidableEq F]

/-- The chip: one call on cells, returning the cells it hands back (each constructor is the function of
`Base.lean` of that name). -/
def Op.run : Op F (AV F) → M F (List (AV F))
  | .assign v => do return [← Circuit.assign v]
  | .constant v => do return [← assignConstant v]
  | .sum l k => do return [← sumWithConstant l k]
  | .add a b => do return [← Circuit.add a b]
  | .addConstant a k => do return [← Circuit.addConstant a k]
  | .sub a b => do return [← Circuit.sub a b]
  | .mul a b => do return [← Circuit.mul a b]
  | .mulAddConstant a b k => do return [← Circuit.mulAddConstant a b k]
  | .mulAdd a b c k => do return [← Circuit.mulAdd a b c k]
  | .mulAdd2 a b c k d l => do return [← Circuit.mulAdd2 a b c k d l]
  | .mulAddNext l => do return [← mulAddWithNextLine (l.map fun p => ⟨p.1, p.2.1, p.2.2.1, p.2.2.2⟩)]
  | .invertUnsafe a => do return [← Circuit.invertUnsafe a]
  | .invert a => do let p ← Circuit.invert a; return [p.1, p.2]
  | .isZero a => do return [← Circuit.isZero a]
  | .divUnsafe a b => do return [← Circuit.divUnsafe a b]
  | .and a b => do return [← Circuit.and a b]
  | .or a b => do return [← Circuit.or a b]
  | .xor a b => do return [← Circuit.xor a b]
  | .xnor a b => do return [← Circuit.xnor a b]
  | .not a => do return [← Circuit.not a]
  | .bisec c a b => do return [← Circuit.bisec c a b]
  | .bisecCond c a b => do return [← Circuit.bisecCond c a b]
  | .assertEqual a b => do Circuit.assertEqual a b; return []
  | .assertConstant a k => do Circuit.assertConstant a k; return []
  | .assertBit a => do Circuit.assertBit a; return []
  | .assertTrue a => do Circuit.assertTrue a; return []
  | .assertFalse a => do Circuit.assertFalse a; return []

/-- Run a program: every call may use any cell obtained before it. A position that does not exist is a
malformed program (`none`). -/
def runProg : List (Op F ℕ) → List (AV F) → M F (List (AV F))
  | [], env => pure env
  | op :: ops, env => do
    assertM (∀ i ∈ op.args, i < env.length)
    let new ← Op.run (op.map fun i => env.getD i ⟨⟨0, 0⟩, 0⟩)
    runProg ops (env ++ new)

/-! ### Specification -/

/-- What a call computes from the argument values; `none` is a panic.  The only panics are inversion of
zero, division by zero and an empty multiply-accumulate. -/
def Op.value : Op F F → Option (List F)
  | .assign v => some [v]
  | .constant v => some [v]
  | .sum l k => some [k + (l.map fun p => p.2 * p.1).sum]
  | .add a b => some [a + b]
  | .addConstant a k => some [a + k]
  | .sub a b => some [a - b]
  | .mul a b => some [a * b]
  | .mulAddConstant a b k => some [a * b + k]
  | .mulAdd a b c k => some [a * b + k * c]
  | .mulAdd2 a b c k d l => some [a * b + k * c + l * d]
  | .mulAddNext l =>
    if l = [] then none else some [(l.map fun p => p.1 * p.2.1 + p.2.2.2 * p.2.2.1).sum]
  | .invertUnsafe a => if a = 0 then none else some [a⁻¹]
  | .invert a => some [if a = 0 then 1 else 0, a⁻¹]
  | .isZero a => some [if a = 0 then 1 else 0]
  | .divUnsafe a b => if b = 0 then none else some [a / b]
  | .and a b => some [a * b]
  | .or a b => some [a + b - a * b]
  | .xor a b => some [a + b - 2 * (a * b)]
  | .xnor a b => some [1 - a - b + 2 * (a * b)]
  | .not a => some [1 - a]
  | .bisec c a b => some [c * a + (1 - c) * b]
  | .bisecCond c a b => some [c * a + (1 - c) * b]
  | .assertEqual _ _ => some []
  | .assertConstant _ _ => some []
  | .assertBit _ => some []
  | .assertTrue _ => some []
  | .assertFalse _ => some []

/-- What an assertion asserts about its argument values. -/
def Op.claim : Op F F → Prop
  | .assertEqual a b => a = b
  | .assertConstant a k => a = k
  | .assertBit a => a = 0 ∨ a = 1
  | .assertTrue a => a = 1
  | .assertFalse a => a = 0
  | _ => True

/-- What the results of a call must be, whoever wrote the witness.  A prover chooses the value of
`assign`, the inverse cell of `invert` when the argument is zero, and the quotient of `div_unsafe` when
both arguments are zero; everything else is `value`. -/
def Op.Sem (op : Op F F) (new : List F) : Prop :=
  op.claim ∧
  match op with
  | .assign _ => ∃ v, new = [v]
  | .invert a => ∃ v, new = [if a = 0 then 1 else 0, v] ∧ (a ≠ 0 → v = a⁻¹)
  | .divUnsafe a b => ∃ v, new = [v] ∧ (b ≠ 0 → v = a / b) ∧ (b = 0 → a = 0)
  | op => op.value = some new

/-- Meaning of a program on field elements, for an arbitrary prover: each call extends the list of
values by results allowed by `Op.Sem`. -/
def progSem : List (Op F ℕ) → List F → List F → Prop
  | [], env, out => out = env
  | op :: ops, env, out =>
    (∀ i ∈ op.args, i < env.length) ∧
      ∃ new, Op.Sem (op.map fun i => env.getD i 0) new ∧ progSem ops (env ++ new) out

/-- Direct evaluation of a program; `none` is a panic (or a position that does not exist). -/
def progValue : List (Op F ℕ) → List F → Option (List F)
  | [], env => some env
  | op :: ops, env =>
    if ∀ i ∈ op.args, i < env.length then do
      let new ← Op.value (op.map fun i => env.getD i 0)
      progValue ops (env ++ new)
    else none

/-- All assertions made along the direct evaluation hold. -/
def progClaims : List (Op F ℕ) → List F → Prop
  | [], _ => True
  | op :: ops, env =>
    Op.claim (op.map fun i => env.getD i 0) ∧
      ∀ new, Op.value (op.map fun i => env.getD i 0) = some new → progClaims ops (env ++ new)

end
end Verif.Circuit
