import Mathlib.Algebra.Field.Basic
import Mathlib.Algebra.BigOperators.Fin

/-!
# Model of the five-column base gate

Sources: `halo2-ecc-circuit-lib/src/gates/base_gate.rs`, `halo2-ecc-circuit-lib/src/five/base_gate.rs`,
`halo2-ecc-circuit-lib/src/gates/range_gate.rs`, `halo2-ecc-circuit-lib/src/five/range_gate.rs`,
`halo2-ecc-circuit-lib/src/five/config.rs` (VAR_COLUMNS = 5, MUL_COLUMNS = 2).

The circuit is one region.  `one_line` writes the fixed cells and the five advice cells of the current
row and increments the offset.  A context keeps the fixed part (rows with their selectors), the copy
constraints and, separately, the honest advice values.  Panics are `none`.
-/

namespace Verif.Circuit

/-- A cell of the advice matrix (`Cell` of halo2: row offset and one of the five `base` columns). -/
structure Cell where
  row : ℕ
  col : Fin 5
  deriving DecidableEq, Repr

/-- `AssignedValue` (and `AssignedCondition`, same fields): base_gate.rs:10-20. The `From` conversions
of base_gate.rs:22-56 copy both fields, so one Lean type serves for both Rust types. -/
structure AV (F : Type) where
  cell : Cell
  value : F

/-- `ValueSchema`: base_gate.rs:58-62. -/
inductive Schema (F : Type) where
  | assigned (a : AV F)
  | unassigned (v : F)

/-- `ValueSchema::value`: base_gate.rs:77-82. -/
def Schema.value {F : Type} : Schema F → F
  | .assigned a => a.value
  | .unassigned v => v

/-- The fixed cells of one row: `coeff`, `mul_coeff`, `next_coeff`, `constant`
(`BaseGateConfig`, base_gate.rs:148-155) and the four range selectors (`RangeGateConfig`,
range_gate.rs:14-27; an unassigned selector is 0 = `false`). -/
structure Row (F : Type) where
  coeff : Fin 5 → F
  mul : Fin 2 → F
  next : F
  const : F
  common : Bool := false
  wLead : Bool := false
  nLead : Bool := false
  dLead : Bool := false

/-- `Context` (base_gate.rs:113-117) with the region contents made explicit: `offset`, the fixed rows
written so far, the copy constraints and the honest advice. -/
structure Ctx (F : Type) where
  offset : ℕ
  rows : List (ℕ × Row F)
  copies : List (Cell × Cell)
  wit : ℕ → Fin 5 → F

/-- An advice assignment chosen by a prover: every cell of every row. -/
abbrev Advice (F : Type) := ℕ → Fin 5 → F

/-- Value of a cell under an advice assignment. -/
def Advice.at {F : Type} (adv : Advice F) (c : Cell) : F := adv c.row c.col

/-- Value of an assigned value under an advice assignment (not the honest value it carries). -/
def AV.val {F : Type} (a : AV F) (adv : Advice F) : F := adv a.cell.row a.cell.col

/-- Circuit-building computation: state is the context, `none` is a Rust panic. -/
abbrev M (F : Type) := StateT (Ctx F) Option

section
variable {F : Type} [Field F]

/-- The custom gate of `BaseGate::configure`, base_gate.rs:701-720, at row `i`: it reads the five
advice cells of row `i` and the last advice cell of row `i + 1`. -/
def gateEval (row : Row F) (cur nxt : Fin 5 → F) : F :=
  row.const + nxt 4 * row.next
    + (cur 0 * row.coeff 0 + cur 1 * row.coeff 1 + cur 2 * row.coeff 2 + cur 3 * row.coeff 3
        + cur 4 * row.coeff 4)
    + (cur 0 * cur 1 * row.mul 0 + cur 2 * cur 3 * row.mul 1)

/-- Sizes (in bits) of the four lookup tables filled by `RangeGate::init_table`,
gates/range_gate.rs:198-294: table `k` contains `N::from(i)` for `i < 2^k`. -/
structure Tables where
  common : ℕ
  wLead : ℕ
  nLead : ℕ
  dLead : ℕ

/-- Membership in a range table of `bits` bits. -/
def inTable (bits : ℕ) (x : F) : Prop := ∃ k : ℕ, k < 2 ^ bits ∧ (k : F) = x

/-- The lookups of `FiveColumnRangeGate::configure`, five/range_gate.rs:45-80: with the common selector
on, advice columns 0..3 are in the common table; with a leading selector on, column 0 is in the
corresponding table. (With the selector off the looked-up expression is 0, which is in every table.) -/
def lookupsHold (t : Tables) (row : Row F) (cur : Fin 5 → F) : Prop :=
  (row.common = true → inTable t.common (cur 0) ∧ inTable t.common (cur 1)
      ∧ inTable t.common (cur 2) ∧ inTable t.common (cur 3))
    ∧ (row.wLead = true → inTable t.wLead (cur 0))
    ∧ (row.nLead = true → inTable t.nLead (cur 0))
    ∧ (row.dLead = true → inTable t.dLead (cur 0))

/-- The advice assignment satisfies everything emitted so far: gates, lookups, copy constraints. -/
def Sat (t : Tables) (ctx : Ctx F) (adv : Advice F) : Prop :=
  (∀ p ∈ ctx.rows, gateEval p.2 (adv p.1) (adv (p.1 + 1)) = 0 ∧ lookupsHold t p.2 (adv p.1))
    ∧ ∀ p ∈ ctx.copies, adv.at p.1 = adv.at p.2

/-- Range selectors switched on by the `one_line_in_*_range` functions. -/
structure Sel where
  common : Bool := false
  wLead : Bool := false
  nLead : Bool := false
  dLead : Bool := false

/-- The copy constraints added for one row: base_gate.rs:771 with `constrain_equal_conditionally`
(base_gate.rs:84-93): only `Assigned` schemas are linked to the new cell. -/
def copyOf (i : ℕ) (ps : List (Schema F × F)) (j : Fin 5) : List (Cell × Cell) :=
  match (ps.getD j (.unassigned 0, 0)).1 with
  | .assigned a => [(a.cell, ⟨i, j⟩)]
  | .unassigned _ => []

/-- `BaseGate::one_line`, base_gate.rs:739-807, preceded by the selector assignments of
gates/range_gate.rs:86-182.  Missing pairs are filled with `pair_empty!` (zero value, zero
coefficient), missing multiplication coefficients with zero. -/
def oneLineSel (sel : Sel) (ps : List (Schema F × F)) (const : F) (mul : List F) (next : F) :
    M F (Fin 5 → AV F) := fun ctx =>
  if ps.length ≤ 5 ∧ mul.length ≤ 2 then
    let i := ctx.offset
    let p : Fin 5 → Schema F × F := fun j => ps.getD j (.unassigned 0, 0)
    let row : Row F :=
      { coeff := fun j => (p j).2
        mul := fun j => mul.getD j 0
        next := next
        const := const
        common := sel.common
        wLead := sel.wLead
        nLead := sel.nLead
        dLead := sel.dLead }
    some (fun j => ⟨⟨i, j⟩, (p j).1.value⟩,
      { offset := i + 1
        rows := (i, row) :: ctx.rows
        copies := copyOf i ps 0 ++ (copyOf i ps 1 ++ (copyOf i ps 2 ++ (copyOf i ps 3
          ++ (copyOf i ps 4 ++ ctx.copies))))
        wit := Function.update ctx.wit i fun j => (p j).1.value })
  else none

/-- `BaseGateOps::one_line` of the five-column gate: five/base_gate.rs:71-80. -/
def oneLine (ps : List (Schema F × F)) (const : F) (mul : List F) (next : F) : M F (Fin 5 → AV F) :=
  oneLineSel {} ps const mul next

/-- `one_line_add`: base_gate.rs:169-176. -/
def oneLineAdd (ps : List (Schema F × F)) (const : F) : M F (Fin 5 → AV F) :=
  oneLine ps const [] 0

/-- `assert!`. -/
def assertM (c : Prop) [Decidable c] : M F Unit := fun ctx => if c then some ((), ctx) else none

/-- Lift an `Option` (an `unwrap`). -/
def unwrapM {α : Type} (o : Option α) : M F α := fun ctx => o.map fun a => (a, ctx)

/-- `Vec::resize_with` to exactly `n` elements (truncating or padding with `pair_empty!`). -/
def resizePairs (n : ℕ) (ps : List (Schema F × F)) : List (Schema F × F) :=
  ps.take n ++ List.replicate (n - ps.length) (.unassigned 0, 0)

/-- `one_line_with_last_base`: base_gate.rs:178-191. -/
def oneLineWithLastBase (ps : List (Schema F × F)) (last : Schema F × F) (const : F) (mul : List F)
    (next : F) : M F (Fin 5 → AV F) := do
  assertM (ps.length < 5)
  oneLine (resizePairs 4 ps ++ [last]) const mul next

/-- Pairs for a list of assigned cells with coefficients (`pair!(*v, *coeff)`). -/
def assignedPairs (l : List (AV F × F)) : List (Schema F × F) :=
  l.map fun p => (.assigned p.1, p.2)

/-- `fold(zero, |acc, (v, coeff)| acc + v.value * coeff)`: base_gate.rs:212-214 (honest values). -/
def honestSum (init : F) (l : List (AV F × F)) : F :=
  l.foldl (fun acc p => acc + p.1.value * p.2) init

/-- The `while` loop of `sum_with_constant` once an accumulator exists (base_gate.rs:206-234, the
branch `acc.is_some()`): while more than three elements remain, put four of them and the accumulator on
a line whose total goes to the last cell of the next line; then the closing line
(base_gate.rs:236-261) with the sum cell, the remaining elements and the accumulator. -/
def sumLoop (acc : F) (elems : List (AV F × F)) (constant : F) : M F (AV F) :=
  if elems.length + 1 + 1 > 5 then do
    let line := elems.take 4
    let _ ← oneLineWithLastBase (assignedPairs line) (.unassigned acc, 1) 0 [] (-1)
    sumLoop (acc + honestSum 0 line) (elems.drop 4) constant
  else do
    let sum := honestSum constant elems + acc
    let cells ← oneLineWithLastBase ((.unassigned sum, -1) :: assignedPairs elems)
      (.unassigned acc, 1) constant [] 0
    return cells 0
  termination_by elems.length
  decreasing_by simp only [List.length_drop]; omega

/-- `sum_with_constant`: base_gate.rs:193-262.  The first line (no accumulator yet) takes five
elements; afterwards `sumLoop`. -/
def sumWithConstant (elems : List (AV F × F)) (constant : F) : M F (AV F) :=
  if elems.length + 1 > 5 then do
    let line := elems.take 5
    let _ ← oneLine (assignedPairs line) 0 [] (-1)
    sumLoop (0 + honestSum 0 line) (elems.drop 5) constant
  else do
    let sum := honestSum constant elems + 0
    let cells ← oneLine ((.unassigned sum, -1) :: assignedPairs elems) constant [] 0
    return cells 0

/-- `add`: base_gate.rs:264-275. -/
def add (a b : AV F) : M F (AV F) := sumWithConstant [(a, 1), (b, 1)] 0

/-- `add_constant`: base_gate.rs:277-287. -/
def addConstant (a : AV F) (c : F) : M F (AV F) := sumWithConstant [(a, 1)] c

/-- `sub`: base_gate.rs:289-300. -/
def sub (a b : AV F) : M F (AV F) := sumWithConstant [(a, 1), (b, -1)] 0

/-- `mul`: base_gate.rs:302-324. -/
def mul (a b : AV F) : M F (AV F) := do
  let c := a.value * b.value
  let cells ← oneLine [(.assigned a, 0), (.assigned b, 0), (.unassigned c, -1)] 0 [1] 0
  return cells 2

/-- `mul_add_constant`: base_gate.rs:326-349. -/
def mulAddConstant (a b : AV F) (c : F) : M F (AV F) := do
  let d := a.value * b.value + c
  let cells ← oneLine [(.assigned a, 0), (.assigned b, 0), (.unassigned d, -1)] c [1] 0
  return cells 2

/-- `mul_add`: base_gate.rs:351-380. -/
def mulAdd (a b c : AV F) (cCoeff : F) : M F (AV F) := do
  let d := a.value * b.value + c.value * cCoeff
  let cells ← oneLine [(.assigned a, 0), (.assigned b, 0), (.assigned c, cCoeff),
    (.unassigned d, -1)] 0 [1] 0
  return cells 3

/-- `mul_add2` of the five-column gate: five/base_gate.rs:27-59. -/
def mulAdd2 (a b c : AV F) (cCoeff : F) (d : AV F) (dCoeff : F) : M F (AV F) := do
  let e := a.value * b.value + c.value * cCoeff + d.value * dCoeff
  let cells ← oneLine [(.assigned a, 0), (.assigned b, 0), (.assigned c, cCoeff),
    (.assigned d, dCoeff), (.unassigned e, -1)] 0 [1] 0
  return cells 4

/-- One summand `a * b + coeff * c` of a multiply-accumulate. -/
structure MulTerm (F : Type) where
  a : AV F
  b : AV F
  c : AV F
  coeff : F

/-- The `fold` of the five-column `mul_add_with_next_line`: five/base_gate.rs:124-127. -/
def mulAddFold (acc : AV F) : List (MulTerm F) → M F (AV F)
  | [] => pure acc
  | t :: ts => do
    let acc ← mulAdd2 t.a t.b t.c t.coeff acc 1
    mulAddFold acc ts

/-- `mul_add_with_next_line` of the five-column gate: five/base_gate.rs:110-128 (`unwrap` on an empty
list panics). -/
def mulAddWithNextLine : List (MulTerm F) → M F (AV F)
  | [] => unwrapM none
  | t :: ts => do
    let acc ← mulAdd t.a t.b t.c t.coeff
    mulAddFold acc ts

/-- The loop of the *default* `mul_add_with_next_line`: base_gate.rs:398-415. -/
def mulAddNextDefaultLoop (t : F) : List (MulTerm F) → M F (AV F)
  | [] => do
    let cells ← oneLineWithLastBase [] (.unassigned t, 0) 0 [] 0
    return cells 4
  | l :: ls => do
    let _ ← oneLineWithLastBase [(.assigned l.a, 0), (.assigned l.b, 0), (.assigned l.c, l.coeff)]
      (.unassigned t, 1) 0 [1] (-1)
    mulAddNextDefaultLoop (l.a.value * l.b.value + l.c.value * l.coeff + t) ls

/-- The default body of `mul_add_with_next_line` in the trait: base_gate.rs:382-417 (overridden by the
five-column gate). -/
def mulAddWithNextLineDefault : List (MulTerm F) → M F (AV F)
  | [] => unwrapM none
  | [l] => mulAdd l.a l.b l.c l.coeff
  | ls => mulAddNextDefaultLoop 0 ls

variable [DecidableEq F]

/-- `invert_unsafe`: base_gate.rs:419-437 (`unwrap` panics on zero). -/
def invertUnsafe (a : AV F) : M F (AV F) := do
  assertM (a.value ≠ 0)
  let b := a.value⁻¹
  let cells ← oneLine [(.assigned a, 0), (.unassigned b, 0)] (-1) [1] 0
  return cells 1

/-- `invert`: base_gate.rs:439-467 (`invert().unwrap_or(zero)` is Lean's field inverse). -/
def invert (a : AV F) : M F (AV F × AV F) := do
  let b := a.value⁻¹
  let c := 1 - a.value * b
  let cells ← oneLine [(.assigned a, 0), (.unassigned c, 0)] 0 [1] 0
  let c := cells 1
  let cells ← oneLine [(.assigned a, 0), (.unassigned b, 0), (.assigned c, 1)] (-1) [1] 0
  return (cells 2, cells 1)

/-- `is_zero`: base_gate.rs:469-476. -/
def isZero (a : AV F) : M F (AV F) := do
  let (res, _) ← invert a
  return res

/-- `div_unsafe`: base_gate.rs:478-497 (`unwrap` panics on a zero divisor). -/
def divUnsafe (a b : AV F) : M F (AV F) := do
  assertM (b.value ≠ 0)
  let c := b.value⁻¹ * a.value
  let cells ← oneLine [(.assigned b, 0), (.unassigned c, 0), (.assigned a, -1)] 0 [1] 0
  return cells 1

omit [DecidableEq F]

/-- `assign_constant`: base_gate.rs:499-505. -/
def assignConstant (v : F) : M F (AV F) := do
  let cells ← oneLineAdd [(.unassigned v, -1)] v
  return cells 0

/-- `assign`: base_gate.rs:507-511. -/
def assign (v : F) : M F (AV F) := do
  let cells ← oneLineAdd [(.unassigned v, 0)] 0
  return cells 0

/-- `assert_equal`: base_gate.rs:513-525. -/
def assertEqual (a b : AV F) : M F Unit := do
  let _ ← oneLineAdd [(.assigned a, -1), (.assigned b, 1)] 0

/-- `assert_constant`: base_gate.rs:527-538. -/
def assertConstant (a : AV F) (b : F) : M F Unit := do
  let _ ← oneLineAdd [(.assigned a, -1)] b

/-- `assert_bit`: base_gate.rs:540-552. -/
def assertBit (a : AV F) : M F Unit := do
  let _ ← oneLine [(.assigned a, 1), (.assigned a, 0)] 0 [-1] 0

/-- `and`: base_gate.rs:554-563. -/
def and (a b : AV F) : M F (AV F) := mul a b

/-- `not`: base_gate.rs:565-574. -/
def not (a : AV F) : M F (AV F) := sumWithConstant [(a, -1)] 1

/-- `or`: base_gate.rs:576-595. -/
def or (a b : AV F) : M F (AV F) := do
  let c := a.value + b.value - a.value * b.value
  let cells ← oneLine [(.assigned a, 1), (.assigned b, 1), (.unassigned c, -1)] 0 [-1] 0
  return cells 2

/-- `xor`: base_gate.rs:597-617. -/
def xor (a b : AV F) : M F (AV F) := do
  let two : F := 1 + 1
  let c := a.value + b.value - two * a.value * b.value
  let cells ← oneLine [(.assigned a, 1), (.assigned b, 1), (.unassigned c, -1)] 0 [-two] 0
  return cells 2

/-- `xnor`: base_gate.rs:619-639. -/
def xnor (a b : AV F) : M F (AV F) := do
  let two : F := 1 + 1
  let c := 1 - a.value - b.value + two * a.value * b.value
  let cells ← oneLine [(.assigned a, -1), (.assigned b, -1), (.unassigned c, -1)] 1 [two] 0
  return cells 2

/-- `bisec` of the five-column gate: five/base_gate.rs:82-108. -/
def bisec (cond a b : AV F) : M F (AV F) := do
  let c := cond.value * a.value + (1 - cond.value) * b.value
  let cells ← oneLine [(.assigned cond, 0), (.assigned a, 0), (.assigned cond, 0), (.assigned b, 1),
    (.unassigned c, -1)] 0 [1, -1] 0
  return cells 4

/-- `bisec_cond`: base_gate.rs:649-660. -/
def bisecCond (cond a b : AV F) : M F (AV F) := bisec cond a b

/-- `assert_true`: base_gate.rs:662-664. -/
def assertTrue (a : AV F) : M F Unit := assertConstant a 1

/-- `assert_false`: base_gate.rs:666-672. -/
def assertFalse (a : AV F) : M F Unit := assertConstant a 0

end
end Verif.Circuit
