import Verif.Integer.Spec

/-!
# Straight-line programs over the integer chip, and their direct meaning

`IOp` lists the calls a user can make on `IntegerChipOps` (chips/integer_chip.rs:113-262), except
`mul_small_constant` (its bookkeeping is wrong, see C14) and `get_last_bit` (C17).  The arguments are
positions in the list of integers (or of condition bits) obtained so far.  Arguments that Rust takes by
`&mut` are written back after the call.  `IOp.Sem` and `IOp.eval` are the independent meaning over
elements of the base field, without limbs, counters, cells or witnesses.
-/

namespace Verif.Circuit

/-- One call. -/
inductive IOp where
  | assign (v : W)
  | constant (v : W)
  | reduce (i : ℕ)
  | add (i j : ℕ)
  | sub (i j : ℕ)
  | neg (i : ℕ)
  | mul (i j : ℕ)
  | square (i : ℕ)
  | div (i j : ℕ)
  | isZero (i : ℕ)
  | isEqual (i j : ℕ)
  | assertEqual (i j : ℕ)
  | bisec (c i j : ℕ)

/-- Integers and condition bits obtained so far. -/
structure IState where
  ints : List AInt
  bits : List (AV N)

def AInt.dummy : AInt := ⟨fun _ => ⟨⟨0, 0⟩, 0⟩, none, 0⟩

/-- The integer at a position. -/
def IState.int (s : IState) (i : ℕ) : AInt := s.ints.getD i AInt.dummy

/-- The bit at a position. -/
def IState.bit (s : IState) (i : ℕ) : AV N := s.bits.getD i ⟨⟨0, 0⟩, 0⟩

/-- The chip: one call (each constructor is the function of `Model.lean` of that name). -/
def IOp.run (s : IState) : IOp → M N IState
  | .assign v => do
    let r ← assignW v
    return ⟨s.ints ++ [r], s.bits⟩
  | .constant v => do
    let r ← iassignConstant v
    return ⟨s.ints ++ [r], s.bits⟩
  | .reduce i => do
    assertM (i < s.ints.length)
    let a ← Circuit.reduce (s.int i)
    return ⟨s.ints.set i a, s.bits⟩
  | .add i j => do
    assertM (i < s.ints.length ∧ j < s.ints.length)
    let r ← iadd (s.int i) (s.int j)
    return ⟨s.ints ++ [r], s.bits⟩
  | .sub i j => do
    assertM (i < s.ints.length ∧ j < s.ints.length)
    let r ← isub (s.int i) (s.int j)
    return ⟨s.ints ++ [r], s.bits⟩
  | .neg i => do
    assertM (i < s.ints.length)
    let r ← ineg (s.int i)
    return ⟨s.ints ++ [r], s.bits⟩
  | .mul i j => do
    assertM (i < s.ints.length ∧ j < s.ints.length)
    let p ← imul (s.int i) (s.int j)
    return ⟨(s.ints.set i p.2.1).set j p.2.2 ++ [p.1], s.bits⟩
  | .square i => do
    assertM (i < s.ints.length)
    let p ← isquare (s.int i)
    return ⟨s.ints.set i p.2 ++ [p.1], s.bits⟩
  | .div i j => do
    assertM (i < s.ints.length ∧ j < s.ints.length)
    let p ← idiv (s.int i) (s.int j)
    return ⟨(s.ints.set i p.2.2.1).set j p.2.2.2 ++ [p.2.1], s.bits ++ [p.1]⟩
  | .isZero i => do
    assertM (i < s.ints.length)
    let p ← iisZero (s.int i)
    return ⟨s.ints.set i p.2, s.bits ++ [p.1]⟩
  | .isEqual i j => do
    assertM (i < s.ints.length ∧ j < s.ints.length)
    let r ← iisEqual (s.int i) (s.int j)
    return ⟨s.ints, s.bits ++ [r]⟩
  | .assertEqual i j => do
    assertM (i < s.ints.length ∧ j < s.ints.length)
    iassertEqual (s.int i) (s.int j)
    return s
  | .bisec c i j => do
    assertM (c < s.bits.length ∧ i < s.ints.length ∧ j < s.ints.length)
    let r ← ibisec (s.bit c) (s.int i) (s.int j)
    return ⟨s.ints ++ [r], s.bits⟩

/-- Run a program. -/
def runIProg : List IOp → IState → M N IState
  | [], s => pure s
  | op :: ops, s => do
    let s ← op.run s
    runIProg ops s

/-! ### Specification -/

/-- Values of the integers modulo `w`, and of the condition bits. -/
structure IEnv where
  vals : List W
  flags : List Bool

/-- Direct evaluation of one call on field elements; `none` if a position does not exist or an
assertion is false. Division by zero yields the flag `true` and the quotient 0. -/
def IOp.eval (e : IEnv) : IOp → Option IEnv
  | .assign v => some ⟨e.vals ++ [v], e.flags⟩
  | .constant v => some ⟨e.vals ++ [v], e.flags⟩
  | .reduce i => do
    let _ ← e.vals[i]?
    return e
  | .add i j => do return ⟨e.vals ++ [(← e.vals[i]?) + (← e.vals[j]?)], e.flags⟩
  | .sub i j => do return ⟨e.vals ++ [(← e.vals[i]?) - (← e.vals[j]?)], e.flags⟩
  | .neg i => do return ⟨e.vals ++ [-(← e.vals[i]?)], e.flags⟩
  | .mul i j => do return ⟨e.vals ++ [(← e.vals[i]?) * (← e.vals[j]?)], e.flags⟩
  | .square i => do return ⟨e.vals ++ [(← e.vals[i]?) ^ 2], e.flags⟩
  | .div i j => do
    let a ← e.vals[i]?
    let b ← e.vals[j]?
    return ⟨e.vals ++ [if b = 0 then 0 else a / b], e.flags ++ [decide (b = 0)]⟩
  | .isZero i => do return ⟨e.vals, e.flags ++ [decide ((← e.vals[i]?) = 0)]⟩
  | .isEqual i j => do return ⟨e.vals, e.flags ++ [decide ((← e.vals[i]?) = (← e.vals[j]?))]⟩
  | .assertEqual i j => do
    let a ← e.vals[i]?
    let b ← e.vals[j]?
    if a = b then return e else none
  | .bisec c i j => do
    let b ← e.flags[c]?
    let x ← e.vals[i]?
    let y ← e.vals[j]?
    return ⟨e.vals ++ [if b then x else y], e.flags⟩

/-- What one call may yield, whoever wrote the witness: `eval`, except that a prover chooses the value of
`assign` and the quotient of a division by zero. -/
def IOp.Sem (e : IEnv) : IOp → IEnv → Prop
  | .assign _, e' => ∃ v, e' = ⟨e.vals ++ [v], e.flags⟩
  | .div i j, e' => ∃ a b c, e.vals[i]? = some a ∧ e.vals[j]? = some b ∧ (b ≠ 0 → c = a / b) ∧
      e' = ⟨e.vals ++ [c], e.flags ++ [decide (b = 0)]⟩
  | op, e' => op.eval e = some e'

/-- Direct evaluation of a program. -/
def evalIProg : List IOp → IEnv → Option IEnv
  | [], e => some e
  | op :: ops, e => do evalIProg ops (← op.eval e)

/-- Meaning of a program for an arbitrary prover. -/
def IProgSem : List IOp → IEnv → IEnv → Prop
  | [], e, e' => e' = e
  | op :: ops, e, e' => ∃ m, op.Sem e m ∧ IProgSem ops m e'

/-- How overflow counters evolve (a public quantity: it does not depend on values), or `none` when a
subtraction meets two integers whose counters are both 31 — the one situation in which the chip panics. -/
def IOp.count (c : List ℕ) : IOp → Option (List ℕ)
  | .assign _ => some (c ++ [0])
  | .constant _ => some (c ++ [0])
  | .reduce i => some (c.set i 0)
  | .add i j => let k := c.getD i 0 + c.getD j 0 + 1; some (c ++ [if k < 32 then k else 0])
  | .sub i j =>
    let k := c.getD i 0 + c.getD j 0 + 2
    if c.getD i 0 = 31 ∧ c.getD j 0 = 31 then none else some (c ++ [if k < 32 then k else 0])
  | .neg i => let k := c.getD i 0 + 1; some (c ++ [if k < 32 then k else 0])
  | .mul _ _ => some (c ++ [0])
  | .square _ => some (c ++ [0])
  | .div i j => some ((c.set i 0).set j 0 ++ [0])
  | .isZero i => some (c.set i 0)
  | .isEqual i j => if c.getD i 0 = 31 ∧ c.getD j 0 = 31 then none else some c
  | .assertEqual i j => if c.getD i 0 = 31 ∧ c.getD j 0 = 31 then none else some c
  | .bisec _ i j => some (c ++ [max (c.getD i 0) (c.getD j 0)])

def countIProg : List IOp → List ℕ → Option (List ℕ)
  | [], c => some c
  | op :: ops, c => do countIProg ops (← op.count c)

/-- The chip state stands for the values `e` under the prover's assignment: every integer is what its
bookkeeping says and has the right residue, and every condition bit is the right bit. -/
structure Stands (adv : Advice N) (s : IState) (e : IEnv) : Prop where
  ints : List.Forall₂ (fun a v => Announced adv a ∧ a.overflows < 32 ∧ residue adv a = v) s.ints e.vals
  bits : List.Forall₂ (fun c b => c.val adv = if b then 1 else 0) s.bits e.flags

end Verif.Circuit
