import Mathlib.Algebra.Module.Basic
import Mathlib.Algebra.Field.Basic
import Mathlib.Algebra.BigOperators.Group.List.Basic
import Mathlib.Tactic.Ring

/-!
# The arithmetic chip interface of the verifier

`halo2-snark-aggregator-api` is written against two traits, `ArithFieldChip` (scalars) and `ArithEccChip` (points); the
circuit crate, the mock crate and the Solidity code generator each implement them. `Chip` is the list of their required
methods. A method takes `&mut Context` and returns `Result<_, Error>` or panics; all of that is the monad `m`.

`Logic c` says what a chip has to guarantee for the verifier to be correct. It is an assumption about a chip, not an
axiom: `Verif.Api.Mock` and `Verif.Api.CircuitChip` construct it for the mock chip (total correctness: the call returns
and the result is right) and for the five column circuit (in every satisfying assignment the result is right).
-/

namespace Verif.Api

/-- The required methods of `ArithCommonChip`, `ArithFieldChip` and `ArithEccChip`.
halo2-snark-aggregator-api/src/arith/common.rs lines 3-42, field.rs lines 5-66, ecc.rs lines 5-60. `F` is `Scalar`, `G` is
`Point`. The native chip is the scalar chip (`Native = Scalar` in every use, verify.rs lines 47-52). Of the provided methods,
`multi_exp` is overridden by the implementations and is therefore part of the interface; the others (`sum_with_constant`,
`mul_add`, `mul_add_accumulate`, `pow_constant`) are not overridden and are modelled in `Verif.Api.Field`. -/
structure Chip (F G : Type) where
  /-- Computations: context, errors and panics. -/
  m : Type → Type
  monad : Monad m
  /-- `AssignedScalar`. -/
  S : Type
  /-- `AssignedPoint`. -/
  P : Type
  /-- `panic!`, a failed `assert!`, `unwrap` of `None`, an index out of range. -/
  panic : {α : Type} → m α
  add : S → S → m S
  sub : S → S → m S
  mul : S → S → m S
  div : S → S → m S
  square : S → m S
  sumWithCoeff : List (S × F) → F → m S
  mulAddConstant : S → S → F → m S
  assignZero : m S
  assignOne : m S
  assignConst : F → m S
  assignVar : F → m S
  toValue : S → m F
  pAdd : P → P → m P
  pSub : P → P → m P
  pAssignZero : m P
  pAssignOne : m P
  pAssignConst : G → m P
  pAssignVar : G → m P
  normalize : P → m P
  scalarMul : S → P → m P
  scalarMulConstant : S → G → m P
  multiExp : List P → List S → m P

instance {F G : Type} (c : Chip F G) : Monad c.m := c.monad

variable {F G : Type} [Field F] [AddCommGroup G] [Module F G]

/-- `(s₀, .., sₖ) · (P₀, .., Pₖ)`. -/
def dot (ss : List F) (Ps : List G) : G := (List.zipWith (fun (s : F) (P : G) => s • P) ss Ps).sum

/-- What a chip guarantees. `Ens x post` is the reading of "running `x` establishes `post`" for the chip at hand; `sv s` is the
value of an assigned scalar and `pv p P` says that the assigned point `p` stands for `P`. `one` is the generator `assign_one`
assigns. `known s k` says that `s` was assigned as the constant `k`, so that `to_value` gives `k`; in a circuit it need not give the
value of other cells. `wit s k` and `pwit p P` say that `s` and `p` were assigned as witnesses for `k` and `P`; what that means for their
values depends on the chip (in a circuit: nothing for scalars, range checks and the curve equation for points). -/
structure Logic (c : Chip F G) (gen : G) where
  Ens : {α : Type} → c.m α → (α → Prop) → Prop
  sv : c.S → F
  pv : c.P → G → Prop
  known : c.S → F → Prop
  wit : c.S → F → Prop
  pwit : c.P → G → Prop
  pure : ∀ {α : Type} {a : α} {Q : α → Prop}, Q a → Ens (Pure.pure a) Q
  bind : ∀ {α β : Type} {x : c.m α} {f : α → c.m β} {Q : α → Prop} {R : β → Prop}, Ens x Q → (∀ a, Q a → Ens (f a) R) →
    Ens (x >>= f) R
  mono : ∀ {α : Type} {x : c.m α} {Q R : α → Prop}, Ens x Q → (∀ a, Q a → R a) → Ens x R
  /-- Chips are deterministic. -/
  all : ∀ {α ι : Type} [Nonempty ι] {x : c.m α} {Q : ι → α → Prop}, (∀ i, Ens x (Q i)) → Ens x fun r => ∀ i, Q i r
  add : ∀ a b, Ens (c.add a b) fun r => sv r = sv a + sv b
  sub : ∀ a b, Ens (c.sub a b) fun r => sv r = sv a - sv b
  mul : ∀ a b, Ens (c.mul a b) fun r => sv r = sv a * sv b
  div : ∀ a b, sv b ≠ 0 → Ens (c.div a b) fun r => sv r = sv a / sv b
  square : ∀ a, Ens (c.square a) fun r => sv r = sv a * sv a
  sumWithCoeff : ∀ l k, Ens (c.sumWithCoeff l k) fun r => sv r = k + (l.map fun p => p.2 * sv p.1).sum
  mulAddConstant : ∀ a b k, Ens (c.mulAddConstant a b k) fun r => sv r = sv a * sv b + k
  assignZero : Ens c.assignZero fun r => sv r = 0
  assignOne : Ens c.assignOne fun r => sv r = 1
  assignConst : ∀ k, Ens (c.assignConst k) fun r => known r k
  known_sv : ∀ {s k}, known s k → sv s = k
  toValue : ∀ {s k}, known s k → Ens (c.toValue s) fun v => v = k
  assignVar : ∀ k, Ens (c.assignVar k) fun r => wit r k
  pAdd : ∀ {a b P Q}, pv a P → pv b Q → Ens (c.pAdd a b) fun r => pv r (P + Q)
  pSub : ∀ {a b P Q}, pv a P → pv b Q → Ens (c.pSub a b) fun r => pv r (P - Q)
  pAssignZero : Ens c.pAssignZero fun r => pv r 0
  pAssignOne : Ens c.pAssignOne fun r => pv r gen
  pAssignConst : ∀ P, Ens (c.pAssignConst P) fun r => pv r P
  pAssignVar : ∀ P, Ens (c.pAssignVar P) fun r => pwit r P
  normalize : ∀ {a P}, pv a P → Ens (c.normalize a) fun r => pv r P
  scalarMul : ∀ s {a P}, pv a P → Ens (c.scalarMul s a) fun r => pv r (sv s • P)
  scalarMulConstant : ∀ s P, Ens (c.scalarMulConstant s P) fun r => pv r (sv s • P)
  multiExp : ∀ {ps ss Ps}, List.Forall₂ pv ps Ps → ps.length = ss.length → ps ≠ [] →
    Ens (c.multiExp ps ss) fun r => pv r (dot (ss.map sv) Ps)

end Verif.Api
