import Verif.Integer.Model
import Mathlib.Data.Nat.ModEq

/-!
# Specification vocabulary for the integer chip

An assigned integer is four cells; under a prover's advice assignment it stands for a natural number and
for its residue modulo the BN254 base-field prime.  Nothing here mentions how the chip works.
-/

namespace Verif.Circuit

/-- The natural number (`< n`) in a cell. -/
def lv (adv : Advice N) (c : AV N) : ℕ := (c.val adv).val

/-- The number represented by four limbs of 68 bits, least significant first. -/
def limbsVal (adv : Advice N) (l : Fin 4 → AV N) : ℕ :=
  lv adv (l 0) + 2 ^ 68 * lv adv (l 1) + 2 ^ 136 * lv adv (l 2) + 2 ^ 204 * lv adv (l 3)

/-- Limb bound: `k` times the bound of a freshly assigned integer (three limbs below `2^68`, leading
limb below `2^50`). -/
structure Bd (k : ℕ) (adv : Advice N) (l : Fin 4 → AV N) : Prop where
  b0 : lv adv (l 0) < k * 2 ^ 68
  b1 : lv adv (l 1) < k * 2 ^ 68
  b2 : lv adv (l 2) < k * 2 ^ 68
  b3 : lv adv (l 3) < k * 2 ^ 50

/-- The cached native value, if any, is the represented number modulo `n`. -/
def NatOk (adv : Advice N) (a : AInt) : Prop :=
  ∀ c, a.native = some c → c.val adv = ((limbsVal adv a.limbs : ℕ) : N)

/-- The base-field element represented by an assigned integer. -/
def residue (adv : Advice N) (a : AInt) : W := ((limbsVal adv a.limbs : ℕ) : W)

/-- An assigned integer that is what its bookkeeping says: the limbs obey the bound announced by the
overflow counter, the cached native value is right, and the counter is one a chip operation leaves. -/
structure Announced (adv : Advice N) (a : AInt) : Prop where
  bound : Bd (a.overflows + 1) adv a.limbs
  native : NatOk adv a
  counter : a.overflows < 64

/-- Same integer, except that a native value may have been cached. -/
def SameInt (a a' : AInt) : Prop := a'.limbs = a.limbs ∧ a'.overflows = a.overflows

end Verif.Circuit
