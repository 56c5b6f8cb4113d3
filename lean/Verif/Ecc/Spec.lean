import Verif.Ecc.Model
import Verif.Integer.Spec

/-!
# Specification vocabulary for the ECC chip

What it means, under a prover's advice assignment, that an assigned point is a point of the curve.
Nothing here mentions how the chip works.
-/

namespace Verif.Circuit

open Verif.Ecc

/-- An honest integer: what its bookkeeping says, and short enough for every chip call. -/
def IntGood (adv : Advice N) (a : AInt) : Prop := Announced adv a ∧ a.overflows < 32

/-- An assigned point stands for the group element `P`: honest coordinates; the flag is the bit "identity";
when it is not the identity the coordinates are the affine coordinates; a cached curvature, when there is
one, is an honest integer. -/
structure StandsFor (adv : Advice N) (p : APt) (P : Pt) : Prop where
  x : IntGood adv p.x
  y : IntGood adv p.y
  ident : P = 0 → p.z.val adv = 1
  affine : P ≠ 0 → p.z.val adv = 0 ∧ Aff P (residue adv p.x) (residue adv p.y)
  curv : ∀ c, p.curv = some c → IntGood adv c.v

/-- A cached curvature, when there is one, is the slope of the tangent at `P`. -/
def TangentOk (adv : Advice N) (p : APt) (P : Pt) : Prop :=
  ∀ c, p.curv = some c → P ≠ 0 → c.z.val adv = 0 ∧
    residue adv c.v * (2 * residue adv p.y) = 3 * residue adv p.x ^ 2

/-- An assigned point stands for `P` and may be used in every chip call. -/
def Represents (adv : Advice N) (p : APt) (P : Pt) : Prop := StandsFor adv p P ∧ TangentOk adv p P

/-- The number written in a list of bit cells, least significant first. -/
def bitsVal (adv : Advice N) : List (AV N) → ℕ
  | [] => 0
  | b :: bs => lv adv b + 2 * bitsVal adv bs

/-- The number written in windows of `w` bits, most significant window last. -/
def windowsVal (adv : Advice N) (w : ℕ) : List (List (AV N)) → ℕ
  | [] => 0
  | b :: bs => bitsVal adv b + 2 ^ w * windowsVal adv w bs

/-- A cell holding `0` or `1`. -/
def BitCell (adv : Advice N) (c : AV N) : Prop := c.val adv = 0 ∨ c.val adv = 1

end Verif.Circuit
