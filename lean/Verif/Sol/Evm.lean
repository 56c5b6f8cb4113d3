import Verif.Ecc.Sound

/-!
# The helper functions of the verifier contract

`halo2-snark-aggregator-solidity/templates/verifier.sol`. A `uint256` is a `Word`. `none` is a revert. Arithmetic without `mulmod` and
`addmod` is checked: the project compiles with solc 0.8.13 (`waffle/waffle.json`). Gas is not modelled. The precompiled contracts 5, 6 and
7 are given by what they compute (EIP-196, EIP-198); contract 2 (SHA-256) is a parameter.
-/

namespace Verif.Sol
open Verif.Circuit Verif.Ecc

abbrev Word := BitVec 256

/-- `addmod(a, b, q_mod)`. -/
def addmod (a b : Word) : Word := BitVec.ofNat 256 ((a.toNat + b.toNat) % frMod)

/-- `mulmod(a, b, q_mod)`. -/
def mulmod (a b : Word) : Word := BitVec.ofNat 256 (a.toNat * b.toNat % frMod)

/-- Checked subtraction. -/
def subChecked (a b : Word) : Option Word := if b.toNat ≤ a.toNat then some (a - b) else none

/-- verifier.sol lines 40-41 and 143-144. -/
def qMod : Word := BitVec.ofNat 256 frMod
def pMod : Word := BitVec.ofNat 256 fqMod

/-- Lines 47-65, through contract 5. -/
def frPow (a power : Word) : Word := BitVec.ofNat 256 (a.toNat ^ power.toNat % frMod)

/-- Lines 43-45. -/
def frInvert (a : Word) : Option Word := (subChecked qMod 2).map fun e => frPow a e

/-- Lines 67-70. -/
def frDiv (a b : Word) : Option Word := if b = 0 then none else (frInvert b).map fun i => mulmod a i

/-- Lines 72-78. -/
def frMulAdd (a b c : Word) : Word := addmod (mulmod a b) c

/-- Lines 120-141. -/
def frReverse (v : Word) : Word :=
  let v := ((v &&& 0xFF00FF00FF00FF00FF00FF00FF00FF00FF00FF00FF00FF00FF00FF00FF00FF00) >>> 8) |||
    ((v &&& 0x00FF00FF00FF00FF00FF00FF00FF00FF00FF00FF00FF00FF00FF00FF00FF00FF) <<< 8)
  let v := ((v &&& 0xFFFF0000FFFF0000FFFF0000FFFF0000FFFF0000FFFF0000FFFF0000FFFF0000) >>> 16) |||
    ((v &&& 0x0000FFFF0000FFFF0000FFFF0000FFFF0000FFFF0000FFFF0000FFFF0000FFFF) <<< 16)
  let v := ((v &&& 0xFFFFFFFF00000000FFFFFFFF00000000FFFFFFFF00000000FFFFFFFF00000000) >>> 32) |||
    ((v &&& 0x00000000FFFFFFFF00000000FFFFFFFF00000000FFFFFFFF00000000FFFFFFFF) <<< 32)
  let v := ((v &&& 0xFFFFFFFFFFFFFFFF0000000000000000FFFFFFFFFFFFFFFF0000000000000000) >>> 64) |||
    ((v &&& 0x0000000000000000FFFFFFFFFFFFFFFF0000000000000000FFFFFFFFFFFFFFFF) <<< 64)
  (v >>> 128) ||| (v <<< 128)

/-- The point a pair of words stands for in EIP-196: coordinates below the modulus; zeros are the identity. -/
def g1 (x y : Word) : Option Pt :=
  if h : x.toNat < fqMod ∧ y.toNat < fqMod ∧ ((y.toNat : W) ^ 2 = (x.toNat : W) ^ 3 + 3) then some (pt _ _ h.2.2)
  else if x = 0 ∧ y = 0 then some 0 else none

/-- The words of a point. -/
def g1Words (P : Pt) : Word × Word := (BitVec.ofNat 256 (coordX P).val, BitVec.ofNat 256 (coordY P).val)

/-- Lines 165-185, through contract 6. -/
noncomputable def eccAdd (ax ay bx by' : Word) : Option (Word × Word) := do
  let a ← g1 ax ay
  let b ← g1 bx by'
  return g1Words (a + b)

/-- Lines 187-193. -/
noncomputable def eccSub (ax ay bx by' : Word) : Option (Word × Word) := do
  let y ← subChecked pMod by'
  eccAdd ax ay bx y

/-- Lines 195-214, through contract 7. The scalar can be any word. -/
noncomputable def eccMul (px py s : Word) : Option (Word × Word) := do
  let p ← g1 px py
  return g1Words (s.toNat • p)

/-- Lines 216-248. -/
noncomputable def eccMulAdd (px py s qx qy : Word) : Option (Word × Word) := do
  let r ← eccMul px py s
  eccAdd r.1 r.2 qx qy

/-! ### Bytes -/

/-- The byte with number `i`, from the least significant one. -/
def byteAt (v : Word) (i : ℕ) : UInt8 := ⟨v.extractLsb' (8 * i) 8⟩

/-- A word in memory: 32 bytes, the most significant one first. -/
def bytesOf (v : Word) : List UInt8 := (List.range 32).map fun i => byteAt v (31 - i)

/-- Bytes as a number, least significant first. -/
def leNat : List UInt8 → ℕ
  | [] => 0
  | b :: l => b.toNat + 256 * leNat l

/-- Lines 289-293. -/
def toScalar (r : Word) : Word := BitVec.ofNat 256 ((frReverse r).toNat % frMod)

end Verif.Sol
