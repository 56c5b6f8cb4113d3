import Verif.Field.Primes
import Verif.Circuit.Base
import Mathlib.Data.ZMod.Basic
import Mathlib.Algebra.Field.ZMod

/-!
# Model of the five-column integer chip (BN254 base field over BN254 scalar field)

Sources: `halo2-ecc-circuit-lib/src/five/integer_chip.rs` (cited below as `integer_chip.rs`),
`halo2-ecc-circuit-lib/src/chips/integer_chip.rs` (cited as `chips/integer_chip.rs`),
`halo2-ecc-circuit-lib/src/utils.rs`, `halo2-ecc-circuit-lib/src/gates/range_gate.rs`.

The Rust chip is generic in the two fields; the model fixes the only pair used in the repository,
`W = bn256::Fq` and `N = bn256::Fr`.  `BigUint` is `ℕ`; subtraction underflow is a panic.  `&mut`
arguments are returned.  `PREREQUISITE_CHECK` is `false` (five/config.rs:3), so the guarded assertions
are not part of the functions; `Props.lean` (C55) proves that they hold.
-/

namespace Verif.Circuit

/-- The native field (`bn256::Fr`). -/
abbrev N := ZMod frMod

/-- The simulated field (`bn256::Fq`). -/
abbrev W := ZMod fqMod

/-- `BigUint::bits`. -/
def bits (n : ℕ) : ℕ := if n = 0 then 0 else Nat.log2 n + 1

/-- `LIMB_COMMON_WIDTH`: integer_chip.rs:16-19. -/
def limbWidth : ℕ := 4 * 17

/-- `limb_modulus`: chips/integer_chip.rs:95. -/
def limbMod : ℕ := 2 ^ limbWidth

/-- `integer_modulus`: chips/integer_chip.rs:96. -/
def intMod : ℕ := 2 ^ (limbWidth * 4)

/-- `w_ceil_bits`: chips/integer_chip.rs:102. -/
def wCeilBits : ℕ := bits fqMod

/-- `n_floor_bits`: chips/integer_chip.rs:103. -/
def nFloorBits : ℕ := bits frMod - 1

/-- `get_d_range_bits_in_mul`: utils.rs:48-57. -/
def dBits : ℕ := bits ((Nat.lcm intMod frMod >>> bits (fqMod - 1)) - 1) - 1

/-- `OVERFLOW_LIMIT`, `OVERFLOW_THRESHOLD`: integer_chip.rs:21-25. -/
def overflowLimit : ℕ := 2 ^ 6
def overflowThreshold : ℕ := 2 ^ 5

/-- Width of a leading range table: gates/range_gate.rs:207-212, 218-223, 226-231. -/
def leadingBits (b : ℕ) : ℕ := if b % 17 = 0 then 17 else b % 17

/-- The tables of `init_table`: gates/range_gate.rs:198-294 (bit counts of `w - 1` and `n - 1`). -/
def tables : Tables :=
  { common := 17
    wLead := leadingBits (bits (fqMod - 1))
    nLead := leadingBits (bits (frMod - 1) - 1)
    dLead := leadingBits dBits }

/-- `field_to_bn`: utils.rs:5-7 (canonical representative). -/
def nToBn (x : N) : ℕ := x.val
def wToBn (x : W) : ℕ := x.val

/-- `bn_to_field`: utils.rs:11-18.  The byte string is cut to 64 bytes before the wide reduction, so
only the value modulo `2^512` matters. -/
def bnToN (b : ℕ) : N := ((b % 2 ^ 512 : ℕ) : N)
def bnToW (b : ℕ) : W := ((b % 2 ^ 512 : ℕ) : W)

/-- `decompose_bn`: utils.rs:20-34. -/
def decomposeBn (v shift chunks : ℕ) : List (N × N) :=
  (List.range chunks).map fun i =>
    (bnToN ((v >>> (i * shift)) &&& (2 ^ shift - 1)), bnToN (2 ^ (i * shift)))

/-- `BigUint` subtraction (panics on underflow). -/
def bnSub (a b : ℕ) : Option ℕ := if b ≤ a then some (a - b) else none

/-- `_bn_to_limb_le`: chips/integer_chip.rs:74-84. -/
def bnToLimbs (b : ℕ) : Fin 4 → ℕ
  | 0 => b % limbMod
  | 1 => (b >>> limbWidth) % limbMod
  | 2 => ((b >>> limbWidth) >>> limbWidth) % limbMod
  | 3 => ((b >>> limbWidth) >>> limbWidth) >>> limbWidth

/-- `bn_to_limb_n_le`: chips/integer_chip.rs:86-88. -/
def bnToLimbsN (b : ℕ) (i : Fin 4) : N := bnToN (bnToLimbs b i)

/-- `limb_modulus_exps[i]`: chips/integer_chip.rs:105-110. -/
def limbExp (i : ℕ) : N := bnToN limbMod ^ i

/-- `w_native`: chips/integer_chip.rs:100. -/
def wNative : N := bnToN (fqMod % frMod)

/-- `w_modulus_limbs_le`: chips/integer_chip.rs:101. -/
def wLimbs : Fin 4 → ℕ := bnToLimbs fqMod

/-- `AssignedInteger`: chips/integer_chip.rs:11-18 (always four limbs). -/
structure AInt where
  limbs : Fin 4 → AV N
  native : Option (AV N)
  overflows : ℕ

/-- `AssignedInteger::new`: chips/integer_chip.rs:21-28. -/
def AInt.new (limbs : Fin 4 → AV N) (overflows : ℕ) : AInt := ⟨limbs, none, overflows⟩

/-- `AssignedInteger::bn` on honest values: chips/integer_chip.rs:34-41. -/
def AInt.bn (a : AInt) : ℕ :=
  ((nToBn (a.limbs 3).value * limbMod + nToBn (a.limbs 2).value) * limbMod
    + nToBn (a.limbs 1).value) * limbMod + nToBn (a.limbs 0).value

/-- `AssignedInteger::w` on honest values: chips/integer_chip.rs:43-47. -/
def AInt.w (a : AInt) : W := bnToW (a.bn % fqMod)

/-- Four cells from four values. -/
def vec4 {α : Type} (a b c d : α) : Fin 4 → α
  | 0 => a
  | 1 => b
  | 2 => c
  | 3 => d

/-- The schema of a limb row: chunks from the most significant one, padded to four columns, then the
limb itself with coefficient -1 (integer_chip.rs:333-335, 358-362, 389-392, 416-419). -/
def limbLine (n : N) (chunks : ℕ) : List (Schema N × N) :=
  resizePairs 4 ((decomposeBn (nToBn n) 17 chunks).reverse.map fun p => (.unassigned p.1, p.2))
    ++ [(.unassigned n, -1)]

/-- `assign_nonleading_limb`: integer_chip.rs:324-341. -/
def assignNonleadingLimb (n : N) : M N (AV N) := do
  let cells ← oneLineSel { common := true } (limbLine n 4) 0 [] 0
  return cells 4

/-- `assign_n_floor_leading_limb`: integer_chip.rs:343-372. -/
def assignNFloorLeadingLimb (n : N) : M N (AV N) :=
  let leadingLimbBits := nFloorBits % limbWidth
  if leadingLimbBits = 0 then assignNonleadingLimb n
  else do
    let nchunks := (leadingLimbBits + 17 - 1) / 17
    assertM (nchunks < 5)
    let cells ← oneLineSel { common := true, nLead := true } (limbLine n nchunks) 0 [] 0
    return cells 4

/-- `assign_w_ceil_leading_limb`: integer_chip.rs:374-402. -/
def assignWCeilLeadingLimb (n : N) : M N (AV N) :=
  let leadingLimbBits := wCeilBits % limbWidth
  if leadingLimbBits = 0 then assignNonleadingLimb n
  else do
    let nchunks := (leadingLimbBits + 17 - 1) / 17
    assertM (nchunks < 5)
    let cells ← oneLineSel { common := true, wLead := true } (limbLine n nchunks) 0 [] 0
    return cells 4

/-- `assign_d_leading_limb`: integer_chip.rs:404-426. -/
def assignDLeadingLimb (n : N) : M N (AV N) :=
  let leadingLimbBits := dBits % limbWidth
  if leadingLimbBits = 0 then assignNonleadingLimb n
  else do
    let leadingCellBits := leadingLimbBits % 17
    let nchunks := leadingLimbBits / 17 + if leadingCellBits = 0 then 0 else 1
    let cells ← oneLineSel { common := true, dLead := true } (limbLine n nchunks) 0 [] 0
    return cells 4

/-- `assign_d`: integer_chip.rs:428-445 (most significant limb first). -/
def assignD (v : ℕ) : M N (Fin 4 → AV N) := do
  let l3 ← assignDLeadingLimb (bnToLimbsN v 3)
  let l2 ← assignNonleadingLimb (bnToLimbsN v 2)
  let l1 ← assignNonleadingLimb (bnToLimbsN v 1)
  let l0 ← assignNonleadingLimb (bnToLimbsN v 0)
  return vec4 l0 l1 l2 l3

/-- `assign_w`: integer_chip.rs:447-464. -/
def assignW (v : W) : M N AInt := do
  let l3 ← assignWCeilLeadingLimb (bnToLimbsN (wToBn v) 3)
  let l2 ← assignNonleadingLimb (bnToLimbsN (wToBn v) 2)
  let l1 ← assignNonleadingLimb (bnToLimbsN (wToBn v) 1)
  let l0 ← assignNonleadingLimb (bnToLimbsN (wToBn v) 0)
  return AInt.new (vec4 l0 l1 l2 l3) 0

/-- `assign_integer`: integer_chip.rs:466-481 (least significant limb first). -/
def assignInteger (v : ℕ) : M N (Fin 4 → AV N) := do
  let l0 ← assignNonleadingLimb (bnToLimbsN v 0)
  let l1 ← assignNonleadingLimb (bnToLimbsN v 1)
  let l2 ← assignNonleadingLimb (bnToLimbsN v 2)
  let l3 ← assignNonleadingLimb (bnToLimbsN v 3)
  return vec4 l0 l1 l2 l3

/-- The limbs zipped with the powers of the limb modulus (integer_chip.rs:269, 604). -/
def nativeTerms (l : Fin 4 → AV N) : List (AV N × N) :=
  [(l 0, limbExp 0), (l 1, limbExp 1), (l 2, limbExp 2), (l 3, limbExp 3)]

/-- `native`: integer_chip.rs:595-621. Returns the cell and the updated integer. -/
def native (a : AInt) : M N (AV N × AInt) :=
  match a.native with
  | some n => pure (n, a)
  | none => do
    let cell ← sumWithConstant (nativeTerms a.limbs) 0
    return (cell, { a with native := some cell })

/-- `reduce`: integer_chip.rs:483-581. -/
def reduce (a : AInt) : M N AInt :=
  if a.overflows = 0 then pure a
  else do
    assertM (a.overflows < overflowLimit)
    let d := a.bn / fqMod
    let rem := a.bn % fqMod
    let u ← unwrapM (bnSub (d * wLimbs 0 + bnToLimbs rem 0 + limbMod * overflowLimit)
      (nToBn (a.limbs 0).value))
    let v := u / limbMod
    let rem ← assignW (bnToW rem)
    let cells ← oneLineSel { common := true } [(.unassigned (bnToN d), 0), (.unassigned (bnToN v), 0)]
      0 [] 0
    let d := cells 0
    let v := cells 1
    let (remNative, rem) ← native rem
    let (aNative, a) ← native a
    let _ ← oneLineAdd [(.assigned aNative, -1), (.assigned d, wNative), (.assigned remNative, 1)] 0
    let _ ← oneLineAdd [(.assigned d, bnToN (wLimbs 0)), (.assigned (rem.limbs 0), 1),
      (.assigned (a.limbs 0), -1), (.assigned v, -bnToN limbMod)] (bnToN (limbMod * overflowLimit))
    return ⟨rem.limbs, rem.native, rem.overflows⟩

/-- `conditionally_reduce`: integer_chip.rs:583-593. -/
def conditionallyReduce (a : AInt) : M N AInt :=
  if a.overflows ≥ overflowThreshold then reduce a else pure a

/-- `find_w_modulus_ceil`: integer_chip.rs:31-51. -/
def findWModulusCeil (overflows : ℕ) : Option (Fin 4 → ℕ) := do
  let maxA := (overflows + 1) * 2 ^ wCeilBits
  let n := if maxA % fqMod > 0 then maxA / fqMod + 1 else maxA / fqMod
  let upper := n * fqMod
  let rem0 := upper % limbMod + (overflows + 1) * limbMod
  let upper := (← bnSub upper rem0) / limbMod
  let rem1 := upper % limbMod + (overflows + 1) * limbMod
  let upper := (← bnSub upper rem1) / limbMod
  let rem2 := upper % limbMod + (overflows + 1) * limbMod
  let upper := (← bnSub upper rem2) / limbMod
  return vec4 rem0 rem1 rem2 upper

/-- `add`: integer_chip.rs:641-658. -/
def iadd (a b : AInt) : M N AInt := do
  let l0 ← add (a.limbs 0) (b.limbs 0)
  let l1 ← add (a.limbs 1) (b.limbs 1)
  let l2 ← add (a.limbs 2) (b.limbs 2)
  let l3 ← add (a.limbs 3) (b.limbs 3)
  conditionallyReduce (AInt.new (vec4 l0 l1 l2 l3) (a.overflows + b.overflows + 1))

/-- One limb of `sub`: integer_chip.rs:671-675. -/
def subLimb (a b : AV N) (up : ℕ) : M N (AV N) := sumWithConstant [(a, 1), (b, -1)] (bnToN up)

/-- `sub`: integer_chip.rs:660-683. -/
def isub (a b : AInt) : M N AInt := do
  let up ← unwrapM (findWModulusCeil b.overflows)
  let l0 ← subLimb (a.limbs 0) (b.limbs 0) (up 0)
  let l1 ← subLimb (a.limbs 1) (b.limbs 1) (up 1)
  let l2 ← subLimb (a.limbs 2) (b.limbs 2) (up 2)
  let l3 ← subLimb (a.limbs 3) (b.limbs 3) (up 3)
  conditionallyReduce (AInt.new (vec4 l0 l1 l2 l3) (a.overflows + (b.overflows + 1) + 1))

/-- One limb of `neg`: integer_chip.rs:695-699. -/
def negLimb (a : AV N) (up : ℕ) : M N (AV N) := sumWithConstant [(a, -1)] (bnToN up)

/-- `neg`: integer_chip.rs:685-707. -/
def ineg (a : AInt) : M N AInt := do
  let up ← unwrapM (findWModulusCeil a.overflows)
  let l0 ← negLimb (a.limbs 0) (up 0)
  let l1 ← negLimb (a.limbs 1) (up 1)
  let l2 ← negLimb (a.limbs 2) (up 2)
  let l3 ← negLimb (a.limbs 3) (up 3)
  conditionallyReduce (AInt.new (vec4 l0 l1 l2 l3) (a.overflows + 1))

/-- `neg_w_limbs_le`: integer_chip.rs:140-144. -/
def negWLimb (i : Fin 4) : N := bnToN (bnToLimbs (intMod - fqMod) i)

/-- The four limb products: integer_chip.rs:146-166. -/
def mulLimbTerms (a b d : Fin 4 → AV N) : Fin 4 → List (MulTerm N)
  | 0 => [⟨a 0, b 0, d 0, negWLimb 0⟩]
  | 1 => [⟨a 0, b 1, d 0, negWLimb 1⟩, ⟨a 1, b 0, d 1, negWLimb 0⟩]
  | 2 => [⟨a 0, b 2, d 0, negWLimb 2⟩, ⟨a 1, b 1, d 1, negWLimb 1⟩, ⟨a 2, b 0, d 2, negWLimb 0⟩]
  | 3 => [⟨a 0, b 3, d 0, negWLimb 3⟩, ⟨a 1, b 2, d 1, negWLimb 2⟩, ⟨a 2, b 1, d 2, negWLimb 1⟩,
      ⟨a 3, b 0, d 3, negWLimb 0⟩]

/-- The rows after the limb products: integer_chip.rs:191-252. -/
def mulEqTail (limbs rem : Fin 4 → AV N) : M N Unit := do
  let u0 := ((limbs 1).value - (rem 1).value) * bnToN limbMod + (limbs 0).value - (rem 0).value
    + limbExp 2
  let v0 := u0 * (limbExp 2)⁻¹
  let v0h := nToBn v0 / limbMod
  let v0l := nToBn v0 % limbMod
  let u1 := v0 - 1 + (limbs 2).value - (rem 2).value
    + ((limbs 3).value - (rem 3).value) * bnToN limbMod
  let v1 := u1 * (limbExp 2)⁻¹
  let v1h := nToBn v1 / limbMod
  let v1l := nToBn v1 % limbMod
  let v0h ← assignNFloorLeadingLimb (bnToN v0h)
  let v0l ← assignNonleadingLimb (bnToN v0l)
  let v1h ← assignNFloorLeadingLimb (bnToN v1h)
  let v1l ← assignNonleadingLimb (bnToN v1l)
  let u0 ← sumWithConstant [(limbs 0, 1), (limbs 1, bnToN limbMod), (rem 0, -1),
    (rem 1, -bnToN limbMod)] (limbExp 2)
  let _ ← oneLineAdd [(.assigned u0, -1), (.assigned v0l, limbExp 2), (.assigned v0h, limbExp 3)] 0
  let u1 ← sumWithConstant [(limbs 2, 1), (limbs 3, bnToN limbMod), (rem 2, -1),
    (rem 3, -bnToN limbMod)] 0
  let _ ← oneLineAdd [(.assigned u1, 1), (.assigned v0l, limbExp 0), (.assigned v0h, limbExp 1),
    (.assigned v1l, -limbExp 2), (.assigned v1h, -limbExp 3)] (-1)

/-- `add_constraints_for_mul_equation_on_limb0`: integer_chip.rs:104-252. -/
def mulEqLimbs (a b : AInt) (d : Fin 4 → AV N) (rem : AInt) : M N Unit := do
  assertM (a.overflows < overflowLimit)
  assertM (b.overflows < overflowLimit)
  assertM (rem.overflows < overflowLimit)
  let l0 ← mulAddWithNextLine (mulLimbTerms a.limbs b.limbs d 0)
  let l1 ← mulAddWithNextLine (mulLimbTerms a.limbs b.limbs d 1)
  let l2 ← mulAddWithNextLine (mulLimbTerms a.limbs b.limbs d 2)
  let l3 ← mulAddWithNextLine (mulLimbTerms a.limbs b.limbs d 3)
  mulEqTail (vec4 l0 l1 l2 l3) rem.limbs

/-- `add_constraints_for_mul_equation_on_native`: integer_chip.rs:254-287. Returns the updated `a`, `b`,
`rem`. -/
def mulEqNative (a b : AInt) (d : Fin 4 → AV N) (rem : AInt) : M N (AInt × AInt × AInt) := do
  let (an, a) ← native a
  let (bn, b) ← native b
  let dn ← sumWithConstant (nativeTerms d) 0
  let (rn, rem) ← native rem
  let _ ← oneLine [(.assigned an, 0), (.assigned bn, 0), (.assigned dn, -wNative), (.assigned rn, -1)]
    0 [1] 0
  return (a, b, rem)

/-- `add_constraints_for_square_equation_on_native`: integer_chip.rs:289-320. -/
def squareEqNative (a : AInt) (d : Fin 4 → AV N) (rem : AInt) : M N (AInt × AInt) := do
  let (an, a) ← native a
  let dn ← sumWithConstant (nativeTerms d) 0
  let (rn, rem) ← native rem
  let _ ← oneLine [(.assigned an, 0), (.assigned an, 0), (.assigned dn, -wNative), (.assigned rn, -1)]
    0 [1] 0
  return (a, rem)

/-- `mul`: integer_chip.rs:709-726. Returns the product and the updated arguments. -/
def imul (a b : AInt) : M N (AInt × AInt × AInt) := do
  let d := a.bn * b.bn / fqMod
  let rem := a.bn * b.bn % fqMod
  let rem ← assignW (bnToW rem)
  let d ← assignD d
  mulEqLimbs a b d rem
  let (a, b, rem) ← mulEqNative a b d rem
  return (rem, a, b)

/-- `square`: integer_chip.rs:728-743. -/
def isquare (a : AInt) : M N (AInt × AInt) := do
  let d := a.bn * a.bn / fqMod
  let rem := a.bn * a.bn % fqMod
  let rem ← assignW (bnToW rem)
  let d ← assignD d
  mulEqLimbs a a d rem
  let (a, rem) ← squareEqNative a d rem
  return (rem, a)

/-- `is_pure_zero`: integer_chip.rs:53-67. -/
def isPureZero (a : AInt) : M N (AV N) := do
  let sum ← sumWithConstant [(a.limbs 0, 1), (a.limbs 1, 1), (a.limbs 2, 1), (a.limbs 3, 1)] 0
  isZero sum

/-- `is_pure_w_modulus`: integer_chip.rs:69-102. -/
def isPureWModulus (a : AInt) : M N (AV N × AInt) := do
  let (na, a) ← native a
  let nd ← sumWithConstant [(na, 1)] (-wNative)
  let isNativeEq ← isZero nd
  let ld ← sumWithConstant [(a.limbs 0, 1)] (-bnToN (wLimbs 0))
  let isLimb0Eq ← isZero ld
  let r ← and isNativeEq isLimb0Eq
  return (r, a)

/-- `is_zero`: integer_chip.rs:796-806. Returns the flag and the updated argument. -/
def iisZero (a : AInt) : M N (AV N × AInt) := do
  let a ← reduce a
  let z ← isPureZero a
  let (m, a) ← isPureWModulus a
  let r ← or z m
  return (r, a)

/-- `is_equal`: chips/integer_chip.rs:199-207. -/
def iisEqual (a b : AInt) : M N (AV N) := do
  let diff ← isub a b
  let (r, _) ← iisZero diff
  return r

/-- `assert_equal`: integer_chip.rs:623-639. -/
def iassertEqual (a b : AInt) : M N Unit := do
  let diff ← isub a b
  let diff ← reduce diff
  let (dn, diff) ← native diff
  assertConstant dn 0
  assertConstant (diff.limbs 0) 0

/-- `div`: integer_chip.rs:745-782. Returns (is_b_zero, quotient) and the updated `a`, `b`. -/
def idiv (a b : AInt) : M N (AV N × AInt × AInt × AInt) := do
  let (isBZero, b) ← iisZero b
  let aCoeff ← not isBZero
  let a ← reduce a
  let l0 ← mul (a.limbs 0) aCoeff
  let l1 ← mul (a.limbs 1) aCoeff
  let l2 ← mul (a.limbs 2) aCoeff
  let l3 ← mul (a.limbs 3) aCoeff
  let a' := AInt.new (vec4 l0 l1 l2 l3) a.overflows
  let c := (b.w)⁻¹ * a'.w
  let diff ← unwrapM (bnSub (wToBn c * b.bn) a'.bn)
  let d := diff / fqMod
  let c ← assignW c
  let d ← assignD d
  mulEqLimbs b c d a'
  let (b, c, _) ← mulEqNative b c d a'
  return (isBZero, c, a, b)

/-- `assign_constant`: integer_chip.rs:784-794. -/
def iassignConstant (w : W) : M N AInt := do
  let l0 ← assignConstant (bnToLimbsN (wToBn w) 0)
  let l1 ← assignConstant (bnToLimbsN (wToBn w) 1)
  let l2 ← assignConstant (bnToLimbsN (wToBn w) 2)
  let l3 ← assignConstant (bnToLimbsN (wToBn w) 3)
  return AInt.new (vec4 l0 l1 l2 l3) 0

/-- `mul_small_constant`: integer_chip.rs:808-835. Returns the product and the updated argument. -/
def imulSmallConstant (a : AInt) (b : ℕ) : M N (AInt × AInt) := do
  assertM (b < overflowLimit)
  let a ← (if a.overflows * b ≥ overflowLimit then reduce a else pure a : M N AInt)
  let l0 ← sumWithConstant [(a.limbs 0, (b : N))] 0
  let l1 ← sumWithConstant [(a.limbs 1, (b : N))] 0
  let l2 ← sumWithConstant [(a.limbs 2, (b : N))] 0
  let l3 ← sumWithConstant [(a.limbs 3, (b : N))] 0
  let r ← conditionallyReduce (AInt.new (vec4 l0 l1 l2 l3) (a.overflows * b))
  return (r, a)

/-- `bisec`: integer_chip.rs:845-866. -/
def ibisec (cond : AV N) (a b : AInt) : M N AInt := do
  let l0 ← bisec cond (a.limbs 0) (b.limbs 0)
  let l1 ← bisec cond (a.limbs 1) (b.limbs 1)
  let l2 ← bisec cond (a.limbs 2) (b.limbs 2)
  let l3 ← bisec cond (a.limbs 3) (b.limbs 3)
  return AInt.new (vec4 l0 l1 l2 l3) (if a.overflows > b.overflows then a.overflows else b.overflows)

/-- `get_w`: integer_chip.rs:868-872 (honest value). -/
def getW (a : AInt) : W := a.w

/-- `get_last_bit`: integer_chip.rs:874-901. -/
def getLastBit (a : AInt) : M N (AV N) := do
  let bit : N := if nToBn (a.limbs 0).value % 2 = 1 then 1 else 0
  let d ← assignNonleadingLimb (bnToN (nToBn (a.limbs 0).value / 2))
  let cells ← oneLine [(.assigned d, 2), (.unassigned bit, 1), (.assigned (a.limbs 0), -1)] 0 [] 0
  assertBit (cells 1)
  return cells 1

end Verif.Circuit
