import Verif.Ecc.Curve
import Verif.Integer.Model

/-!
# Model of the ECC chip

Sources: `halo2-ecc-circuit-lib/src/chips/ecc_chip.rs` (cited as `ecc_chip.rs`) and
`halo2-ecc-circuit-lib/src/chips/native_ecc_chip.rs`, for `C = bn256::G1Affine` (the only instance in the
repository).  Points given to the chip from outside (`C::CurveExt`) are elements of the group of Mathlib.
`&mut` arguments are returned.  The `in_shape_mode` branch of `shamir` (ecc_chip.rs:196-205), which only
counts rows, is in `Ecc/Measure.lean`.
-/

namespace Verif.Circuit

open Verif.Ecc

/-- `AssignedCurvature`: ecc_chip.rs:10-20. -/
structure ACurv where
  v : AInt
  z : AV N

/-- `AssignedPoint`: ecc_chip.rs:22-58. -/
structure APt where
  x : AInt
  y : AInt
  z : AV N
  curv : Option ACurv

/-- `to_affine().coordinates()` with `unwrap_or(zero)`: ecc_chip.rs:425-427. -/
def coordX : Pt → W
  | .zero => 0
  | .some x _ _ => x
def coordY : Pt → W
  | .zero => 0
  | .some _ y _ => y

/-- `to_affine().is_identity()`. -/
def isIdentity : Pt → Bool
  | .zero => true
  | .some _ _ _ => false

/-- `N::conditional_select(&zero, &one, is_identity)`: ecc_chip.rs:428. -/
def flagOf (c : Pt) : N := if isIdentity c then 1 else 0

/-- `curvature`: ecc_chip.rs:280-307. Returns the curvature and the updated point. -/
def curvature (a : APt) : M N (ACurv × APt) :=
  match a.curv with
  | some c => pure (c, a)
  | none => do
    let (x2, x) ← isquare a.x
    let (num, _) ← imulSmallConstant x2 3
    let (den, y) ← imulSmallConstant a.y 2
    let (z, v, _, _) ← idiv num den
    return (⟨v, z⟩, ⟨x, y, a.z, some ⟨v, z⟩⟩)

/-- `bisec_curvature`: ecc_chip.rs:308-321. -/
def bisecCurv (cond : AV N) (a b : ACurv) : M N ACurv := do
  let v ← ibisec cond a.v b.v
  let z ← bisecCond cond a.z b.z
  return ⟨v, z⟩

/-- `bisec_point`: ecc_chip.rs:322-336. -/
def bisecPoint (cond : AV N) (a b : APt) : M N APt := do
  let x ← ibisec cond a.x b.x
  let y ← ibisec cond a.y b.y
  let z ← bisecCond cond a.z b.z
  return ⟨x, y, z, none⟩

/-- `bisec_point_with_curvature`: ecc_chip.rs:337-355 (its callers drop the updated arguments). -/
def bisecPointCurv (cond : AV N) (a b : APt) : M N APt := do
  let x ← ibisec cond a.x b.x
  let y ← ibisec cond a.y b.y
  let z ← bisecCond cond a.z b.z
  let (ca, _) ← curvature a
  let (cb, _) ← curvature b
  let c ← bisecCurv cond ca cb
  return ⟨x, y, z, some c⟩

/-- `lambda_to_point`: ecc_chip.rs:356-382. -/
def lambdaToPoint (lambda : ACurv) (a b : APt) : M N APt := do
  let (l2, l) ← isquare lambda.v
  let t ← isub l2 a.x
  let cx ← isub t b.x
  let t ← isub a.x cx
  let (t, _, _) ← imul t l
  let cy ← isub t a.y
  return ⟨cx, cy, lambda.z, none⟩

/-- `add`: ecc_chip.rs:383-408. Returns the sum and the updated first argument. -/
def pAdd (a b : APt) : M N (APt × APt) := do
  let diffX ← isub a.x b.x
  let diffY ← isub a.y b.y
  let (xEq, tangent, diffY, _) ← idiv diffY diffX
  let (yEq, _) ← iisZero diffY
  let eq ← and xEq yEq
  let (c, a) ← curvature a
  let lambda ← bisecCurv eq c ⟨tangent, xEq⟩
  let p ← lambdaToPoint lambda a b
  let p ← bisecPoint a.z b p
  let p ← bisecPoint b.z a p
  return (p, a)

/-- `double`: ecc_chip.rs:409-419. Returns the double and the updated argument. -/
def pDouble (a : APt) : M N (APt × APt) := do
  let (c, a) ← curvature a
  let p ← lambdaToPoint c a a
  let z ← bisecCond a.z a.z p.z
  return ({ p with z := z }, a)

/-- `assign_constant_point`: ecc_chip.rs:420-437. -/
def assignConstantPoint (c : Pt) : M N APt := do
  let x ← iassignConstant (coordX c)
  let y ← iassignConstant (coordY c)
  let z ← assignConstant (flagOf c)
  return ⟨x, y, z, none⟩

/-- `assign_constant_point_with_curvature`: ecc_chip.rs:438-472. -/
def assignConstantPointCurv (c : Pt) : M N APt := do
  let cv ← iassignConstant (coordY c * (coordX c)⁻¹)
  let cz ← assignConstant (if coordX c = 0 then 1 else 0)
  let x ← iassignConstant (coordX c)
  let y ← iassignConstant (coordY c)
  let z ← assignConstant (flagOf c)
  return ⟨x, y, z, some ⟨cv, cz⟩⟩

/-- `assign_point` with its three witnesses as arguments: ecc_chip.rs:478-500. -/
def assignPointRaw (vx vy : W) (vz : N) : M N APt := do
  let x ← assignW vx
  let y ← assignW vy
  let z ← assign vz
  let b ← iassignConstant 3
  let (y2, y) ← isquare y
  let (x2, x) ← isquare x
  let (x3, _, x) ← imul x2 x
  let right ← iadd x3 b
  let eq ← iisEqual y2 right
  let e ← or eq z
  assertTrue e
  return ⟨x, y, z, none⟩

/-- `assign_point`: ecc_chip.rs:473-500. -/
def assignPoint (c : Pt) : M N APt := assignPointRaw (coordX c) (coordY c) (flagOf c)

/-- `assign_constant_point_from_scalar`: ecc_chip.rs:501-508. -/
def assignConstantPointFromScalar (s : N) : M N APt := assignConstantPoint (s.val • gen)

/-- `assign_point_from_scalar`: ecc_chip.rs:509-516. -/
def assignPointFromScalar (s : N) : M N APt := assignPoint (s.val • gen)

/-- `assign_identity`: ecc_chip.rs:517-527. -/
def assignIdentity : M N APt := do
  let zero ← iassignConstant 0
  let one ← assignConstant 1
  return ⟨zero, zero, one, some ⟨zero, one⟩⟩

/-- `assert_equal`: ecc_chip.rs:528-548. -/
def pAssertEqual (a b : APt) : M N Unit := do
  let eqX ← iisEqual a.x b.x
  let eqY ← iisEqual a.y b.y
  let eqZ ← xnor eqX eqY
  let eqXY ← and eqX eqY
  let eqXYZ ← and eqXY eqZ
  let both ← and a.z b.z
  let eq ← or eqXYZ both
  assertConstant eq 1

/-- `neg`: ecc_chip.rs:549-559. -/
def pNeg (a : APt) : M N APt := do
  let y ← ineg a.y
  return ⟨a.x, y, a.z, none⟩

/-- `sub`: ecc_chip.rs:560-568. -/
def pSub (a b : APt) : M N (APt × APt) := do
  let nb ← pNeg b
  pAdd a nb

/-- `reduce`: ecc_chip.rs:569-580. -/
def pReduce (a : APt) : M N (APt × APt) := do
  let x ← reduce a.x
  let y ← reduce a.y
  let a : APt := { a with x := x, y := y }
  let identity ← assignIdentity
  let p ← bisecPoint a.z identity a
  return (p, a)

/-! ### Scalars -/

/-- One row of `decompose_scalar`: native_ecc_chip.rs:57-71, 82-95, 108-115. -/
def windowRow (w s : ℕ) (last : Schema N) (next : N) : M N (List (AV N)) := do
  let cells ← oneLineWithLastBase
    ((List.range w).map fun i => (.unassigned (if s.testBit i then 1 else 0), ((2 ^ i : ℕ) : N)))
    (last, -1) 0 [] next
  return [cells 0, cells 1, cells 2, cells 3, cells 4].take w

/-- The rows after the first: native_ecc_chip.rs:80-124 (`k` middle rows and the last one). -/
def decomposeTail (w : ℕ) : ℕ → ℕ → M N (List (List (AV N)))
  | 0, s => do
    let c ← windowRow w s (.unassigned (bnToN s)) 0
    return [c]
  | k + 1, s => do
    let c ← windowRow w s (.unassigned (bnToN s)) ((2 ^ w : ℕ) : N)
    let cs ← decomposeTail w k (s >>> w)
    return c :: cs

/-- `assert_bit` on every cell: native_ecc_chip.rs:127-131. -/
def assertBits : List (AV N) → M N Unit
  | [] => pure ()
  | b :: bs => do
    assertBit b
    assertBits bs

/-- `NUM_BITS` of `bn256::Fr`. -/
def scalarBits : ℕ := 254

/-- `decompose_scalar`: native_ecc_chip.rs:42-135. Windows from the most significant one, bits of a window
from the least significant one. -/
def decomposeScalar (w : ℕ) (s : AV N) : M N (List (List (AV N))) := do
  let windows := (scalarBits - 1 + w) / w
  let c ← windowRow w (nToBn s.value) (.assigned s) ((2 ^ w : ℕ) : N)
  let cs ← decomposeTail w (windows - 2) (nToBn s.value >>> w)
  let ret := (c :: cs).reverse
  assertBits ret.flatten
  return ret

/-! ### Scalar multiplication -/

/-- The candidates after the identity: ecc_chip.rs:95-100. `n` more multiples of `a` after `last`. -/
def buildCands (a : APt) : ℕ → APt → M N (List APt)
  | 0, last => pure [last]
  | n + 1, last => do
    let (next, last) ← pAdd last a
    let rest ← buildCands a n next
    return last :: rest

/-- The candidates of `shamir`, with their curvatures: ecc_chip.rs:157-163. -/
def buildCandsCurv (a : APt) : ℕ → APt → M N (List APt)
  | 0, last => pure [last]
  | n + 1, last => do
    let (next, last) ← pAdd last a
    let (_, next) ← curvature next
    let rest ← buildCandsCurv a n next
    return last :: rest

/-- One round of `pick_candidate`: ecc_chip.rs:106-118, 173-185. -/
def pickPairs (bit : AV N) : List APt → M N (List APt)
  | a0 :: a1 :: rest => do
    let c ← bisecPointCurv bit a1 a0
    let cs ← pickPairs bit rest
    return c :: cs
  | _ => pure []

/-- `pick_candidate`: ecc_chip.rs:102-121, 168-188. -/
def pick : List (AV N) → List APt → M N APt
  | [], cs => unwrapM cs.head?
  | b :: bs, cs => do
    let cs ← pickPairs b cs
    pick bs cs

/-- `for _ in 0..CONFIG_WINDOW_SIZE { acc = double(acc) }`: ecc_chip.rs:126-128. -/
def doubles : ℕ → APt → M N APt
  | 0, a => pure a
  | n + 1, a => do
    let (p, _) ← pDouble a
    doubles n p

/-- The loop of `mul`: ecc_chip.rs:125-132. -/
def mulLoop (cands : List APt) : List (List (AV N)) → APt → M N APt
  | [], acc => pure acc
  | bits :: ws, acc => do
    let acc ← doubles 4 acc
    let curr ← pick bits cands
    let (acc, _) ← pAdd curr acc
    mulLoop cands ws acc

/-- `mul`: ecc_chip.rs:86-138. -/
def pMul (a : APt) (s : AV N) : M N APt := do
  let windows ← decomposeScalar 4 s
  let identity ← assignIdentity
  let rest ← buildCands a 14 a
  let cands := identity :: rest
  match windows with
  | [] => unwrapM none
  | first :: pendings => do
    let acc ← pick first cands
    mulLoop cands pendings acc

/-- `scalars.iter().map(decompose_scalar).collect()`: ecc_chip.rs:147-150. -/
def decomposeAll : List (AV N) → M N (List (List (List (AV N))))
  | [] => pure []
  | s :: ss => do
    let w ← decomposeScalar 4 s
    let ws ← decomposeAll ss
    return w :: ws

/-- `point_candidates`: ecc_chip.rs:152-166. -/
def allCands (identity : APt) : List APt → M N (List (List APt))
  | [] => pure []
  | a :: as => do
    let cs ← buildCandsCurv a 14 a
    let rest ← allCands identity as
    return (identity :: cs) :: rest

/-- The points picked for one window and their sum: ecc_chip.rs:207-222. -/
def innerLoop : List (List APt × List (AV N)) → APt → M N APt
  | [], acc => pure acc
  | (cs, bits) :: rest, acc => do
    let ci ← pick bits cs
    let (p, _) ← pAdd ci acc
    innerLoop rest p

/-- One window of `shamir`: ecc_chip.rs:205-222. -/
def inner : List (List APt × List (AV N)) → M N APt
  | [] => unwrapM none
  | (cs, bits) :: rest => do
    let ci ← pick bits cs
    innerLoop rest ci

/-- The `n` windows from number `wi` on: ecc_chip.rs:193-241 (`windows_in_be[pi][wi]` panics when
out of range). -/
def shamirLoop (cands : List (List APt)) (windows : List (List (List (AV N)))) : ℕ → ℕ → APt → M N APt
  | 0, _, acc => pure acc
  | n + 1, wi, acc => do
    let bits ← unwrapM (windows.mapM fun w => w[wi]?)
    let innerAcc ← inner (cands.zip bits)
    let acc ← doubles 4 acc
    let (acc, _) ← pAdd innerAcc acc
    shamirLoop cands windows n (wi + 1) acc

/-- `shamir`: ecc_chip.rs:139-244. -/
def shamir (points : List APt) (scalars : List (AV N)) : M N APt := do
  assertM (points.length = scalars.length)
  let windows ← decomposeAll scalars
  let identity ← assignIdentity
  let cands ← allCands identity points
  let w0 ← unwrapM windows.head?
  match w0.length with
  | 0 => unwrapM none
  | n + 1 => do
    let bits ← unwrapM (windows.mapM fun w => w[0]?)
    let acc ← inner (cands.zip bits)
    shamirLoop cands windows n 1 acc

/-- One window of `constant_mul`: ecc_chip.rs:257-269. -/
def constSlot (identity : APt) (base : Pt) : List (AV N) → M N APt
  | [b0, b1] => do
    let c01 ← assignConstantPointCurv (base + base)
    let c10 ← assignConstantPointCurv base
    let c11 ← assignConstantPointCurv (base + base + base)
    let c0 ← bisecPointCurv b0 c10 identity
    let c1 ← bisecPointCurv b0 c11 c01
    bisecPointCurv b1 c1 c0
  | _ => unwrapM none

/-- The loop of `constant_mul` once an accumulator exists: ecc_chip.rs:256-276. -/
def constLoop (identity : APt) : List (List (AV N)) → Pt → APt → M N APt
  | [], _, acc => pure acc
  | bits :: ws, base, acc => do
    let slot ← constSlot identity base bits
    let (acc, _) ← pAdd slot acc
    constLoop identity ws (base + base + base + base) acc

/-- `constant_mul`: ecc_chip.rs:245-279. -/
def constantMul (a : Pt) (s : AV N) : M N APt := do
  let windows ← decomposeScalar 2 s
  let identity ← assignConstantPointCurv 0
  match windows.reverse with
  | [] => unwrapM none
  | bits :: ws => do
    let slot ← constSlot identity a bits
    constLoop identity ws (a + a + a + a) slot

end Verif.Circuit
