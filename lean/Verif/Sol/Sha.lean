import Verif.Sol.EvmProps

/-!
# The SHA transcript and the transcript of the contract

Sources: `halo2-snark-aggregator-api/src/transcript/sha.rs` (cited as `sha.rs`), `transcript/codegen.rs` and `templates/verifier.sol` of
`halo2-snark-aggregator-solidity`.

The state of a hasher is the bytes it was given. An error (`none`) ends the run; the state after an error is not modelled.
-/

namespace Verif.Sol
open Verif.Circuit Verif.Ecc

/-- A hash function with 32 bytes of output. -/
structure Digest where
  run : List UInt8 → List UInt8
  length : ∀ l, (run l).length = 32

/-- `to_repr`: 32 bytes, the least significant one first. -/
def repr (n : ℕ) : List UInt8 := (List.range 32).map fun i => UInt8.ofNat (n / 256 ^ i)

/-- `from_repr`: `none` for values that are not below the modulus. -/
def fromRepr (q : ℕ) (l : List UInt8) : Option (ZMod q) := if leNat l < q then some (leNat l : ZMod q) else none

/-- `common_point`: sha.rs:95-113 and 200-218. -/
noncomputable def shaPoint (s : List UInt8) (P : Pt) : Option (List UInt8) := open Classical in
  let s := s ++ List.replicate 31 0
  let s := s ++ [1]
  if P = 0 then none else
    let s := s ++ (repr (coordX P).val).reverse
    some (s ++ (repr (coordY P).val).reverse)

/-- `common_scalar`: sha.rs:115-127 and 220-232. -/
def shaScalar (s : List UInt8) (a : N) : List UInt8 :=
  let s := s ++ List.replicate 31 0
  let s := s ++ [2]
  s ++ (repr a.val).reverse

/-- `squeeze_challenge`: sha.rs:81-93 and 186-198. Returns the new state and the scalar of the `Challenge255`. -/
def shaSqueeze (D : Digest) (s : List UInt8) : List UInt8 × N :=
  let s := s ++ [0]
  let result := D.run s
  (result, (leNat (result ++ List.replicate 32 0) : N))

/-- `ShaWrite`. -/
structure Wr where
  state : List UInt8
  out : List UInt8

/-- `ShaRead`. -/
structure Rd where
  state : List UInt8
  input : List UInt8

/-- `write_point`: sha.rs:157-176. -/
noncomputable def writePoint (w : Wr) (P : Pt) : Option Wr := do
  let s ← shaPoint w.state P
  return ⟨s, w.out ++ repr (coordX P).val ++ repr (coordY P).val⟩

/-- `write_scalar`: sha.rs:178-183. -/
def writeScalar (w : Wr) (a : N) : Wr := ⟨shaScalar w.state a, w.out ++ repr a.val⟩

/-- `read_exact` of 32 bytes. -/
def take32 (l : List UInt8) : Option (List UInt8 × List UInt8) := if l.length < 32 then none else some (l.take 32, l.drop 32)

/-- `from_xy`. The curve library takes the pair (0, 0) for the identity. -/
def fromXY (x y : W) : Option Pt := if h : y ^ 2 = x ^ 3 + 3 then some (pt x y h) else if x = 0 ∧ y = 0 then some 0 else none

/-- `read_point`: sha.rs:43-62. -/
noncomputable def readPoint (r : Rd) : Option (Rd × Pt) := do
  let (d, i) ← take32 r.input
  let x ← fromRepr fqMod d
  let (d, i) ← take32 i
  let y ← fromRepr fqMod d
  let P ← fromXY x y
  let s ← shaPoint r.state P
  return (⟨s, i⟩, P)

/-- `read_scalar`: sha.rs:64-76. -/
def readScalar (r : Rd) : Option (Rd × N) := do
  let (d, i) ← take32 r.input
  let a ← fromRepr frMod d
  return (⟨shaScalar r.state a, i⟩, a)

/-! ### Runs -/

/-- What a prover does with a transcript. -/
inductive Msg where
  | point (P : Pt)
  | scalar (a : N)
  | commonPoint (P : Pt)
  | commonScalar (a : N)
  | challenge

/-- What a verifier does with it: the same without the values that come from the stream. -/
inductive Ask where
  | point
  | scalar
  | commonPoint (P : Pt)
  | commonScalar (a : N)
  | challenge

def Msg.ask : Msg → Ask
  | .point _ => .point
  | .scalar _ => .scalar
  | .commonPoint P => .commonPoint P
  | .commonScalar a => .commonScalar a
  | .challenge => .challenge

/-- What a side learns in a step. -/
inductive Seen where
  | point (P : Pt)
  | scalar (a : N)
  | nothing
  | challenge (a : N)

noncomputable def writeStep (D : Digest) (w : Wr) : Msg → Option (Wr × Seen)
  | .point P => (writePoint w P).map fun w => (w, .point P)
  | .scalar a => some (writeScalar w a, .scalar a)
  | .commonPoint P => (shaPoint w.state P).map fun s => (⟨s, w.out⟩, .nothing)
  | .commonScalar a => some (⟨shaScalar w.state a, w.out⟩, .nothing)
  | .challenge => some (⟨(shaSqueeze D w.state).1, w.out⟩, .challenge (shaSqueeze D w.state).2)

noncomputable def writeAll (D : Digest) : Wr → List Msg → Option (Wr × List Seen)
  | w, [] => some (w, [])
  | w, m :: ms => do
    let (w, x) ← writeStep D w m
    let (w, l) ← writeAll D w ms
    return (w, x :: l)

noncomputable def readStep (D : Digest) (r : Rd) : Ask → Option (Rd × Seen)
  | .point => (readPoint r).map fun x => (x.1, .point x.2)
  | .scalar => (readScalar r).map fun x => (x.1, .scalar x.2)
  | .commonPoint P => (shaPoint r.state P).map fun s => (⟨s, r.input⟩, .nothing)
  | .commonScalar a => some (⟨shaScalar r.state a, r.input⟩, .nothing)
  | .challenge => some (⟨(shaSqueeze D r.state).1, r.input⟩, .challenge (shaSqueeze D r.state).2)

noncomputable def readAll (D : Digest) : Rd → List Ask → Option (Rd × List Seen)
  | r, [] => some (r, [])
  | r, a :: l => do
    let (r, x) ← readStep D r a
    let (r, t) ← readAll D r l
    return (r, x :: t)

/-! ### The contract -/

/-- A word in memory from bytes. -/
def ofBytes (l : List UInt8) : Word := BitVec.ofNat 256 (leNat l.reverse)

/-- `absorbing[pos] = v`, with the bounds check of the compiler. -/
def store (a : List Word) (pos : ℕ) (v : Word) : Option (List Word) := if pos < a.length then some (a.set pos v) else none

/-- `update_hash_scalar`: verifier.sol:278-281. -/
def updateHashScalar (v : Word) (a : List Word) (pos : ℕ) : Option (List Word) := do
  let a ← store a pos 2
  store a (pos + 1) v

/-- `update_hash_point`: verifier.sol:283-287. -/
def updateHashPoint (x y : Word) (a : List Word) (pos : ℕ) : Option (List Word) := do
  let a ← store a pos 1
  let a ← store a (pos + 1) x
  store a (pos + 2) y

/-- The words of an array as bytes of memory. -/
def memBytes (a : List Word) : List UInt8 := a.flatMap bytesOf

/-- `hash`: verifier.sol:295-302. -/
def hashMem (D : Digest) (a : List Word) (length : ℕ) : Word := ofBytes (D.run ((memBytes a).take length))

/-- `squeeze_challenge`: verifier.sol:304-310. The length is a `uint32` and so is `length * 32 + 1`. -/
def squeezeChallenge (D : Digest) (a : List Word) (length : ℕ) : Option (List Word × Word) := do
  let a ← store a length 0
  if length * 32 + 1 < 2 ^ 32 then
    let res := hashMem D a (length * 32 + 1)
    let v := toScalar res
    let a ← store a 0 res
    return (a, v)
  else none

/-- The absorbing array and `ctx.absorbing_offset`, which fixes the positions in the generated code. -/
structure Abs where
  arr : List Word
  off : ℕ

/-- The same messages as words. -/
inductive WMsg where
  | point (x y : Word)
  | scalar (v : Word)
  | challenge

/-- The words of a message. -/
def Msg.words : Msg → WMsg
  | .point P | .commonPoint P => .point (g1Words P).1 (g1Words P).2
  | .scalar a | .commonScalar a => .scalar (wordOf a)
  | .challenge => .challenge

/-- The statements generated for a step, executed: transcript/codegen.rs:68-97 and 191-214. Returns the challenge. -/
def absStep (D : Digest) (s : Abs) : WMsg → Option (Abs × Option Word)
  | .point x y => (updateHashPoint x y s.arr s.off).map fun a => (⟨a, s.off + 3⟩, none)
  | .scalar v => (updateHashScalar v s.arr s.off).map fun a => (⟨a, s.off + 2⟩, none)
  | .challenge => (squeezeChallenge D s.arr s.off).map fun x => (⟨x.1, 1⟩, some x.2)

def absAll (D : Digest) : Abs → List WMsg → Option (Abs × List (Option Word))
  | s, [] => some (s, [])
  | s, m :: ms => do
    let (s, x) ← absStep D s m
    let (s, l) ← absAll D s ms
    return (s, x :: l)

/-- `absorbing_offset` and `max_absorbing_offset`: transcript/codegen.rs:78, 93 and 206-209. -/
def offStep (o : ℕ × ℕ) : WMsg → ℕ × ℕ
  | .point _ _ => (o.1 + 3, o.2)
  | .scalar _ => (o.1 + 2, o.2)
  | .challenge => (1, max o.1 o.2)

/-- `absorbing_length`: lib.rs:296-300. -/
def absorbingLength (ms : List WMsg) : ℕ :=
  let o := ms.foldl offStep (0, 0)
  max o.1 o.2

/-- The transcript of the contract: `absorbing` starts with `absorbing_length + 1` zeros (verifier.sol:346). -/
def absRun (D : Digest) (ms : List WMsg) : Option (Abs × List (Option Word)) :=
  absAll D ⟨List.replicate (absorbingLength ms + 1) 0, 0⟩ ms

end Verif.Sol
