import Verif.Ecc.Spec

/-!
# Straight-line programs over the ECC chip, and their direct meaning

`EOp` lists the calls a user can make on `EccChipOps` (chips/ecc_chip.rs:86-580).  The arguments are
positions in the lists of points and of scalars obtained so far.  Arguments that Rust takes by `&mut` are
written back after the call.  `EOp.Sem` is the independent meaning in the group of the curve.
-/

namespace Verif.Circuit

open Verif.Ecc

/-- One call. -/
inductive EOp where
  | scalar (v : N)
  | assign (c : Pt)
  | constant (c : Pt)
  | identity
  | add (i j : ℕ)
  | double (i : ℕ)
  | neg (i : ℕ)
  | sub (i j : ℕ)
  | reduce (i : ℕ)
  | mul (i s : ℕ)
  | constantMul (c : Pt) (s : ℕ)
  | shamir (is ss : List ℕ)
  | assertEqual (i j : ℕ)

/-- Points and scalars obtained so far, and (for stating hypotheses only) the flag cells of the points
obtained from `assign_point`. -/
structure EState where
  pts : List APt
  scs : List (AV N)
  inputs : List (AV N)

/-- The point at a position; out of range is a panic. -/
def EState.pt (s : EState) (i : ℕ) : M N APt := unwrapM s.pts[i]?

/-- The scalar at a position. -/
def EState.sc (s : EState) (i : ℕ) : M N (AV N) := unwrapM s.scs[i]?

/-- The chip: one call (each constructor is the function of `Model.lean` of that name). -/
def EOp.run (s : EState) : EOp → M N EState
  | .scalar v => do
    let r ← Circuit.assign v
    return { s with scs := s.scs ++ [r] }
  | .assign c => do
    let p ← assignPoint c
    return { s with pts := s.pts ++ [p], inputs := s.inputs ++ [p.z] }
  | .constant c => do
    let p ← assignConstantPoint c
    return { s with pts := s.pts ++ [p] }
  | .identity => do
    let p ← assignIdentity
    return { s with pts := s.pts ++ [p] }
  | .add i j => do
    let a ← s.pt i
    let b ← s.pt j
    let (p, a) ← pAdd a b
    return { s with pts := s.pts.set i a ++ [p] }
  | .double i => do
    let a ← s.pt i
    let (p, a) ← pDouble a
    return { s with pts := s.pts.set i a ++ [p] }
  | .neg i => do
    let a ← s.pt i
    let p ← pNeg a
    return { s with pts := s.pts ++ [p] }
  | .sub i j => do
    let a ← s.pt i
    let b ← s.pt j
    let (p, a) ← pSub a b
    return { s with pts := s.pts.set i a ++ [p] }
  | .reduce i => do
    let a ← s.pt i
    let (p, a) ← pReduce a
    return { s with pts := s.pts.set i a ++ [p] }
  | .mul i k => do
    let a ← s.pt i
    let k ← s.sc k
    let p ← pMul a k
    return { s with pts := s.pts ++ [p] }
  | .constantMul c k => do
    let k ← s.sc k
    let p ← Circuit.constantMul c k
    return { s with pts := s.pts ++ [p] }
  | .shamir is ks => do
    let as ← unwrapM (is.mapM fun i => s.pts[i]?)
    let ks ← unwrapM (ks.mapM fun i => s.scs[i]?)
    let p ← Circuit.shamir as ks
    return { s with pts := s.pts ++ [p] }
  | .assertEqual i j => do
    let a ← s.pt i
    let b ← s.pt j
    pAssertEqual a b
    return s

/-- Run a program. -/
def runEProg : List EOp → EState → M N EState
  | [], s => pure s
  | op :: ops, s => do
    let s ← op.run s
    runEProg ops s

/-! ### Specification -/

/-- Group elements and scalars. -/
structure EEnv where
  pts : List Pt
  scs : List N

/-- What one call means in the group; a prover chooses assigned points and scalars. `assert_equal` only
guarantees equality of two affine points (see C21). -/
def EOp.Sem (e : EEnv) : EOp → EEnv → Prop
  | .scalar _, e' => ∃ v, e' = ⟨e.pts, e.scs ++ [v]⟩
  | .assign _, e' => ∃ P, e' = ⟨e.pts ++ [P], e.scs⟩
  | .constant c, e' => e' = ⟨e.pts ++ [c], e.scs⟩
  | .identity, e' => e' = ⟨e.pts ++ [0], e.scs⟩
  | .add i j, e' => ∃ P Q, e.pts[i]? = some P ∧ e.pts[j]? = some Q ∧ e' = ⟨e.pts ++ [P + Q], e.scs⟩
  | .double i, e' => ∃ P, e.pts[i]? = some P ∧ e' = ⟨e.pts ++ [P + P], e.scs⟩
  | .neg i, e' => ∃ P, e.pts[i]? = some P ∧ e' = ⟨e.pts ++ [-P], e.scs⟩
  | .sub i j, e' => ∃ P Q, e.pts[i]? = some P ∧ e.pts[j]? = some Q ∧ e' = ⟨e.pts ++ [P - Q], e.scs⟩
  | .reduce i, e' => ∃ P, e.pts[i]? = some P ∧ e' = ⟨e.pts ++ [P], e.scs⟩
  | .mul i k, e' => ∃ P s, e.pts[i]? = some P ∧ e.scs[k]? = some s ∧ e' = ⟨e.pts ++ [s.val • P], e.scs⟩
  | .constantMul c k, e' => ∃ s, e.scs[k]? = some s ∧ e' = ⟨e.pts ++ [s.val • c], e.scs⟩
  | .shamir is ks, e' => ∃ Ps ss, is.mapM (fun i => e.pts[i]?) = some Ps ∧ ks.mapM (fun i => e.scs[i]?) = some ss ∧
      e' = ⟨e.pts ++ [(List.zipWith (fun (P : Pt) (s : N) => s.val • P) Ps ss).sum], e.scs⟩
  | .assertEqual i j, e' => e' = e ∧ ∃ P Q, e.pts[i]? = some P ∧ e.pts[j]? = some Q ∧
      ((P = 0 ↔ Q = 0) → P = Q)

/-- Meaning of a program for an arbitrary prover. -/
def EProgSem : List EOp → EEnv → EEnv → Prop
  | [], e, e' => e' = e
  | op :: ops, e, e' => ∃ m, op.Sem e m ∧ EProgSem ops m e'

/-- The chip state stands for the group elements and scalars `e` under the prover's assignment. -/
structure EStands (adv : Advice N) (s : EState) (e : EEnv) : Prop where
  pts : List.Forall₂ (Represents adv) s.pts e.pts
  scs : List.Forall₂ (fun (c : AV N) v => c.val adv = v) s.scs e.scs

end Verif.Circuit
