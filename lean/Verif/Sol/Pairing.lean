import Verif.Sol.EvmProps
import Verif.Sol.ShaProps
import Verif.Sol.Syntax
import Mathlib.Algebra.QuadraticAlgebra.Basic
import Mathlib.NumberTheory.LegendreSymbol.Basic

/-!
# The pairing check of the contract: C95

`halo2-snark-aggregator-solidity/src/lib.rs` (cited as `lib.rs`), `templates/verifier.sol`. The points of the parameters in `G2`, how they are
written into the contract, and what contract 8 (EIP-197) makes of them. The pairing is any bilinear map that is not degenerate.
-/

namespace Verif.Sol
open Verif.Circuit Verif.Ecc WeierstrassCurve

/-! ### The second group -/

instance : Fact (∀ r : Fq, r ^ 2 ≠ -1 + 0 * r) := ⟨fun r h => by
  rw [zero_mul, add_zero] at h
  exact (ZMod.exists_sq_eq_neg_one_iff (p := fqMod)).1 ⟨r, by rw [← h, sq]⟩ (by decide +kernel)⟩

/-- `Fq[i]` with `i^2 = -1`. -/
abbrev Fq2 := QuadraticAlgebra Fq (-1) 0

/-- The twist `y^2 = x^3 + 3 / (9 + i)`. -/
noncomputable def tw : Affine Fq2 := ⟨0, 0, 0, 0, 3 / ⟨9, 1⟩⟩

/-- Its points of order `r`. -/
noncomputable def G2 : AddSubgroup tw.Point := (nsmulAddMonoidHom (α := tw.Point) frMod).ker

/-- A pairing. `Target` is written additively. -/
structure Pairing where
  Target : Type
  [group : AddCommGroup Target]
  e : Pt →+ G2 →+ Target
  nondegenerate : ∀ {P Q}, e P Q = 0 → P = 0 ∨ Q = 0

attribute [instance] Pairing.group

/-! ### Contract 8 -/

open Classical in
/-- The point with the given coordinates. -/
noncomputable def g2Of (x y : Fq2) : Option G2 :=
  if h : ∃ hn : tw.Nonsingular x y, Affine.Point.some x y hn ∈ G2 then some ⟨_, h.2⟩ else none

/-- EIP-197: the words of a point of `G2`, the imaginary part of a coordinate first. Coordinates are below the modulus; zeros are the identity. -/
noncomputable def g2 (x1 x0 y1 y0 : Word) : Option G2 :=
  if x1 = 0 ∧ x0 = 0 ∧ y1 = 0 ∧ y0 = 0 then some 0
  else if x1.toNat < fqMod ∧ x0.toNat < fqMod ∧ y1.toNat < fqMod ∧ y0.toNat < fqMod then g2Of ⟨x0.toNat, x1.toNat⟩ ⟨y0.toNat, y1.toNat⟩
  else none

/-- EIP-197: the input consists of pairs of points. -/
noncomputable def decodePairs : List Word → Option (List (Pt × G2))
  | [] => some []
  | x :: y :: x1 :: x0 :: y1 :: y0 :: ws => do
    let P ← g1 x y
    let Q ← g2 x1 x0 y1 y0
    return (P, Q) :: (← decodePairs ws)
  | _ => none

open Classical in
/-- EIP-197: one if the product of the pairings is one, otherwise zero. `none` is a call that fails. -/
noncomputable def ecPairing (p : Pairing) (ws : List Word) : Option Word := do
  let l ← decodePairs ws
  if (l.map fun a => p.e a.1 a.2).sum = 0 then some 1 else some 0

/-! ### The template -/

/-- `G2Point`: verifier.sol:151-154, the values of `x[0]`, `x[1]`, `y[0]` and `y[1]`. -/
structure G2Point where
  x0 : Word
  x1 : Word
  y0 : Word
  y1 : Word

/-- `a[i] = v`. -/
def setAt (a : List Word) (i : ℕ) (v : Word) : Option (List Word) := if i < a.length then some (a.set i v) else none

/-- verifier.sol:18-23. -/
def pairingRow (p1 : List (Word × Word)) (p2 : List G2Point) (input : List Word) (i : ℕ) : Option (List Word) := do
  let P ← p1[i]?
  let Q ← p2[i]?
  let input ← setAt input (0 + i * 6) P.1
  let input ← setAt input (1 + i * 6) P.2
  let input ← setAt input (2 + i * 6) Q.x0
  let input ← setAt input (3 + i * 6) Q.x1
  let input ← setAt input (4 + i * 6) Q.y0
  setAt input (5 + i * 6) Q.y1

/-- `pairing`: verifier.sol:5-38. -/
noncomputable def pairing (p : Pairing) (p1 : List (Word × Word)) (p2 : List G2Point) : Option Bool := do
  let input := List.replicate (p1.length * 6) (0 : Word)
  if p1.length = p2.length then do
    let input ← (List.range p1.length).foldlM (pairingRow p1 p2) input
    let r ← ecPairing p input
    return decide (r ≠ 0)
  else none

/-! ### What is written into the template -/

/-- `to_repr` of the field of `G2`: real part, then imaginary part, least significant byte first. -/
def fq2Repr (z : Fq2) : List UInt8 := repr z.re.val ++ repr z.im.val

/-- `g2field_to_bn`: lib.rs:129-134. -/
def g2fieldToBn (z : Fq2) : ℕ × ℕ := (leNat (((fq2Repr z).drop 32).take 32), leNat ((fq2Repr z).take 32))

/-- `get_xy_from_g2point`: lib.rs:136-148. -/
def xyOfG2 : tw.Point → (ℕ × ℕ) × ℕ × ℕ
  | .zero => (g2fieldToBn 0, g2fieldToBn 0)
  | .some x y _ => (g2fieldToBn x, g2fieldToBn y)

/-- `get_verify_circuit_g2_s` and the other three functions: verifier.sol:312-338, with the numbers of lib.rs:57-121. -/
def g2Point (n : (ℕ × ℕ) × ℕ × ℕ) : Option G2Point := do
  return ⟨← lit n.1.1, ← lit n.1.2, ← lit n.2.1, ← lit n.2.2⟩

/-! ### Contract 8 reads what is written -/

theorem bn_fq2 (z : Fq2) : g2fieldToBn z = (z.im.val, z.re.val) := by
  unfold g2fieldToBn fq2Repr
  rw [List.drop_left' (repr_length _), List.take_left' (repr_length _), List.take_of_length_le (by rw [repr_length]),
    leNat_repr ((ZMod.val_lt _).trans fqMod_lt), leNat_repr ((ZMod.val_lt _).trans fqMod_lt)]

theorem lit_coord (x : Fq) : lit x.val = some (BitVec.ofNat 256 x.val) := if_pos ((ZMod.val_lt _).trans fqMod_lt)

theorem b_ne : (3 / ⟨9, 1⟩ : Fq2) ≠ 0 := by
  refine div_ne_zero (fun h => three_ne ?_) (fun h => ?_)
  · have := congrArg QuadraticAlgebra.re h
    rwa [show (3 : Fq2) = ((3 : ℕ) : Fq2) from rfl, QuadraticAlgebra.re_natCast] at this
  · have := congrArg QuadraticAlgebra.im h
    simp at this

theorem not_nonsingular_zero : ¬ tw.Nonsingular 0 0 := by
  intro h
  have := (Affine.equation_iff (W := tw) 0 0).1 h.1
  simp only [tw] at this
  exact b_ne (by simpa using this.symm)

theorem word_zero {x : Fq} (h : (BitVec.ofNat 256 x.val : Word) = 0) : x = 0 := by
  have := congrArg BitVec.toNat h
  rw [coord_toNat] at this
  exact (ZMod.val_eq_zero _).1 this

/-- The functions of the contract return the encoding of the point. -/
theorem g2_words (Q : G2) : ∃ w, g2Point (xyOfG2 Q.1) = some w ∧ g2 w.x0 w.x1 w.y0 w.y1 = some Q := by
  obtain ⟨Q, hQ⟩ := Q
  cases Q with
  | zero =>
    refine ⟨⟨0, 0, 0, 0⟩, ?_, ?_⟩
    · unfold g2Point xyOfG2
      simp only [bn_fq2]
      rfl
    · unfold g2
      rw [if_pos ⟨rfl, rfl, rfl, rfl⟩]
      rfl
  | some x y hn =>
    refine ⟨⟨BitVec.ofNat 256 x.im.val, BitVec.ofNat 256 x.re.val, BitVec.ofNat 256 y.im.val, BitVec.ofNat 256 y.re.val⟩, ?_, ?_⟩
    · unfold g2Point xyOfG2
      simp only [bn_fq2, lit_coord]
      rfl
    · unfold g2
      dsimp only
      rw [if_neg]
      · rw [coord_toNat, coord_toNat, coord_toNat, coord_toNat, if_pos ⟨ZMod.val_lt _, ZMod.val_lt _, ZMod.val_lt _, ZMod.val_lt _⟩,
          ZMod.natCast_zmod_val, ZMod.natCast_zmod_val, ZMod.natCast_zmod_val, ZMod.natCast_zmod_val]
        unfold g2Of
        exact dif_pos ⟨hn, hQ⟩
      · rintro ⟨h1, h2, h3, h4⟩
        have hx : x = 0 := QuadraticAlgebra.ext (word_zero h2) (word_zero h1)
        have hy : y = 0 := QuadraticAlgebra.ext (word_zero h4) (word_zero h3)
        subst hx hy
        exact not_nonsingular_zero hn

/-- The twelve words that are passed to contract 8. -/
theorem pairing_input (p : Pairing) (P P' : Word × Word) (Q Q' : G2Point) : pairing p [P, P'] [Q, Q'] =
    (ecPairing p [P.1, P.2, Q.x0, Q.x1, Q.y0, Q.y1, P'.1, P'.2, Q'.x0, Q'.x1, Q'.y0, Q'.y1]).map fun r => decide (r ≠ 0) := by
  have h : (List.range [P, P'].length).foldlM (pairingRow [P, P'] [Q, Q']) (List.replicate ([P, P'].length * 6) (0 : Word)) =
      some [P.1, P.2, Q.x0, Q.x1, Q.y0, Q.y1, P'.1, P'.2, Q'.x0, Q'.x1, Q'.y0, Q'.y1] := rfl
  unfold pairing
  dsimp only
  rw [if_pos (show [P, P'].length = [Q, Q'].length from rfl), h]
  rw [Option.bind_eq_bind, Option.bind_some]
  cases ecPairing p [P.1, P.2, Q.x0, Q.x1, Q.y0, Q.y1, P'.1, P'.2, Q'.x0, Q'.x1, Q'.y0, Q'.y1] <;> rfl

/-- **C95.** For the points `A` and `B` of the parameters, the check succeeds exactly if the words are those of points whose pairings with `A` and `B` cancel. -/
theorem C95_pairing (p : Pairing) (A B : G2) (x0 y0 x1 y1 : Word) : ∃ a b, g2Point (xyOfG2 A.1) = some a ∧ g2Point (xyOfG2 B.1) = some b ∧
    (pairing p [(x0, y0), (x1, y1)] [a, b] = some true ↔ ∃ P Q, g1 x0 y0 = some P ∧ g1 x1 y1 = some Q ∧ p.e P A + p.e Q B = 0) := by
  obtain ⟨a, ha, ha'⟩ := g2_words A
  obtain ⟨b, hb, hb'⟩ := g2_words B
  refine ⟨a, b, ha, hb, ?_⟩
  rw [pairing_input]
  unfold ecPairing
  simp only [decodePairs, ha', hb']
  cases g1 x0 y0 with
  | none => simp
  | some P =>
    cases g1 x1 y1 with
    | none => simp
    | some Q =>
      simp only [Option.bind_eq_bind, Option.bind_some, Option.pure_def, List.map_cons, List.map_nil, List.sum_cons, List.sum_nil, add_zero,
        Option.some.injEq, exists_eq_left']
      split <;> simp_all

/-- **C95.** The check returns false, and does not revert, exactly if the words are those of points whose pairings do not cancel. -/
theorem C95_pairing_false (p : Pairing) (A B : G2) (x0 y0 x1 y1 : Word) : ∃ a b, g2Point (xyOfG2 A.1) = some a ∧ g2Point (xyOfG2 B.1) = some b ∧
    (pairing p [(x0, y0), (x1, y1)] [a, b] = some false ↔ ∃ P Q, g1 x0 y0 = some P ∧ g1 x1 y1 = some Q ∧ p.e P A + p.e Q B ≠ 0) := by
  obtain ⟨a, ha, ha'⟩ := g2_words A
  obtain ⟨b, hb, hb'⟩ := g2_words B
  refine ⟨a, b, ha, hb, ?_⟩
  rw [pairing_input]
  unfold ecPairing
  simp only [decodePairs, ha', hb']
  cases g1 x0 y0 with
  | none => simp
  | some P =>
    cases g1 x1 y1 with
    | none => simp
    | some Q =>
      simp only [Option.bind_eq_bind, Option.bind_some, Option.pure_def, List.map_cons, List.map_nil, List.sum_cons, List.sum_nil, add_zero,
        Option.some.injEq, exists_eq_left']
      split <;> simp_all

end Verif.Sol
