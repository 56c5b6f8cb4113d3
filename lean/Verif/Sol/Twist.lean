import Verif.Sol.Pairing

/-!
# A point of `G2`

The generator of EIP-197 is on the twist and has order `r`: a chain of doublings and additions, checked by the kernel.
-/

namespace Verif.Sol
open Verif.Circuit Verif.Ecc WeierstrassCurve

/-- `P` is the affine point `(x, y)` of the twist. -/
def Aff2 (P : tw.Point) (x y : Fq2) : Prop := ∃ h, P = Affine.Point.some x y h

theorem two_ne2 : (2 : Fq2) ≠ 0 := fun h => two_ne (by
  have := congrArg QuadraticAlgebra.re h
  rwa [show (2 : Fq2) = ((2 : ℕ) : Fq2) from rfl, QuadraticAlgebra.re_natCast] at this)

theorem Aff2.congr {P : tw.Point} {x y x' y' : Fq2} (h : Aff2 P x y) (hx : x = x') (hy : y = y') : Aff2 P x' y' := by
  subst hx hy; exact h

theorem negY_eq2 (x y : Fq2) : tw.negY x y = -y := by simp [Affine.negY, tw]

theorem addX_eq2 (x₁ x₂ l : Fq2) : tw.addX x₁ x₂ l = l ^ 2 - x₁ - x₂ := by simp [Affine.addX, tw]

theorem addY_eq2 (x₁ x₂ y₁ l : Fq2) : tw.addY x₁ x₂ y₁ l = l * (x₁ - (l ^ 2 - x₁ - x₂)) - y₁ := by
  simp only [Affine.addY, Affine.negAddY, negY_eq2, addX_eq2]
  ring

theorem Aff2.add {P Q : tw.Point} {x₁ y₁ x₂ y₂ l : Fq2} (h₁ : Aff2 P x₁ y₁) (h₂ : Aff2 Q x₂ y₂) (hx : x₁ ≠ x₂) (hl : l * (x₁ - x₂) = y₁ - y₂) :
    Aff2 (P + Q) (l ^ 2 - x₁ - x₂) (l * (x₁ - (l ^ 2 - x₁ - x₂)) - y₁) := by
  obtain ⟨h₁, rfl⟩ := h₁
  obtain ⟨h₂, rfl⟩ := h₂
  rw [Affine.Point.add_of_X_ne hx]
  have hs : tw.slope x₁ x₂ y₁ y₂ = l := by
    rw [Affine.slope_of_X_ne hx, ← hl, mul_div_assoc, div_self (sub_ne_zero.2 hx), mul_one]
  refine Aff2.congr ⟨_, rfl⟩ ?_ ?_
  · rw [addX_eq2, hs]
  · rw [addY_eq2, hs]

theorem Aff2.double {P : tw.Point} {x y l : Fq2} (h : Aff2 P x y) (hy : y ≠ 0) (hl : l * (2 * y) = 3 * x ^ 2) :
    Aff2 (P + P) (l ^ 2 - x - x) (l * (x - (l ^ 2 - x - x)) - y) := by
  obtain ⟨h, rfl⟩ := h
  have h2y : 2 * y ≠ 0 := mul_ne_zero two_ne2 hy
  have hne : y ≠ tw.negY x y := by
    rw [negY_eq2]
    intro h
    exact h2y (by linear_combination h)
  rw [Affine.Point.add_self_of_Y_ne hne]
  have hs : tw.slope x x y y = l := by
    rw [Affine.slope_of_Y_ne rfl hne, negY_eq2, div_eq_iff (by rwa [sub_neg_eq_add, ← two_mul])]
    simp only [tw, zero_mul, mul_zero, add_zero, sub_zero]
    linear_combination -hl
  refine Aff2.congr ⟨_, rfl⟩ ?_ ?_
  · rw [addX_eq2, hs]
  · rw [addY_eq2, hs]

theorem Aff2.add_neg {P Q : tw.Point} {x y₁ y₂ : Fq2} (h₁ : Aff2 P x y₁) (h₂ : Aff2 Q x y₂) (hy : y₁ = -y₂) : P + Q = 0 := by
  obtain ⟨h₁, rfl⟩ := h₁
  obtain ⟨h₂, rfl⟩ := h₂
  exact Affine.Point.add_of_Y_eq rfl (by rw [negY_eq2, hy])

/-! ### Numbers -/

namespace Twist

/-- Real and imaginary part, as numbers. -/
abbrev Z := ℕ × ℕ

def of (z : Z) : Fq2 := ⟨z.1, z.2⟩

def mul (a b : Z) : Z := ((a.1 * b.1 + (fqMod - 1) * (a.2 * b.2)) % fqMod, (a.1 * b.2 + a.2 * b.1) % fqMod)

def sub (a b : Z) : Z := ((a.1 + (fqMod - 1) * b.1) % fqMod, (a.2 + (fqMod - 1) * b.2) % fqMod)

def dbl (a : Z) : Z := (2 * a.1 % fqMod, 2 * a.2 % fqMod)

def tri (a : Z) : Z := (3 * a.1 % fqMod, 3 * a.2 % fqMod)

def inv (a : Z) : Z :=
  let n := powMod fqMod 256 ((a.1 * a.1 + a.2 * a.2) % fqMod) (fqMod - 2)
  (a.1 * n % fqMod, (fqMod - 1) * (a.2 * n) % fqMod)

theorem of_mul (a b : Z) : of (mul a b) = of a * of b := by
  ext
  · simp only [of, mul, QuadraticAlgebra.re_mul, ZMod.natCast_mod, Nat.cast_add, Nat.cast_mul, cast_neg_one]
    ring
  · simp only [of, mul, QuadraticAlgebra.im_mul, ZMod.natCast_mod, Nat.cast_add, Nat.cast_mul]
    ring

theorem of_sub (a b : Z) : of (sub a b) = of a - of b := by
  ext
  · simp only [of, sub, QuadraticAlgebra.re_sub, ZMod.natCast_mod, Nat.cast_add, Nat.cast_mul, cast_neg_one]
    ring
  · simp only [of, sub, QuadraticAlgebra.im_sub, ZMod.natCast_mod, Nat.cast_add, Nat.cast_mul, cast_neg_one]
    ring

theorem of_dbl (a : Z) : of (dbl a) = 2 * of a := by
  rw [two_mul]
  ext
  · simp only [of, dbl, QuadraticAlgebra.re_add, ZMod.natCast_mod, Nat.cast_mul]
    push_cast
    ring
  · simp only [of, dbl, QuadraticAlgebra.im_add, ZMod.natCast_mod, Nat.cast_mul]
    push_cast
    ring

theorem of_tri (a : Z) : of (tri a) = 3 * of a := by
  rw [show (3 : Fq2) * of a = of a + of a + of a by ring]
  ext
  · simp only [of, tri, QuadraticAlgebra.re_add, ZMod.natCast_mod, Nat.cast_mul]
    push_cast
    ring
  · simp only [of, tri, QuadraticAlgebra.im_add, ZMod.natCast_mod, Nat.cast_mul]
    push_cast
    ring

/-- Different numbers below the modulus. -/
def ne (a b : Z) : Bool := (a.1 != b.1 || a.2 != b.2) && decide (a.1 < fqMod) && decide (a.2 < fqMod) && decide (b.1 < fqMod) && decide (b.2 < fqMod)

theorem cast_inj {a b : ℕ} (ha : a < fqMod) (hb : b < fqMod) (h : (a : Fq) = (b : Fq)) : a = b := by
  rwa [ZMod.natCast_eq_natCast_iff, Nat.ModEq, Nat.mod_eq_of_lt ha, Nat.mod_eq_of_lt hb] at h

theorem of_ne {a b : Z} (h : ne a b = true) : of a ≠ of b := by
  unfold ne at h
  simp only [Bool.and_eq_true, Bool.or_eq_true, bne_iff_ne, decide_eq_true_eq] at h
  obtain ⟨⟨⟨⟨h, h1⟩, h2⟩, h3⟩, h4⟩ := h
  intro e
  have e1 := cast_inj h1 h3 (congrArg QuadraticAlgebra.re e)
  have e2 := cast_inj h2 h4 (congrArg QuadraticAlgebra.im e)
  exact h.elim (fun h => h e1) fun h => h e2

def gx : Z := (10857046999023057135944570762232829481370756359578518086990519993285655852781,
  11559732032986387107991004021392285783925812861821192530917403151452391805634)

def gy : Z := (8495653923123431417604973247489272438418190587263600148770280649306958101930,
  4082367875863433681332203403145435568316851327593401208105741076214120093531)

theorem on_curve : mul (9, 1) (sub (mul gy gy) (mul gx (mul gx gx))) = (3, 0) := by decide +kernel

theorem nonsingular : tw.Nonsingular (of gx) (of gy) := by
  have h := congrArg of on_curve
  rw [of_mul, of_sub, of_mul, of_mul, of_mul] at h
  have h3 : of (3, 0) = 3 := by
    ext
    · rw [show (3 : Fq2) = ((3 : ℕ) : Fq2) from rfl, QuadraticAlgebra.re_natCast]
      rfl
    · rw [show (3 : Fq2) = ((3 : ℕ) : Fq2) from rfl, QuadraticAlgebra.im_natCast]
      exact Nat.cast_zero
  have h9 : of (9, 1) = (⟨9, 1⟩ : Fq2) := by
    ext
    · exact Nat.cast_ofNat
    · exact Nat.cast_one
  have hz : (⟨9, 1⟩ : Fq2) ≠ 0 := fun h => by
    have := congrArg QuadraticAlgebra.im h
    simp at this
  rw [h3, h9] at h
  have hy : of gy ≠ 0 := by
    have := of_ne (a := gy) (b := (0, 0)) (by decide +kernel)
    rwa [show of (0, 0) = 0 by ext <;> exact Nat.cast_zero] at this
  rw [Affine.nonsingular_iff, Affine.equation_iff]
  simp only [tw]
  refine ⟨?_, .inr ?_⟩
  · have : of gy * of gy - of gx * (of gx * of gx) = 3 / ⟨9, 1⟩ := by
      rw [eq_div_iff hz, mul_comm]
      exact h
    linear_combination this
  · intro h
    exact mul_ne_zero two_ne2 hy (by linear_combination h)

noncomputable def gen2 : tw.Point := .some _ _ nonsingular

/-! ### The order -/

structure St where
  k : ℕ
  x : Z
  y : Z

/-- Tangent. -/
def stepD (s : St) : Option St :=
  let l := mul (tri (mul s.x s.x)) (inv (dbl s.y))
  if ne s.y (0, 0) ∧ mul l (dbl s.y) = tri (mul s.x s.x) then
    let x := sub (mul l l) (dbl s.x)
    some ⟨2 * s.k, x, sub (mul l (sub s.x x)) s.y⟩
  else none

/-- Chord with the generator. -/
def stepA (s : St) : Option St :=
  let m := mul (sub s.y gy) (inv (sub s.x gx))
  if ne s.x gx ∧ mul m (sub s.x gx) = sub s.y gy then
    let x := sub (sub (mul m m) s.x) gx
    some ⟨s.k + 1, x, sub (mul m (sub s.x x)) s.y⟩
  else none

def chain : List Bool → St → Option St
  | [], s => some s
  | b :: bs, s => match stepD s with
    | none => none
    | some s => if b then (match stepA s with
      | none => none
      | some s => chain bs s) else chain bs s

def At (s : St) : Prop := Aff2 (s.k • gen2) (of s.x) (of s.y)

theorem stepD_sound {s s' : St} (hs : At s) (h : stepD s = some s') : At s' := by
  unfold stepD at h
  dsimp only at h
  split at h
  · next hc =>
    obtain ⟨h1, h2⟩ := hc
    generalize mul (tri (mul s.x s.x)) (inv (dbl s.y)) = l at h h2
    have e := congrArg of h2
    rw [of_mul, of_dbl, of_tri, of_mul] at e
    have hy : of s.y ≠ 0 := by
      have := of_ne h1
      rwa [show of (0, 0) = 0 by ext <;> exact Nat.cast_zero] at this
    have hd := Aff2.double hs hy (l := of l) (by rw [e]; ring)
    rw [← two_nsmul, ← mul_nsmul'] at hd
    cases h
    refine hd.congr ?_ ?_
    · rw [of_sub, of_mul, of_dbl]
      ring
    · rw [of_sub, of_mul, of_sub, of_sub, of_mul, of_dbl]
      ring
  · cases h

theorem stepA_sound {s s' : St} (hs : At s) (h : stepA s = some s') : At s' := by
  unfold stepA at h
  dsimp only at h
  split at h
  · next hc =>
    obtain ⟨h1, h2⟩ := hc
    generalize mul (sub s.y gy) (inv (sub s.x gx)) = m at h h2
    have e := congrArg of h2
    rw [of_mul, of_sub, of_sub] at e
    have ha := Aff2.add hs (⟨nonsingular, rfl⟩ : Aff2 gen2 _ _) (of_ne h1) e
    rw [← succ_nsmul] at ha
    cases h
    refine ha.congr ?_ ?_
    · rw [of_sub, of_sub, of_mul]
      ring
    · rw [of_sub, of_mul, of_sub, of_sub, of_sub, of_mul]
      ring
  · cases h

theorem chain_sound : ∀ {bs : List Bool} {s s' : St}, At s → chain bs s = some s' → At s'
  | [], s, s', hs, h => by cases h; exact hs
  | b :: bs, s, s', hs, h => by
    unfold chain at h
    cases h1 : stepD s with
    | none => rw [h1] at h; cases h
    | some s1 =>
      rw [h1] at h
      dsimp only at h
      have a1 := stepD_sound hs h1
      split at h
      · cases h2 : stepA s1 with
        | none => rw [h2] at h; cases h
        | some s2 =>
          rw [h2] at h
          exact chain_sound (stepA_sound a1 h2) h
      · exact chain_sound a1 h

/-- The binary digits of `n` after the first one. -/
def digits (n : ℕ) : List Bool := ((List.range n.log2).reverse).map fun i => n.testBit i

def isEnd (s : Option St) : Bool := s.any fun s => s.k == frMod - 1 && s.x == gx && s.y == sub (0, 0) gy

theorem ends : isEnd (chain (digits (frMod - 1)) ⟨1, gx, gy⟩) = true := by decide +kernel

/-- The generator of EIP-197 is in `G2`. -/
theorem gen2_mem : gen2 ∈ G2 := by
  have h := ends
  unfold isEnd at h
  cases hc : chain (digits (frMod - 1)) ⟨1, gx, gy⟩ with
  | none => rw [hc] at h; cases h
  | some s =>
    rw [hc] at h
    simp only [Option.any_some, Bool.and_eq_true, beq_iff_eq] at h
    obtain ⟨⟨h1, h2⟩, h3⟩ := h
    have h0 : At ⟨1, gx, gy⟩ := by
      show Aff2 (1 • gen2) _ _
      rw [one_nsmul]
      exact ⟨nonsingular, rfl⟩
    have ha := chain_sound h0 hc
    unfold At at ha
    rw [h1, h2, h3] at ha
    have h4 : (frMod - 1) • gen2 + gen2 = 0 := by
      refine Aff2.add_neg ha ⟨nonsingular, rfl⟩ ?_
      rw [of_sub, show of (0, 0) = 0 by ext <;> exact Nat.cast_zero, zero_sub]
    rw [← succ_nsmul] at h4
    exact h4

theorem gen2_ne : (⟨gen2, gen2_mem⟩ : G2) ≠ 0 := fun h => Affine.Point.some_ne_zero nonsingular (congrArg Subtype.val h)

end Twist

end Verif.Sol
