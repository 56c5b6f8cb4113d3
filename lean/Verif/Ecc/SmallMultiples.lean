import Verif.Ecc.CompleteProps

/-!
# Small multiples of the generator
-/

namespace Verif.Circuit
open Verif.Ecc

namespace Small

def inverse (a : ℕ) : ℕ := powMod fqMod 256 a (fqMod - 2)

/-- The slopes with which `chainStep` doubles a point and, for an odd multiple, adds the generator. -/
def slopes (p : ℕ × ℕ × ℕ) (odd : Bool) : Bool × ℕ × ℕ :=
  let x := p.2.1
  let y := p.2.2
  let l := 3 * (x * x) % fqMod * inverse (2 * y % fqMod) % fqMod
  let x' := (l * l + (fqMod - 1) * (2 * x)) % fqMod
  let y' := (l * (x + (fqMod - 1) * x') + (fqMod - 1) * y) % fqMod
  (odd, l, (y' + (fqMod - 1) * 2) % fqMod * inverse ((x' + (fqMod - 1)) % fqMod) % fqMod)

def chain : ℕ → ℕ → List (Bool × ℕ × ℕ)
  | 0, _ => []
  | f + 1, k =>
    if k ≤ 1 then [] else
      match runChain (chain f (k / 2)) (1, 1, 2) with
      | none => []
      | some p => chain f (k / 2) ++ [slopes p (k % 2 = 1)]

def coords (k : ℕ) : ℕ × ℕ :=
  match runChain (chain 7 k) (1, 1, 2) with
  | none => (0, 0)
  | some p => p.2

/-- As in `slopeTable`. -/
def entry (k : ℕ) : ℕ × List (Bool × ℕ × ℕ) × ℕ :=
  (k, chain 7 k, 3 * ((coords k).1 * (coords k).1) % fqMod * inverse (2 * (coords k).2 % fqMod) % fqMod)

theorem entries_ok : ((List.range 64).map (· + 1)).all (fun k => slopeCheck (entry k)) = true := by decide +kernel

theorem entry_ok {k : ℕ} (h1 : 1 ≤ k) (h2 : k ≤ 64) : slopeCheck (entry k) = true :=
  List.all_eq_true.1 entries_ok k (List.mem_map.2 ⟨k - 1, List.mem_range.2 (by omega), by omega⟩)

/-- The slope of the tangent can be computed. -/
theorem safe {k : ℕ} (h : k ≤ 64) : Safe (k • gen) := by
  rcases Nat.eq_zero_or_pos k with rfl | h1
  · rw [zero_nsmul]
    exact safe_zero
  · obtain ⟨_, _, _, _, _, _, hs⟩ := slopeCheck_sound (entry_ok h1 h)
    exact hs

/-- The coordinates. -/
theorem coords_eq {k : ℕ} (h1 : 1 ≤ k) (h2 : k ≤ 64) : (coordX (k • gen)).val = (coords k).1 ∧ (coordY (k • gen)).val = (coords k).2 := by
  obtain ⟨x, y, hr, hx, hy, ha, -⟩ := slopeCheck_sound (entry_ok h1 h2)
  obtain ⟨cx, cy⟩ := aff_unique ha
  have hc : coords k = (x, y) := by
    unfold coords
    change runChain (chain 7 k) (1, 1, 2) = some (k, x, y) at hr
    rw [hr]
  change ((x : ℕ) : W) = coordX (k • gen) at cx
  change ((y : ℕ) : W) = coordY (k • gen) at cy
  rw [hc, ← cx, ← cy, ZMod.val_natCast, ZMod.val_natCast, Nat.mod_eq_of_lt hx, Nat.mod_eq_of_lt hy]
  exact ⟨rfl, rfl⟩

/-- A multiplication. -/
theorem mulSafe {a n : ℕ} (h1 : 15 * a ≤ 64) (h2 : n * a ≤ 64) : MulSafe (a • gen) n := by
  refine ⟨fun k _ hk => ?_, fun j hj i hi => ?_⟩
  · rw [← mul_nsmul']
    exact safe ((Nat.mul_le_mul_right a hk).trans h1)
  · rw [← mul_nsmul']
    refine safe ((Nat.mul_le_mul_right a ?_).trans h2)
    calc 2 ^ i * (n / 16 ^ j) ≤ 16 ^ j * (n / 16 ^ j) := Nat.mul_le_mul_right _ ((Nat.pow_le_pow_right (by norm_num) (by omega : i ≤ 4)).trans
          (by simpa using Nat.pow_le_pow_right (show 0 < 16 by norm_num) hj))
      _ ≤ n := Nat.mul_div_le _ _

/-- The sum of the multiples. -/
def total : List ℕ → List ℕ → ℕ
  | a :: as, n :: ns => n * a + total as ns
  | _, _ => 0

theorem mulSum_total : ∀ as ns : List ℕ, mulSum (as.map (· • gen)) ns = total as ns • gen
  | [], ns => by cases ns <;> simp [mulSum, total]
  | a :: as, [] => by simp [mulSum, total]
  | a :: as, n :: ns => by
    have := mulSum_total as ns
    unfold mulSum at this ⊢
    rw [List.map_cons, List.zipWith_cons_cons, List.sum_cons, this, total, add_nsmul, ← mul_nsmul']

theorem total_mono {f : ℕ → ℕ} (hf : ∀ n, f n ≤ n) : ∀ as ns : List ℕ, total as (ns.map f) ≤ total as ns
  | [], ns => by cases ns <;> simp [total]
  | a :: as, [] => by simp [total]
  | a :: as, n :: ns => Nat.add_le_add (Nat.mul_le_mul_right a (hf n)) (total_mono hf as ns)

theorem total_mul (k : ℕ) (f : ℕ → ℕ) : ∀ as ns : List ℕ, k * total as (ns.map f) = total as (ns.map fun n => k * f n)
  | [], ns => by cases ns <;> simp [total]
  | a :: as, [] => by simp [total]
  | a :: as, n :: ns => by
    rw [List.map_cons, List.map_cons, total, total, mul_add, total_mul k f as ns, mul_assoc]

theorem total_add (f g : ℕ → ℕ) : ∀ as ns : List ℕ, total as (ns.map f) + total as (ns.map g) = total as (ns.map fun n => f n + g n)
  | [], ns => by cases ns <;> simp [total]
  | a :: as, [] => by simp [total]
  | a :: as, n :: ns => by
    rw [List.map_cons, List.map_cons, List.map_cons, total, total, total, ← total_add f g as ns, add_mul]
    omega

theorem noCancel : ∀ (as ns : List ℕ) (j b : ℕ), b + total as (ns.map (hexDigit j)) < frMod →
    NoCancel (b • gen) (List.zipWith (fun (P : Pt) (n : ℕ) => hexDigit j n • P) (as.map (· • gen)) ns)
  | [], ns, j, b, _ => by cases ns <;> trivial
  | a :: as, [], j, b, _ => trivial
  | a :: as, n :: ns, j, b, h => by
    rw [List.map_cons, total] at h
    rw [List.map_cons, List.zipWith_cons_cons, NoCancel, ← mul_nsmul']
    refine ⟨gen_cancel (by omega), ?_⟩
    rw [← add_nsmul]
    exact noCancel as ns j _ (by omega)

/-- A multi-exponentiation. -/
theorem shamirSafe {as ns : List ℕ} (h1 : ∀ a ∈ as, 15 * a ≤ 64) (h2 : total as ns ≤ 64) : ShamirSafe (as.map (· • gen)) ns := by
  have hf : 64 < frMod := by decide +kernel
  have hd : ∀ j n, hexDigit j n ≤ n := fun j n => (Nat.mod_le _ _).trans (Nat.div_le_self _ _)
  refine ⟨?_, fun j _ => ?_, fun j hj _ i hi => ?_, fun j _ => ?_, fun j _ => ?_⟩
  · intro P hP k _ hk
    obtain ⟨a, ha, rfl⟩ := List.mem_map.1 hP
    rw [← mul_nsmul']
    exact safe ((Nat.mul_le_mul_right a hk).trans (h1 a ha))
  · rw [mulSum_total]
    exact safe ((total_mono (hd j) as ns).trans h2)
  · rw [mulSum_total, ← mul_nsmul', total_mul]
    refine safe ((total_mono (f := fun n => 2 ^ i * (n / 16 ^ j)) (fun n => ?_) as ns).trans h2)
    calc 2 ^ i * (n / 16 ^ j) ≤ 16 ^ j * (n / 16 ^ j) := Nat.mul_le_mul_right _ ((Nat.pow_le_pow_right (by norm_num) (by omega : i ≤ 4)).trans
          (by simpa using Nat.pow_le_pow_right (show 0 < 16 by norm_num) hj))
      _ ≤ n := Nat.mul_div_le _ _
  · have := noCancel as ns j 0 (by have := (total_mono (hd j) as ns).trans h2; omega)
    rwa [zero_nsmul] at this
  · rw [mulSum_total, mulSum_total, ← mul_nsmul']
    refine gen_cancel ?_
    rw [total_mul, total_add]
    refine lt_of_le_of_lt ((total_mono (f := fun n => hexDigit j n + 2 ^ 4 * (n / 16 ^ (j + 1))) (fun n => ?_) as ns).trans h2) hf
    unfold hexDigit
    have e1 : n / 16 ^ (j + 1) = n / 16 ^ j / 16 := by rw [pow_succ, Nat.div_div_eq_div_mul]
    rw [e1]
    have := Nat.div_le_self n (16 ^ j)
    omega

end Small
end Verif.Circuit
