import Verif.Ecc.Noncanonical
import Verif.Sol.EvmProps

/-!
# The public form of the final pair

Three places turn the two points of the final pair into four instance words:
`Halo2VerifierCircuits::synthesize` (`verify_circuit.rs:245-365`, in the circuit), `final_pair_to_instances`
(`verify_circuit.rs:768-804`) and `verify` of the contract (`verifier.sol:356-366`).
-/

namespace Verif.Top
open Verif.Circuit Verif.Ecc Verif.Sol

/-- The two sums for one point: verify_circuit.rs:284-312 and 314-342. -/
def exposePoint (x : AInt) (bit : AV N) : M N (AV N × AV N) := do
  let low ← sumWithConstant [(x.limbs 0, limbExp 0), (x.limbs 1, limbExp 1)] 0
  let high ← sumWithConstant [(x.limbs 2, limbExp 0), (x.limbs 3, limbExp 1), (bit, limbExp 2)] 0
  return (low, high)

/-- The second region of `synthesize`: verify_circuit.rs:265-351. Returns the cells that are constrained to the instance rows 0-3. -/
def exposePair (p q : APt) : M N (List (AV N)) := do
  let x0 ← reduce p.x
  let y0 ← reduce p.y
  let x1 ← reduce q.x
  let y1 ← reduce q.y
  assertM (fqMod % 2 = 1)
  let b0 ← getLastBit y0
  let b1 ← getLastBit y1
  let (l0, h0) ← exposePoint x0 b0
  let (l1, h1) ← exposePoint x1 b1
  return [l0, h0, l1, h1]

/-- `final_pair_to_instances`: verify_circuit.rs:768-804. `none`: `coordinates().unwrap()` panics for the identity. -/
noncomputable def pairToInstances (P Q : Pt) (rest : List N) : Option (List N) := open Classical in
  if P = 0 ∨ Q = 0 then none else
    let wxx := bnToLimbsN (coordX P).val
    let wxy := bnToLimbsN (coordY P).val
    let wgx := bnToLimbsN (coordX Q).val
    let wgy := bnToLimbsN (coordY Q).val
    let last := fun n : N => if n.val % 2 = 1 then limbExp 2 else 0
    some ([wxx 0 * limbExp 0 + wxx 1 * limbExp 1, wxx 2 * limbExp 0 + wxx 3 * limbExp 1 + last (wxy 0),
      wgx 0 * limbExp 0 + wgx 1 * limbExp 1, wgx 2 * limbExp 0 + wgx 3 * limbExp 1 + last (wgy 0)] ++ rest)

/-- One point of `target_circuit_final_pair` in `verify`: verifier.sol:361-362 and 363-364. -/
def contractPoint (x y : Word) : Word × Word :=
  (x &&& ((1#256 <<< 136) - 1#256), (x >>> 136) + ((y &&& 1#256) <<< 136))

/-- `instances` in `verify`: verifier.sol:360-367 and lib.rs:270-283. `none`: the array of the caller is too short. -/
def contractInstances (size : ℕ) (fp : List Word) : Option (List Word) :=
  if fp.length < max 4 size then none else
    match fp with
    | x0 :: y0 :: x1 :: y1 :: rest =>
      some ([(contractPoint x0 y0).1, (contractPoint x0 y0).2, (contractPoint x1 y1).1, (contractPoint x1 y1).2] ++ rest.take (size - 4))
    | _ => none

/-! ### What the rows say -/

/-- The packing of a point with the coordinates `x` and `y`: 136 bits of `x`, then the rest of `x` and the parity of `y`. -/
def pack (x y : ℕ) : ℕ × ℕ := (x % 2 ^ 136, x / 2 ^ 136 + 2 ^ 136 * (y % 2))

theorem pack_injective {x y x' y' : ℕ} (hx : x < 2 ^ 272) (hx' : x' < 2 ^ 272) (h : pack x y = pack x' y') : x = x' ∧ y % 2 = y' % 2 := by
  simp only [pack, Prod.mk.injEq] at h
  omega

theorem pack_lt {x y : ℕ} (hx : x < 2 ^ 254) : (pack x y).1 < frMod ∧ (pack x y).2 < frMod := by
  have : (2 : ℕ) ^ 253 < frMod := frMod_gt
  simp only [pack]
  omega

theorem limbExp_eq (i : ℕ) : limbExp i = ((2 ^ (68 * i) : ℕ) : N) := by
  unfold limbExp
  rw [bnToN_eq (by rw [limbMod_eq]; exact Nat.pow_lt_pow_right (by norm_num) (by norm_num)), limbMod_eq, ← Nat.cast_pow, ← pow_mul]

theorem cast_inj_of_lt {a b : ℕ} (ha : a < frMod) (hb : b < frMod) (h : (a : N) = (b : N)) : a = b := by
  rw [← ZMod.val_cast_of_lt ha, h, ZMod.val_cast_of_lt hb]

theorem Spec.exposePoint (x : AInt) (bit : AV N) : Spec tables (exposePoint x bit) fun adv r =>
    ∀ y : ℕ, Bd 1 adv x.limbs → bit.val adv = ((y % 2 : ℕ) : N) →
      r.1.val adv = ((pack (limbsVal adv x.limbs) y).1 : N) ∧ r.2.val adv = ((pack (limbsVal adv x.limbs) y).2 : N) := by
  unfold Top.exposePoint
  refine ((Spec.sumWithConstant _ _).bind fun low => (Spec.sumWithConstant _ _).bind fun high => Spec.pure _).mono ?_
  rintro adv r ⟨low, hl, high, hh, rfl⟩ y hb hy
  simp only [wsum_cons, wsum_nil, limbExp_eq, hy] at hl hh
  have h0 := hb.b0
  have h1 := hb.b1
  have h2 := hb.b2
  have h3 := hb.b3
  have e0 : (pack (limbsVal adv x.limbs) y).1 = lv adv (x.limbs 0) + 2 ^ 68 * lv adv (x.limbs 1) := by
    simp only [pack, limbsVal]
    omega
  have e1 : (pack (limbsVal adv x.limbs) y).2 = lv adv (x.limbs 2) + 2 ^ 68 * lv adv (x.limbs 3) + 2 ^ 136 * (y % 2) := by
    simp only [pack, limbsVal]
    omega
  constructor
  · rw [hl, e0]
    push_cast
    rw [cast_lv, cast_lv]
    ring
  · rw [hh, e1]
    push_cast
    rw [cast_lv, cast_lv]
    ring

theorem limbsVal_lt {adv : Advice N} {l : Fin 4 → AV N} (h : Bd 1 adv l) : limbsVal adv l < 2 ^ 254 := by
  have h0 := h.b0
  have h1 := h.b1
  have h2 := h.b2
  have h3 := h.b3
  simp only [limbsVal]
  omega

theorem Spec.reduce_bd (a : AInt) : Spec tables (reduce a) fun adv r => ∀ v, IntOk adv a v → residue adv r = v ∧ Bd 1 adv r.limbs :=
  (Spec.reduce a).mono fun adv r hr v ok => by
    obtain ⟨hr1, hr2⟩ := hr _ (by norm_num) ok.bd64 ok.1.native
    have := ok.reduced hr1 (hr2.imp (fun h => ⟨h.1, by rw [h.2], by rw [h.2]; exact h.1⟩) id)
    exact ⟨this.1.2.2, this.2⟩

/-- Four rows pack two points: with numbers that stand for the coordinates of the points. -/
def Exposes (rows : List N) (P Q : Pt) : Prop := ∃ x y x' y' : ℕ, x < 2 ^ 254 ∧ y < 2 ^ 254 ∧ x' < 2 ^ 254 ∧ y' < 2 ^ 254 ∧
  Aff P (x : Fq) (y : Fq) ∧ Aff Q (x' : Fq) (y' : Fq) ∧
  rows = [((pack x y).1 : N), ((pack x y).2 : N), ((pack x' y').1 : N), ((pack x' y').2 : N)]

theorem Spec.exposePair (p q : APt) : Spec tables (exposePair p q) fun adv r => r.length = 4 ∧
    ∀ P Q, P ≠ 0 → Q ≠ 0 → StandsFor adv p P → StandsFor adv q Q → Exposes (r.map fun c => c.val adv) P Q := by
  unfold Top.exposePair
  refine ((Spec.reduce_bd _).bind fun x0 => (Spec.reduce_bd _).bind fun y0 => (Spec.reduce_bd _).bind fun x1 =>
    (Spec.reduce_bd _).bind fun y1 => (Spec.assertM _).bind fun _ => (Spec.getLastBit _).bind fun b0 => (Spec.getLastBit _).bind fun b1 =>
    (Spec.exposePoint _ _).bind fun r0 => (Spec.exposePoint _ _).bind fun r1 => Spec.pure _).mono ?_
  rintro adv r ⟨x0, hx0, y0, hy0, x1, hx1, y1, hy1, _, -, b0, hb0, b1, hb1, ⟨l0, h0⟩, hr0, ⟨l1, h1⟩, hr1, rfl⟩
  refine ⟨rfl, fun P Q hP hQ sP sQ => ?_⟩
  obtain ⟨ex0, bx0⟩ := hx0 _ ⟨sP.x.1, sP.x.2, rfl⟩
  obtain ⟨ey0, by0⟩ := hy0 _ ⟨sP.y.1, sP.y.2, rfl⟩
  obtain ⟨ex1, bx1⟩ := hx1 _ ⟨sQ.x.1, sQ.x.2, rfl⟩
  obtain ⟨ey1, by1⟩ := hy1 _ ⟨sQ.y.1, sQ.y.2, rfl⟩
  obtain ⟨e1, e2⟩ := hr0 _ bx0 hb0
  obtain ⟨e3, e4⟩ := hr1 _ bx1 hb1
  refine ⟨_, _, _, _, limbsVal_lt bx0, limbsVal_lt by0, limbsVal_lt bx1, limbsVal_lt by1,
    (sP.affine hP).2.congr ex0.symm ey0.symm, (sQ.affine hQ).2.congr ex1.symm ey1.symm, ?_⟩
  simp only [List.map_cons, List.map_nil, e1, e2, e3, e4]

end Verif.Top
