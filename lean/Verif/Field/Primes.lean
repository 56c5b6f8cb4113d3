import Mathlib.NumberTheory.LucasPrimality
import Mathlib.Tactic.NormNum.Prime
import Mathlib.Algebra.BigOperators.Associated

/-!
# BN254 moduli and their primality

`frMod` is the BN254 scalar field modulus (the native field `N` of the aggregation circuit, `q_mod` in
`halo2-snark-aggregator-solidity/templates/verifier.sol`), `fqMod` the base field modulus (the simulated
field `W`, `p_mod` in the same template).  Primality is proved by Pratt/Lucas certificates that the
kernel checks; no axioms beyond the standard ones.
-/

namespace Verif

/-- Modular exponentiation by repeated squaring with explicit fuel (helper for the certificates). -/
def powMod (p : ℕ) : ℕ → ℕ → ℕ → ℕ
  | 0, _, _ => 1 % p
  | f + 1, a, e =>
    if e = 0 then 1 % p
    else
      let h := powMod p f (a * a % p) (e / 2)
      if e % 2 = 1 then h * a % p else h

theorem powMod_eq (p : ℕ) : ∀ f a e, e < 2 ^ f → powMod p f a e = a ^ e % p
  | 0, a, e, h => by
    have : e = 0 := by simpa using h
    subst this; simp [powMod]
  | f + 1, a, e, h => by
    unfold powMod
    split
    · next h0 => subst h0; simp
    · have ih := powMod_eq p f (a * a % p) (e / 2) (by rw [pow_succ] at h; omega)
      have hsq : (a * a % p) ^ (e / 2) % p = a ^ (2 * (e / 2)) % p := by
        rw [← Nat.pow_mod, pow_mul, pow_two]
      dsimp only
      split
      · next h1 =>
        rw [ih, hsq]
        conv_rhs => rw [← Nat.div_add_mod e 2, h1, pow_succ]
        rw [Nat.mod_mul_mod]
      · next h1 =>
        rw [ih, hsq]
        have : 2 * (e / 2) = e := by omega
        rw [this]

/-- Boolean check of a Lucas certificate: `fs` is the prime factorisation of `p - 1` with multiplicity. -/
def lucasCheck (p a : ℕ) (fs : List ℕ) : Bool :=
  decide (2 < p) && decide (fs.prod = p - 1) && decide (p - 1 < 2 ^ 256) &&
    decide (powMod p 256 a (p - 1) = 1) &&
    fs.all fun q => decide (powMod p 256 a ((p - 1) / q) ≠ 1)

theorem pratt (p a : ℕ) (fs : List ℕ) (hfs : ∀ q ∈ fs, Nat.Prime q)
    (h : lucasCheck p a fs = true) : Nat.Prime p := by
  simp only [lucasCheck, Bool.and_eq_true, decide_eq_true_eq, List.all_eq_true] at h
  obtain ⟨⟨⟨⟨hp, hprod⟩, hlt⟩, h1⟩, hq⟩ := h
  have hcast : ∀ e, e < 2 ^ 256 → (((a : ZMod p) ^ e = 1) ↔ powMod p 256 a e = 1) := by
    intro e he
    rw [powMod_eq p 256 a e he]
    have : ((a : ZMod p) ^ e) = ((a ^ e : ℕ) : ZMod p) := by push_cast; rfl
    rw [this]
    have h1' : (1 : ZMod p) = ((1 : ℕ) : ZMod p) := by simp
    rw [h1', ZMod.natCast_eq_natCast_iff, Nat.ModEq]
    rw [Nat.mod_eq_of_lt (show 1 < p by omega)]
  apply lucas_primality p (a : ZMod p)
  · exact (hcast _ hlt).2 h1
  · intro q hqp hdvd hcontra
    rw [← hprod] at hdvd
    obtain ⟨x, hx, hqx⟩ := (Prime.dvd_prod_iff hqp.prime).1 hdvd
    have : q = x := (Nat.prime_dvd_prime_iff_eq hqp (hfs x hx)).1 hqx
    subst this
    exact hq q hx ((hcast _ (lt_of_le_of_lt (Nat.div_le_self _ _) hlt)).1 hcontra)

theorem prime_2 : Nat.Prime 2 := by norm_num
theorem prime_3 : Nat.Prime 3 := by norm_num
theorem prime_5 : Nat.Prime 5 := by norm_num
theorem prime_19 : Nat.Prime 19 := by norm_num
theorem prime_223 : Nat.Prime 223 := by norm_num
theorem prime_47 : Nat.Prime 47 := by norm_num
theorem prime_20963 :
    Nat.Prime 20963 := by
  refine pratt _ 2 [2, 47, 223] ?_ (by decide +kernel)
  simp only [List.forall_mem_cons]
  exact ⟨prime_2, prime_47, prime_223, by simp⟩

theorem prime_41927 :
    Nat.Prime 41927 := by
  refine pratt _ 5 [2, 20963] ?_ (by decide +kernel)
  simp only [List.forall_mem_cons]
  exact ⟨prime_2, prime_20963, by simp⟩

theorem prime_1593227 :
    Nat.Prime 1593227 := by
  refine pratt _ 2 [2, 19, 41927] ?_ (by decide +kernel)
  simp only [List.forall_mem_cons]
  exact ⟨prime_2, prime_19, prime_41927, by simp⟩

theorem prime_1637 : Nat.Prime 1637 := by norm_num
theorem prime_853 : Nat.Prime 853 := by norm_num
theorem prime_229 : Nat.Prime 229 := by norm_num
theorem prime_639533339 :
    Nat.Prime 639533339 := by
  refine pratt _ 2 [2, 229, 853, 1637] ?_ (by decide +kernel)
  simp only [List.forall_mem_cons]
  exact ⟨prime_2, prime_229, prime_853, prime_1637, by simp⟩

theorem prime_83 : Nat.Prime 83 := by norm_num
theorem prime_379 : Nat.Prime 379 := by norm_num
theorem prime_65865678001877903 :
    Nat.Prime 65865678001877903 := by
  refine pratt _ 5 [2, 83, 379, 1637, 639533339] ?_ (by decide +kernel)
  simp only [List.forall_mem_cons]
  exact ⟨prime_2, prime_83, prime_379, prime_1637, prime_639533339, by simp⟩

theorem prime_823 : Nat.Prime 823 := by norm_num
theorem prime_13818364434197438864469338081 :
    Nat.Prime 13818364434197438864469338081 := by
  refine pratt _ 3 [2, 2, 2, 2, 2, 5, 823, 1593227, 65865678001877903] ?_ (by decide +kernel)
  simp only [List.forall_mem_cons]
  exact ⟨prime_2, prime_2, prime_2, prime_2, prime_2, prime_5, prime_823, prime_1593227, prime_65865678001877903, by simp⟩

theorem prime_13 : Nat.Prime 13 := by norm_num
theorem prime_11 : Nat.Prime 11 := by norm_num
theorem prime_449 : Nat.Prime 449 := by norm_num
theorem prime_237073 :
    Nat.Prime 237073 := by
  refine pratt _ 15 [2, 2, 2, 2, 3, 11, 449] ?_ (by decide +kernel)
  simp only [List.forall_mem_cons]
  exact ⟨prime_2, prime_2, prime_2, prime_2, prime_3, prime_11, prime_449, by simp⟩

theorem prime_107 : Nat.Prime 107 := by norm_num
theorem prime_31 : Nat.Prime 31 := by norm_num
theorem prime_93001 :
    Nat.Prime 93001 := by
  refine pratt _ 14 [2, 2, 2, 3, 5, 5, 5, 31] ?_ (by decide +kernel)
  simp only [List.forall_mem_cons]
  exact ⟨prime_2, prime_2, prime_2, prime_3, prime_5, prime_5, prime_5, prime_31, by simp⟩

theorem prime_661 : Nat.Prime 661 := by norm_num
theorem prime_7 : Nat.Prime 7 := by norm_num
theorem prime_12048837557 :
    Nat.Prime 12048837557 := by
  refine pratt _ 2 [2, 2, 7, 7, 661, 93001] ?_ (by decide +kernel)
  simp only [List.forall_mem_cons]
  exact ⟨prime_2, prime_2, prime_7, prime_7, prime_661, prime_93001, by simp⟩

theorem prime_5156902474397 :
    Nat.Prime 5156902474397 := by
  refine pratt _ 2 [2, 2, 107, 12048837557] ?_ (by decide +kernel)
  simp only [List.forall_mem_cons]
  exact ⟨prime_2, prime_2, prime_107, prime_12048837557, by simp⟩

theorem prime_1670836401704629 :
    Nat.Prime 1670836401704629 := by
  refine pratt _ 2 [2, 2, 3, 3, 3, 3, 5156902474397] ?_ (by decide +kernel)
  simp only [List.forall_mem_cons]
  exact ⟨prime_2, prime_2, prime_3, prime_3, prime_3, prime_3, prime_5156902474397, by simp⟩

theorem prime_983 : Nat.Prime 983 := by norm_num
theorem prime_5501 : Nat.Prime 5501 := by norm_num
theorem prime_11003 :
    Nat.Prime 11003 := by
  refine pratt _ 2 [2, 5501] ?_ (by decide +kernel)
  simp only [List.forall_mem_cons]
  exact ⟨prime_2, prime_5501, by simp⟩

theorem prime_29 : Nat.Prime 29 := by norm_num
theorem prime_3691 : Nat.Prime 3691 := by norm_num
theorem prime_4999 : Nat.Prime 4999 := by norm_num
theorem prime_405928799 :
    Nat.Prime 405928799 := by
  refine pratt _ 22 [2, 11, 3691, 4999] ?_ (by decide +kernel)
  simp only [List.forall_mem_cons]
  exact ⟨prime_2, prime_11, prime_3691, prime_4999, by simp⟩

theorem prime_21888242871839275222246405745257275088548364400416034343698204186575808495617 :
    Nat.Prime 21888242871839275222246405745257275088548364400416034343698204186575808495617 := by
  refine pratt _ 5 [2, 2, 2, 2, 2, 2, 2, 2, 2, 2, 2, 2, 2, 2, 2, 2, 2, 2, 2, 2, 2, 2, 2, 2, 2, 2, 2, 2, 3, 3, 13, 29, 983, 11003, 237073, 405928799, 1670836401704629, 13818364434197438864469338081] ?_ (by decide +kernel)
  simp only [List.forall_mem_cons]
  exact ⟨prime_2, prime_2, prime_2, prime_2, prime_2, prime_2, prime_2, prime_2, prime_2, prime_2, prime_2, prime_2, prime_2, prime_2, prime_2, prime_2, prime_2, prime_2, prime_2, prime_2, prime_2, prime_2, prime_2, prime_2, prime_2, prime_2, prime_2, prime_2, prime_3, prime_3, prime_13, prime_29, prime_983, prime_11003, prime_237073, prime_405928799, prime_1670836401704629, prime_13818364434197438864469338081, by simp⟩

theorem prime_67 : Nat.Prime 67 := by norm_num
theorem prime_17 : Nat.Prime 17 := by norm_num
theorem prime_109 : Nat.Prime 109 := by norm_num
theorem prime_1231 : Nat.Prime 1231 := by norm_num
theorem prime_4562087 :
    Nat.Prime 4562087 := by
  refine pratt _ 5 [2, 17, 109, 1231] ?_ (by decide +kernel)
  simp only [List.forall_mem_cons]
  exact ⟨prime_2, prime_17, prime_109, prime_1231, by simp⟩

theorem prime_271 : Nat.Prime 271 := by norm_num
theorem prime_1853641 :
    Nat.Prime 1853641 := by
  refine pratt _ 17 [2, 2, 2, 3, 3, 5, 19, 271] ?_ (by decide +kernel)
  simp only [List.forall_mem_cons]
  exact ⟨prime_2, prime_2, prime_2, prime_3, prime_3, prime_5, prime_19, prime_271, by simp⟩

theorem prime_41 : Nat.Prime 41 := by norm_num
theorem prime_3557 : Nat.Prime 3557 := by norm_num
theorem prime_911 : Nat.Prime 911 := by norm_num
theorem prime_1263766531 :
    Nat.Prime 1263766531 := by
  refine pratt _ 10 [2, 3, 5, 13, 911, 3557] ?_ (by decide +kernel)
  simp only [List.forall_mem_cons]
  exact ⟨prime_2, prime_3, prime_5, prime_13, prime_911, prime_3557, by simp⟩

theorem prime_35385462869 :
    Nat.Prime 35385462869 := by
  refine pratt _ 2 [2, 2, 7, 1263766531] ?_ (by decide +kernel)
  simp only [List.forall_mem_cons]
  exact ⟨prime_2, prime_2, prime_7, prime_1263766531, by simp⟩

theorem prime_2480874801745591 :
    Nat.Prime 2480874801745591 := by
  refine pratt _ 6 [2, 3, 3, 5, 19, 41, 35385462869] ?_ (by decide +kernel)
  simp only [List.forall_mem_cons]
  exact ⟨prime_2, prime_3, prime_3, prime_5, prime_19, prime_41, prime_35385462869, by simp⟩

theorem prime_89 : Nat.Prime 89 := by norm_num
theorem prime_73 : Nat.Prime 73 := by norm_num
theorem prime_2221 : Nat.Prime 2221 := by norm_num
theorem prime_13327 :
    Nat.Prime 13327 := by
  refine pratt _ 3 [2, 3, 2221] ?_ (by decide +kernel)
  simp only [List.forall_mem_cons]
  exact ⟨prime_2, prime_3, prime_2221, by simp⟩

theorem prime_173171039 :
    Nat.Prime 173171039 := by
  refine pratt _ 13 [2, 73, 89, 13327] ?_ (by decide +kernel)
  simp only [List.forall_mem_cons]
  exact ⟨prime_2, prime_73, prime_89, prime_13327, by simp⟩

theorem prime_13427688667394608761327070753331941386769 :
    Nat.Prime 13427688667394608761327070753331941386769 := by
  refine pratt _ 17 [2, 2, 2, 2, 3, 7, 11, 1853641, 4562087, 173171039, 2480874801745591] ?_ (by decide +kernel)
  simp only [List.forall_mem_cons]
  exact ⟨prime_2, prime_2, prime_2, prime_2, prime_3, prime_7, prime_11, prime_1853641, prime_4562087, prime_173171039, prime_2480874801745591, by simp⟩

theorem prime_233 : Nat.Prime 233 := by norm_num
theorem prime_37 : Nat.Prime 37 := by norm_num
theorem prime_327599 :
    Nat.Prime 327599 := by
  refine pratt _ 19 [2, 19, 37, 233] ?_ (by decide +kernel)
  simp only [List.forall_mem_cons]
  exact ⟨prime_2, prime_19, prime_37, prime_233, by simp⟩

theorem prime_11465965001 :
    Nat.Prime 11465965001 := by
  refine pratt _ 3 [2, 2, 2, 5, 5, 5, 5, 7, 327599] ?_ (by decide +kernel)
  simp only [List.forall_mem_cons]
  exact ⟨prime_2, prime_2, prime_2, prime_5, prime_5, prime_5, prime_5, prime_7, prime_327599, by simp⟩

theorem prime_311 : Nat.Prime 311 := by norm_num
theorem prime_21888242871839275222246405745257275088696311157297823662689037894645226208583 :
    Nat.Prime 21888242871839275222246405745257275088696311157297823662689037894645226208583 := by
  refine pratt _ 3 [2, 3, 3, 13, 29, 67, 229, 311, 983, 11003, 405928799, 11465965001, 13427688667394608761327070753331941386769] ?_ (by decide +kernel)
  simp only [List.forall_mem_cons]
  exact ⟨prime_2, prime_3, prime_3, prime_13, prime_29, prime_67, prime_229, prime_311, prime_983, prime_11003, prime_405928799, prime_11465965001, prime_13427688667394608761327070753331941386769, by simp⟩

/-- BN254 scalar field modulus; `q_mod` in `templates/verifier.sol`. -/
def frMod : ℕ := 21888242871839275222246405745257275088548364400416034343698204186575808495617

/-- BN254 base field modulus; `p_mod` in `templates/verifier.sol`. -/
def fqMod : ℕ := 21888242871839275222246405745257275088696311157297823662689037894645226208583

theorem frMod_prime : Nat.Prime frMod := prime_21888242871839275222246405745257275088548364400416034343698204186575808495617

theorem fqMod_prime : Nat.Prime fqMod := prime_21888242871839275222246405745257275088696311157297823662689037894645226208583

instance : Fact (Nat.Prime frMod) := ⟨frMod_prime⟩

instance : Fact (Nat.Prime fqMod) := ⟨fqMod_prime⟩

end Verif
