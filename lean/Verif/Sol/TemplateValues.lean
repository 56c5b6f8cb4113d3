import Verif.Sol.PackProps
import Verif.Sol.ShaProps
import Verif.Sol.TemplateLink

/-!
# What the text of the contract computes: C100

`halo2-snark-aggregator-solidity/templates/verifier.sol` lines 43-310, in terms of the scalar field, of the curve and of bytes. A word stands for its
residue (`frOf`), a residue is written as its least word (`wordOf`), a point as the words of EIP-196 (`g1Words`).
-/

namespace Verif.Sol.Template
open Verif.Sol Verif.Circuit Verif.Ecc

variable (B : Base) (d : ℕ) (h : Heap)

/-! ### Scalars -/

/-- **C100**: `fr_pow`. -/
theorem C100_fr_pow (a e : Word) : ∃ g, B.call (d + 1) "fr_pow" [.word a, .word e] h = some ([.word (wordOf (frOf a ^ e.toNat))], h ++ g) := by
  simpa only [C50_pow] using C98_fr_pow B d h a e

/-- **C100**: `fr_invert`. Zero is its own inverse. -/
theorem C100_fr_invert (a : Word) : ∃ g, B.call (d + 2) "fr_invert" [.word a] h = some ([.word (wordOf (frOf a)⁻¹)], h ++ g) := by
  simpa only [frInvert_eq, Option.map_some] using C98_fr_invert B d h a

/-- **C100**: `fr_div`. -/
theorem C100_fr_div (a : Word) {b : Word} (hb : b ≠ 0) :
    ∃ g, B.call (d + 3) "fr_div" [.word a, .word b] h = some ([.word (wordOf (frOf a / frOf b))], h ++ g) := by
  simpa only [C50_div, if_neg hb, Option.map_some] using C98_fr_div B d h a b

/-- **C100**: `fr_div` by the word zero reverts. -/
theorem C100_fr_div_zero (a : Word) : B.call (d + 3) "fr_div" [.word a, .word 0] h = none := by
  obtain ⟨g, hg⟩ := C98_fr_div B d h a 0
  rw [hg, C50_div, if_pos rfl]
  rfl

/-- **C100**: `fr_mul_add`. -/
theorem C100_fr_mul_add (a b e : Word) :
    B.call (d + 1) "fr_mul_add" [.word a, .word b, .word e] h = some ([.word (wordOf (frOf a * frOf b + frOf e))], h) := by
  rw [C98_fr_mul_add, C50_mul_add]

/-- **C100**: `fr_reverse` turns the bytes around. -/
theorem C100_fr_reverse (v : Word) : ∃ r, B.call (d + 1) "fr_reverse" [.word v] h = some ([.word r], h) ∧ bytesOf r = (bytesOf v).reverse :=
  ⟨_, C98_fr_reverse B d h v, C38_reverse v⟩

/-! ### Points -/

/-- **C100**: `ecc_add`. -/
theorem C100_ecc_add (P Q : Pt) : ∃ g, B.call (d + 1) "ecc_add" [.word (g1Words P).1, .word (g1Words P).2, .word (g1Words Q).1, .word (g1Words Q).2] h =
    some (words (g1Words (P + Q)), h ++ g) := by
  simpa only [C71_add, Option.map_some] using C98_ecc_add B d h (g1Words P).1 (g1Words P).2 (g1Words Q).1 (g1Words Q).2

/-- **C100**: `ecc_add` reverts on words of no point, and only then. -/
theorem C100_ecc_add_reverts (ax ay bx by' : Word) : B.call (d + 1) "ecc_add" [.word ax, .word ay, .word bx, .word by'] h = none ↔
    g1 ax ay = none ∨ g1 bx by' = none := by
  obtain ⟨g, hg⟩ := C98_ecc_add B d h ax ay bx by'
  rw [hg, Option.map_eq_none_iff, C71_add_reverts]

/-- **C100**: `ecc_sub`, except for the identity. -/
theorem C100_ecc_sub (P : Pt) {Q : Pt} (hQ : Q ≠ 0) :
    ∃ g, B.call (d + 2) "ecc_sub" [.word (g1Words P).1, .word (g1Words P).2, .word (g1Words Q).1, .word (g1Words Q).2] h =
      some (words (g1Words (P - Q)), h ++ g) := by
  simpa only [C71_sub P hQ, Option.map_some] using C98_ecc_sub B d h (g1Words P).1 (g1Words P).2 (g1Words Q).1 (g1Words Q).2

/-- **C100**: subtracting the identity reverts. -/
theorem C100_ecc_sub_identity (ax ay : Word) : B.call (d + 2) "ecc_sub" [.word ax, .word ay, .word (g1Words 0).1, .word (g1Words 0).2] h = none := by
  obtain ⟨g, hg⟩ := C98_ecc_sub B d h ax ay (g1Words 0).1 (g1Words 0).2
  rw [hg, C71_sub_identity]
  rfl

/-- **C100**: `ecc_mul`. -/
theorem C100_ecc_mul (P : Pt) (k : Word) : ∃ g, B.call (d + 1) "ecc_mul" [.word (g1Words P).1, .word (g1Words P).2, .word k] h =
    some (words (g1Words (k.toNat • P)), h ++ g) := by
  simpa only [C71_mul, Option.map_some] using C98_ecc_mul B d h (g1Words P).1 (g1Words P).2 k

/-- **C100**: `ecc_mul_add`. -/
theorem C100_ecc_mul_add (P Q : Pt) (k : Word) :
    ∃ g, B.call (d + 2) "ecc_mul_add" [.word (g1Words P).1, .word (g1Words P).2, .word k, .word (g1Words Q).1, .word (g1Words Q).2] h =
      some (words (g1Words (k.toNat • P + Q)), h ++ g) := by
  simpa only [C71_mul_add, Option.map_some] using C98_ecc_mul_add B d h (g1Words P).1 (g1Words P).2 k (g1Words Q).1 (g1Words Q).2

/-! ### Sums of products -/

/-- An environment with given words. -/
def envOf (D : Digest) (proof mem : List Word) : Env := ⟨D, proof, [], mem.length⟩

/-- A state with given words. -/
def stOf (mem : List Word) : St := ⟨fun i => mem[i]?.getD 0, [], 0, 0⟩

theorem load_stOf (D : Digest) (proof mem : List Word) (i : ℕ) : (envOf D proof mem).load (stOf mem) i = mem[i]? := by
  unfold Env.load envOf stOf
  by_cases hi : i < mem.length
  · simp [hi]
  · simp [hi, List.getElem?_eq_none (Nat.le_of_not_lt hi)]

theorem stops_pm {l : List (ℕ × ℕ)} (hl : l.length ≤ 16) : Stops (if l.length = 16 then 0 else 0xffff) 16 l.length 0xffff := by
  by_cases h : l.length = 16
  · exact .inl h.symm
  · exact .inr ⟨by omega, if_neg h⟩

theorem stops_mt {l : List ℕ} (hl : l.length ≤ 32) : Stops (if l.length = 32 then 0 else 0xff) 32 l.length 0xff := by
  by_cases h : l.length = 32
  · exact .inl h.symm
  · exact .inr ⟨by omega, if_neg h⟩

theorem frRounds_sum {D : Digest} {proof mem : List Word} : ∀ (l : List ((ℕ × ℕ) × Word × Word)) (t : Word),
    (∀ x ∈ l, proof[x.1.1]? = some x.2.1 ∧ mem[x.1.2]? = some x.2.2) →
    ∃ r, frRounds (envOf D proof mem) (stOf mem) (l.map Prod.fst) t = some r ∧ frOf r = frOf t + (l.map fun x => frOf x.2.1 * frOf x.2.2).sum
  | [], t, _ => ⟨t, rfl, by simp⟩
  | x :: l, t, hx => by
    obtain ⟨h1, h2⟩ := hx x (by simp)
    obtain ⟨r, h3, h4⟩ := frRounds_sum (D := D) l (addmod (mulmod x.2.1 x.2.2) t) fun y hy => hx y (by simp [hy])
    refine ⟨r, ?_, ?_⟩
    · rw [List.map_cons, frRounds, load_stOf, h2, show (envOf D proof mem).proof = proof from rfl, h1]
      exact h3
    · rw [h4, C50_mul, C50_add, frOf_wordOf, frOf_wordOf, List.map_cons, List.sum_cons]
      ring

/-- **C100**: `fr_mul_add_pm` adds the products of up to 16 words of the proof with words of memory, for positions that fit in a byte. -/
theorem C100_fr_mul_add_pm {o : ℕ} {mem : List Word} (hh : h[o]? = some (arrObj mem)) (hf : 16 < B.fuel) (proof : List Word)
    (l : List ((ℕ × ℕ) × Word × Word)) (hl : l.length ≤ 16) (hb : ∀ x ∈ l, x.1.1 < 255 ∧ x.1.2 < 256)
    (hx : ∀ x ∈ l, proof[x.1.1]? = some x.2.1 ∧ mem[x.1.2]? = some x.2.2) (t : Word) :
    ∃ r, B.call (d + 1) "fr_mul_add_pm" [.ref o, .data proof, .word (BitVec.ofNat 256 (packPM (l.map Prod.fst))), .word t] h = some ([.word r], h) ∧
      frOf r = frOf t + (l.map fun x => frOf x.2.1 * frOf x.2.2).sum := by
  have hb' : ∀ x ∈ l.map Prod.fst, x.1 < 255 ∧ x.2 < 256 := by
    intro x hx
    obtain ⟨y, hy, rfl⟩ := List.mem_map.1 hx
    exact hb y hy
  have hl' : (l.map Prod.fst).length ≤ 16 := by rwa [List.length_map]
  obtain ⟨r, h1, h2⟩ := frRounds_sum (D := B.D) l t hx
  refine ⟨r, ?_, h2⟩
  rw [show proof = (envOf B.D proof mem).proof from rfl, C98_fr_mul_add_pm B d h (load_stOf B.D proof mem) hh hf,
    frMulAddPM_enc (l.map Prod.fst) 16 _ t hb' (stops_pm hl') (by rw [BitVec.toNat_ofNat, Nat.mod_eq_of_lt (packPM_lt hl' hb'), packPM_eq]), h1]
  rfl

theorem mtRounds_fold {D : Digest} {mem : List Word} {base : Word} : ∀ (l : List (ℕ × Word)) (t : Word), (∀ x ∈ l, mem[x.1]? = some x.2) →
    ∃ r, mtRounds (envOf D [] mem) (stOf mem) base (l.map Prod.fst) t = some r ∧ frOf r = l.foldl (fun s x => frOf base * s + frOf x.2) (frOf t)
  | [], t, _ => ⟨t, rfl, rfl⟩
  | x :: l, t, hx => by
    obtain ⟨r, h3, h4⟩ := mtRounds_fold (D := D) l (addmod (mulmod base t) x.2) fun y hy => hx y (by simp [hy])
    refine ⟨r, ?_, ?_⟩
    · rw [List.map_cons, mtRounds, load_stOf, hx x (by simp)]
      exact h3
    · rw [h4, C50_mul, C50_add, frOf_wordOf, frOf_wordOf, List.foldl_cons]

/-- **C100**: `fr_mul_add_mt` evaluates up to 32 further coefficients in memory at a point, by Horner's rule. -/
theorem C100_fr_mul_add_mt {o : ℕ} {mem : List Word} (hh : h[o]? = some (arrObj mem)) (hf : 32 < B.fuel) (base : Word)
    (l : List (ℕ × Word)) (hl : l.length ≤ 32) (hb : ∀ x ∈ l, x.1 < 255) (hx : ∀ x ∈ l, mem[x.1]? = some x.2) (t : Word) :
    ∃ r, B.call (d + 1) "fr_mul_add_mt" [.ref o, .word base, .word (BitVec.ofNat 256 (packMT (l.map Prod.fst))), .word t] h = some ([.word r], h) ∧
      frOf r = l.foldl (fun s x => frOf base * s + frOf x.2) (frOf t) := by
  have hb' : ∀ x ∈ l.map Prod.fst, x < 255 := by
    intro x hx
    obtain ⟨y, hy, rfl⟩ := List.mem_map.1 hx
    exact hb y hy
  have hl' : (l.map Prod.fst).length ≤ 32 := by rwa [List.length_map]
  obtain ⟨r, h1, h2⟩ := mtRounds_fold (D := B.D) (base := base) l t hx
  refine ⟨r, ?_, h2⟩
  rw [C98_fr_mul_add_mt B d h (load_stOf B.D [] mem) hh hf,
    frMulAddMT_enc (l.map Prod.fst) 32 _ t hb' (stops_mt hl') (by rw [BitVec.toNat_ofNat, Nat.mod_eq_of_lt (packMT_lt hl' hb'), packMT_eq]), h1]
  rfl

theorem eccRounds_sum {D : Digest} {proof mem : List Word} : ∀ (l : List ((ℕ × ℕ) × Pt × Word)) (Q : Pt),
    (∀ x ∈ l, proof[x.1.1]? = some (g1Words x.2.1).1 ∧ proof[x.1.1 + 1]? = some (g1Words x.2.1).2 ∧ mem[x.1.2]? = some x.2.2) →
    eccRounds (envOf D proof mem) (stOf mem) (l.map Prod.fst) (g1Words Q).1 (g1Words Q).2 =
      some (g1Words (Q + (l.map fun x => x.2.2.toNat • x.2.1).sum))
  | [], Q, _ => by
    rw [List.map_nil, List.map_nil, List.sum_nil, add_zero]
    rfl
  | x :: l, Q, hx => by
    obtain ⟨h1, h2, h3⟩ := hx x (by simp)
    have ih := eccRounds_sum (D := D) l (x.2.2.toNat • x.2.1 + Q) fun y hy => hx y (by simp [hy])
    rw [List.map_cons, eccRounds, load_stOf, h3, show (envOf D proof mem).proof = proof from rfl, h1, h2]
    simp only [Option.bind_eq_bind, Option.bind_some, C71_mul_add]
    rw [ih, List.map_cons, List.sum_cons]
    congr 2
    abel

/-- **C100**: `ecc_mul_add_pm` adds the multiples of up to 16 points of the proof by words of memory. -/
theorem C100_ecc_mul_add_pm {o : ℕ} {mem : List Word} (hh : h[o]? = some (arrObj mem)) (hf : 16 < B.fuel) (proof : List Word)
    (l : List ((ℕ × ℕ) × Pt × Word)) (hl : l.length ≤ 16) (hb : ∀ x ∈ l, x.1.1 < 255 ∧ x.1.2 < 256)
    (hx : ∀ x ∈ l, proof[x.1.1]? = some (g1Words x.2.1).1 ∧ proof[x.1.1 + 1]? = some (g1Words x.2.1).2 ∧ mem[x.1.2]? = some x.2.2) (Q : Pt) :
    ∃ g, B.call (d + 2) "ecc_mul_add_pm" [.ref o, .data proof, .word (BitVec.ofNat 256 (packPM (l.map Prod.fst))), .word (g1Words Q).1,
      .word (g1Words Q).2] h = some (words (g1Words (Q + (l.map fun x => x.2.2.toNat • x.2.1).sum)), h ++ g) := by
  have hb' : ∀ x ∈ l.map Prod.fst, x.1 < 255 ∧ x.2 < 256 := by
    intro x hx
    obtain ⟨y, hy, rfl⟩ := List.mem_map.1 hx
    exact hb y hy
  have hl' : (l.map Prod.fst).length ≤ 16 := by rwa [List.length_map]
  obtain ⟨g, hg⟩ := C98_ecc_mul_add_pm B d h (load_stOf B.D proof mem) hh hf (BitVec.ofNat 256 (packPM (l.map Prod.fst))) (g1Words Q).1 (g1Words Q).2
  refine ⟨g, hg.trans ?_⟩
  rw [eccMulAddPM_enc (l.map Prod.fst) 16 _ _ _ hb' (stops_pm hl') (by rw [BitVec.toNat_ofNat, Nat.mod_eq_of_lt (packPM_lt hl' hb'), packPM_eq]),
    eccRounds_sum l Q hx]
  rfl

/-! ### The transcript -/

variable {h}

/-- **C100**: `squeeze_challenge` hashes the bytes of the first `n` words and a zero, reads the digest as a little endian number modulo the order,
and leaves the digest as the first word. -/
theorem C100_squeeze {o n : ℕ} {a : List Word} (ho : h[o]? = some (arrObj a)) (hn : n < a.length) (h32 : n * 32 + 1 < 2 ^ 32) :
    ∃ g r, B.call (d + 3) "squeeze_challenge" [.ref o, .u32 n] h =
      some ([.word (wordOf (leNat (B.D.run (memBytes (a.take n) ++ [0])) : N))], h.set o (arrObj r) ++ g) ∧
      r.length = a.length ∧ r[0]?.map bytesOf = some (B.D.run (memBytes (a.take n) ++ [0])) ∧ ∀ i, 0 < i → i ≠ n → r[i]? = a[i]? := by
  obtain ⟨g, hg⟩ := C98_squeeze_challenge B d (n := n) ho
  have ht : (memBytes (a.set n 0)).take (n * 32 + 1) = memBytes (a.take n) ++ [0] := by
    rw [take_memBytes _ _ (by simpa using hn), List.getElem_set_self, List.take_set_of_le (le_refl n)]
    rfl
  have hs : squeezeChallenge B.D a n = some ((a.set n 0).set 0 (hashMem B.D (a.set n 0) (n * 32 + 1)), toScalar (hashMem B.D (a.set n 0) (n * 32 + 1))) := by
    have h0 : 0 < (a.set n 0).length := by simp; omega
    simp only [squeezeChallenge, store, if_pos hn, if_pos h0, if_pos h32, Option.bind_eq_bind, Option.bind_some, Option.pure_def]
  refine ⟨g, (a.set n 0).set 0 (hashMem B.D (a.set n 0) (n * 32 + 1)), ?_, by simp, ?_, ?_⟩
  · rw [hg, hs]
    simp only [Option.map_some]
    rw [hashMem, ht, toScalar_ofBytes (B.D.length _), leNat_append, leNat_zeros, Nat.mul_zero, Nat.add_zero]
  · rw [List.getElem?_set_self (by simp; omega), Option.map_some, hashMem, ht, bytesOf_ofBytes (B.D.length _)]
  · intro i h0 hi
    rw [List.getElem?_set_ne (by omega), List.getElem?_set_ne (by omega)]

/-- **C100**: it reverts if there is no room for the zero, or if the number of bytes is no `uint32`. -/
theorem C100_squeeze_reverts {o n : ℕ} {a : List Word} (ho : h[o]? = some (arrObj a)) (hn : a.length ≤ n ∨ 2 ^ 32 ≤ n * 32 + 1) :
    B.call (d + 3) "squeeze_challenge" [.ref o, .u32 n] h = none := by
  obtain ⟨g, hg⟩ := C98_squeeze_challenge B d (n := n) ho
  rw [hg, Option.map_eq_none_iff]
  unfold squeezeChallenge store
  rcases hn with hn | hn
  · rw [if_neg (by omega)]
    rfl
  · split
    · simp only [Option.bind_eq_bind, Option.bind_some]
      rw [if_neg (by omega)]
    · rfl

/-! ### Whole transcripts -/

/-- The call that is generated for a step, with the array in object `o` and the position `off`: transcript/codegen.rs:68-97 and 191-214. -/
def callOf (o off : ℕ) : WMsg → String × List V
  | .point x y => ("update_hash_point", [.word x, .word y, .ref o, .word (BitVec.ofNat 256 off)])
  | .scalar v => ("update_hash_scalar", [.word v, .ref o, .word (BitVec.ofNat 256 off)])
  | .challenge => ("squeeze_challenge", [.ref o, .u32 off])

/-- A challenge, if one is returned. -/
def wordIn : List V → Option Word
  | [.word w] => some w
  | _ => none

/-- The calls for some steps, one after the other. -/
noncomputable def Base.transcript (B : Base) (d o : ℕ) : ℕ → List WMsg → Heap → Option (List (Option Word) × Heap)
  | _, [], h => some ([], h)
  | off, m :: ms, h => do
    let r ← B.call d (callOf o off m).1 (callOf o off m).2 h
    let (l, h) ← B.transcript d o (offStep (off, 0) m).1 ms r.2
    return (wordIn r.1 :: l, h)

/-- Objects other than `o` are unchanged. -/
def Keeps (o : ℕ) (h h' : Heap) : Prop := ∀ k, k < h.length → k ≠ o → h'[k]? = h[k]?

theorem store_room {a b : List Word} {i : ℕ} {v : Word} (e : store a i v = some b) : i < a.length ∧ b.length = a.length := by
  unfold store at e
  split at e
  · next hi => cases e; exact ⟨hi, by simp⟩
  · cases e

/-- What one call does. -/
theorem call_step {o : ℕ} {a : Abs} {m : WMsg} {a' : Abs} {x : Option Word} (e : absStep B.D a m = some (a', x)) (ho : h[o]? = some (arrObj a.arr))
    (hl : a.arr.length < 2 ^ 256) : ∃ vs h', B.call (d + 3) (callOf o a.off m).1 (callOf o a.off m).2 h = some (vs, h') ∧ wordIn vs = x ∧
      h'[o]? = some (arrObj a'.arr) ∧ a'.arr.length = a.arr.length ∧ a'.off = (offStep (a.off, 0) m).1 ∧ Keeps o h h' ∧ h.length ≤ h'.length := by
  have hlt : o < h.length := (List.getElem?_eq_some_iff.1 ho).1
  cases m with
  | point x y =>
    obtain ⟨b, hb, e⟩ := Option.map_eq_some_iff.1 e
    cases e
    have hu := hb
    unfold updateHashPoint at hu
    obtain ⟨b1, e1, hu⟩ := Option.bind_eq_some_iff.1 hu
    obtain ⟨b2, e2, e3⟩ := Option.bind_eq_some_iff.1 hu
    have l1 := store_room e1
    have l2 := store_room e2
    have l3 := store_room e3
    refine ⟨[], h.set o (arrObj b), ?_, rfl, ?_, ?_, rfl, fun k _ hk => List.getElem?_set_ne (Ne.symm hk), by simp⟩
    · rw [callOf, C98_update_hash_point B (d + 2) x y ho hl (by omega), hb]
      rfl
    · rw [List.getElem?_set_self hlt]
    · show b.length = _
      omega
  | scalar v =>
    obtain ⟨b, hb, e⟩ := Option.map_eq_some_iff.1 e
    cases e
    have hu := hb
    unfold updateHashScalar at hu
    obtain ⟨b1, e1, e2⟩ := Option.bind_eq_some_iff.1 hu
    have l1 := store_room e1
    have l2 := store_room e2
    refine ⟨[], h.set o (arrObj b), ?_, rfl, ?_, ?_, rfl, fun k _ hk => List.getElem?_set_ne (Ne.symm hk), by simp⟩
    · rw [callOf, C98_update_hash_scalar B (d + 2) v ho hl (by omega), hb]
      rfl
    · rw [List.getElem?_set_self hlt]
    · show b.length = _
      omega
  | challenge =>
    obtain ⟨b, hb, e⟩ := Option.map_eq_some_iff.1 e
    cases e
    have hu := hb
    unfold squeezeChallenge at hu
    obtain ⟨b1, e1, hu⟩ := Option.bind_eq_some_iff.1 hu
    have l1 := store_room e1
    split at hu
    · obtain ⟨b2, e2, hu⟩ := Option.bind_eq_some_iff.1 hu
      have l2 := store_room e2
      obtain ⟨g, hg⟩ := C98_squeeze_challenge B d (n := a.off) ho
      refine ⟨[.word b.2], h.set o (arrObj b.1) ++ g, ?_, rfl, ?_, ?_, rfl, fun k hk hk' => ?_, by simp⟩
      · rw [callOf, hg, hb]
        rfl
      · rw [List.getElem?_append_left (by simpa using hlt), List.getElem?_set_self hlt]
      · cases hu
        show b2.length = _
        omega
      · rw [List.getElem?_append_left (by simpa using hk), List.getElem?_set_ne (Ne.symm hk')]
    · cases hu

theorem transcript_text {o : ℕ} : ∀ (ms : List WMsg) (h : Heap) (a a' : Abs) (l : List (Option Word)), absAll B.D a ms = some (a', l) →
    h[o]? = some (arrObj a.arr) → a.arr.length < 2 ^ 256 → ∃ h', B.transcript (d + 3) o a.off ms h = some (l, h') ∧
      h'[o]? = some (arrObj a'.arr) ∧ Keeps o h h' ∧ h.length ≤ h'.length
  | [], h, a, a', l, e, ho, _ => by
    cases e
    exact ⟨h, rfl, ho, fun _ _ _ => rfl, le_rfl⟩
  | m :: ms, h, a, a', l, e, ho, hl => by
    obtain ⟨⟨a1, x⟩, e1, e⟩ := Option.bind_eq_some_iff.1 e
    obtain ⟨⟨a2, l2⟩, e2, e⟩ := Option.bind_eq_some_iff.1 e
    cases e
    obtain ⟨vs, h1, c1, c2, c3, c4, c5, c6, c7⟩ := call_step B d e1 ho hl
    obtain ⟨h2, t1, t2, t3, t4⟩ := transcript_text ms h1 a1 a' l2 e2 c3 (by omega)
    refine ⟨h2, ?_, t2, fun k hk hk' => ?_, by omega⟩
    · rw [Base.transcript, c1]
      simp only [Option.bind_eq_bind, Option.bind_some]
      rw [← c5, t1, c2]
      rfl
    · rw [t3 k (by omega) hk', c6 k hk hk']

/-- **C100**: for every history of the Rust transcript, the calls of the text that are generated for it return its challenges, and change nothing but
the array, which is as long as the generator says and starts with zeros. -/
theorem C100_transcript {ms : List Msg} {w : Wr} {seen : List Seen} (hw : writeAll B.D ⟨[], []⟩ ms = some (w, seen))
    (h32 : (absorbingLength (ms.map Msg.words) + 1) * 32 ≤ 2 ^ 32) (h : Heap) :
    ∃ h', B.transcript (d + 3) h.length 0 (ms.map Msg.words) (h ++ [arrObj (List.replicate (absorbingLength (ms.map Msg.words) + 1) 0)]) =
      some (seen.map Seen.word, h') ∧ ∀ k, k < h.length → h'[k]? = h[k]? := by
  obtain ⟨a, e, -⟩ := C36_same_challenges B.D hw h32
  obtain ⟨h', t1, -, t3, -⟩ := transcript_text B d (o := h.length) (ms.map Msg.words)
    (h ++ [arrObj (List.replicate (absorbingLength (ms.map Msg.words) + 1) 0)]) _ a _ e (by simp)
    (by simp only [List.length_replicate]; exact lt_of_lt_of_le (show _ < 2 ^ 32 by omega) (by norm_num))
  exact ⟨h', t1, fun k hk => by rw [t3 k (by simp; omega) (by omega), List.getElem?_append_left hk]⟩

/-- An instance, a commitment and a challenge. -/
example : ∃ h', B.transcript 3 0 0 ([Msg.commonScalar 7, .point gen, .challenge].map Msg.words) [arrObj (List.replicate 6 0)] =
    some ([none, none, some (wordOf (leNat (B.D.run (bytesOf 2 ++ bytesOf 7 ++ bytesOf 1 ++ bytesOf 1 ++ bytesOf 2 ++ [0]) ++
      List.replicate 32 0) : N))], h') := by
  obtain ⟨⟨w, seen⟩, hw⟩ := C34_writes B.D ⟨[], []⟩ (ms := [Msg.commonScalar 7, .point gen, .challenge]) (by simp [gen_ne_zero])
  obtain ⟨h', e, -⟩ := C100_transcript B 0 hw (by simp [absorbingLength, offStep, Msg.words]) []
  refine ⟨h', ?_⟩
  simp only [writeAll, writeStep, writePoint, shaPoint_eq _ gen_ne_zero, Option.bind_eq_bind, Option.bind_some, Option.pure_def,
    Option.map_some, shaScalar_eq, Option.some.injEq, Prod.mk.injEq] at hw
  rw [← hw.2] at e
  exact e

/-! ### Cases -/

/-- Six divided by three. -/
example : ∃ g, B.call 3 "fr_div" [.word 6, .word 3] [] = some ([.word (wordOf (frOf 6 / frOf 3))], g) :=
  C100_fr_div B 0 [] 6 (by decide)

/-- `2 * 10 + 3 * 100 + 5`. -/
example (hf : 16 < B.fuel) : ∃ r, B.call 1 "fr_mul_add_pm" [.ref 0, .data [2#256, 3#256], .word (BitVec.ofNat 256 (packPM [(0, 0), (1, 1)])), .word 5#256]
    [arrObj [10#256, 100#256]] = some ([.word r], [arrObj [10#256, 100#256]]) ∧ frOf r = 325 := by
  obtain ⟨r, h1, h2⟩ := C100_fr_mul_add_pm B 0 [arrObj [10#256, 100#256]] (o := 0) rfl hf [2#256, 3#256]
    [((0, 0), 2#256, 10#256), ((1, 1), 3#256, 100#256)] (by simp) (by simp) (by simp) 5#256
  refine ⟨r, h1, h2.trans ?_⟩
  simp only [frOf, List.map_cons, List.map_nil, List.sum_cons, List.sum_nil, BitVec.toNat_ofNat]
  norm_num

/-- The challenge of the empty message. -/
example : ∃ g v, B.call 3 "squeeze_challenge" [.ref 0, .u32 0] [arrObj [0#256]] = some ([.word v], g) ∧ v = wordOf (leNat (B.D.run [0]) : N) := by
  obtain ⟨g, r, h1, -⟩ := C100_squeeze B 0 (h := [arrObj [0#256]]) (o := 0) (n := 0) (a := [0#256]) rfl (by simp) (by norm_num)
  exact ⟨_, _, h1, rfl⟩

end Verif.Sol.Template
