import Verif.Sol.TemplateLoops

/-!
# The text of the functions of the template: C98

`halo2-snark-aggregator-solidity/templates/verifier.sol`. The functions of the text call each other; the depth of the calls is bounded by a
number. `get_wx_wg` consists of generated statements and is a parameter here; its text is the subject of C93.
-/

namespace Verif.Sol.Template
open Verif.Sol Verif.Circuit Verif.Ecc

/-- The functions of the template, without `verify` and `get_wx_wg`: verifier.sol:5-338. -/
def contractText : List (List Char) :=
  [pairingFnText, frInvertFnText, frPowFnText, frDivFnText, frMulAddFnText, frMulAddPmFnText, frMulAddMtFnText, frReverseFnText, eccFromFnText,
    eccAddFnText, eccSubFnText, eccMulFnText, innerMulAddFnText, eccMulAddFnText, eccMulAddPmFnText, updateHashScalarFnText, updateHashPointFnText,
    toScalarFnText, hashFnText, squeezeChallengeFnText, getVerifyCircuitG2SFnText, getVerifyCircuitG2NFnText, getTargetCircuitG2SFnText,
    getTargetCircuitG2NFnText]

def Item.fn? : Item → Option Fn
  | .fn f => some f
  | _ => none

/-- What is read from the text. -/
def functions : List Fn := contractText.filterMap fun t => (parseItem t).bind Item.fn?

theorem functions_eq : functions =
    [pairingFn, frInvertFn, frPowFn, frDivFn, frMulAddFn, frMulAddPmFn, frMulAddMtFn, frReverseFn, eccFromFn, eccAddFn, eccSubFn, eccMulFn,
      innerMulAddFn, eccMulAddFn, eccMulAddPmFn, updateHashScalarFn, updateHashPointFn, toScalarFn, hashFn, squeezeChallengeFn,
      getVerifyCircuitG2SFn, getVerifyCircuitG2NFn, getTargetCircuitG2SFn, getTargetCircuitG2NFn] := by
  simp only [functions, contractText, List.filterMap_cons, List.filterMap_nil, parse_pairingFn, parse_frInvertFn, parse_frPowFn, parse_frDivFn,
    parse_frMulAddFn, parse_frMulAddPmFn, parse_frMulAddMtFn, parse_frReverseFn, parse_eccFromFn, parse_eccAddFn, parse_eccSubFn, parse_eccMulFn,
    parse_innerMulAddFn, parse_eccMulAddFn, parse_eccMulAddPmFn, parse_updateHashScalarFn, parse_updateHashPointFn, parse_toScalarFn,
    parse_hashFn, parse_squeezeChallengeFn, parse_getVerifyCircuitG2SFn, parse_getVerifyCircuitG2NFn, parse_getTargetCircuitG2SFn,
    parse_getTargetCircuitG2NFn, Option.bind_some, Item.fn?]

/-- What a deployed contract is given: the numbers and statements that are filled in, contracts 2 and 8, and `get_wx_wg`. -/
structure Base where
  fill : String → Option ℕ
  D : Digest
  p : Pairing
  splice : String → S → Option S
  fuel : ℕ
  wxwg : List V → Heap → Option (List V × Heap)

noncomputable def Base.cx (B : Base) (fns : String → List V → Heap → Option (List V × Heap)) : Cx := ⟨B.fill, B.D, B.p, B.splice, B.fuel, fns⟩

/-- A call of a function of the text, with at most `d` calls inside of each other. -/
noncomputable def Base.call (B : Base) : ℕ → String → List V → Heap → Option (List V × Heap)
  | 0, _, _, _ => none
  | d + 1, f, args, h =>
    if f = "get_wx_wg" then B.wxwg args h
    else match functions.find? fun F => F.name = f with
      | some F => F.run (B.cx (B.call d)) args h
      | none => none

theorem call_find {B : Base} {d : ℕ} {f : String} {F : Fn} (hf : f ≠ "get_wx_wg") (hF : functions.find? (fun F => F.name = f) = some F)
    (args : List V) (h : Heap) : B.call (d + 1) f args h = F.run (B.cx (B.call d)) args h := by
  rw [Base.call, if_neg hf, hF]

/-- Finding a function by its name. -/
macro "find_fn" : tactic => `(tactic| (rw [functions_eq]; rfl))

variable (B : Base) (d : ℕ) (h : Heap)

/-! ### The scalar field -/

/-- **C98**, `fr_pow`. -/
theorem C98_fr_pow (a e : Word) : ∃ g, B.call (d + 1) "fr_pow" [.word a, .word e] h = some ([.word (frPow a e)], h ++ g) := by
  rw [call_find (by decide) (by find_fn)]
  exact frPow_text _ a e h

/-- **C98**, `fr_invert`. -/
theorem C98_fr_invert (a : Word) : ∃ g, B.call (d + 2) "fr_invert" [.word a] h = (frInvert a).map fun r => ([.word r], h ++ g) := by
  rw [call_find (by decide) (by find_fn)]
  exact frInvert_text a h fun a e h => C98_fr_pow B d h a e

/-- **C98**, `fr_div`. -/
theorem C98_fr_div (a b : Word) : ∃ g, B.call (d + 3) "fr_div" [.word a, .word b] h = (frDiv a b).map fun r => ([.word r], h ++ g) := by
  rw [call_find (by decide) (by find_fn)]
  exact frDiv_text a b h fun a h => C98_fr_invert B d h a

/-- **C98**, `fr_mul_add`. -/
theorem C98_fr_mul_add (a b e : Word) : B.call (d + 1) "fr_mul_add" [.word a, .word b, .word e] h = some ([.word (frMulAdd a b e)], h) := by
  rw [call_find (by decide) (by find_fn)]
  exact frMulAdd_text _ a b e h

/-- **C98**, `fr_reverse`. -/
theorem C98_fr_reverse (v : Word) : B.call (d + 1) "fr_reverse" [.word v] h = some ([.word (frReverse v)], h) := by
  rw [call_find (by decide) (by find_fn)]
  exact frReverse_text v h

/-! ### Points -/

/-- **C98**, `ecc_add`. -/
theorem C98_ecc_add (ax ay bx by' : Word) : ∃ g, B.call (d + 1) "ecc_add" [.word ax, .word ay, .word bx, .word by'] h =
    (eccAdd ax ay bx by').map fun r => (words r, h ++ g) := by
  rw [call_find (by decide) (by find_fn)]
  exact eccAdd_text ax ay bx by' h

/-- **C98**, `ecc_sub`. -/
theorem C98_ecc_sub (ax ay bx by' : Word) : ∃ g, B.call (d + 2) "ecc_sub" [.word ax, .word ay, .word bx, .word by'] h =
    (eccSub ax ay bx by').map fun r => (words r, h ++ g) := by
  rw [call_find (by decide) (by find_fn)]
  exact eccSub_text ax ay bx by' h fun ax ay bx by' h => C98_ecc_add B d h ax ay bx by'

/-- **C98**, `ecc_mul`. -/
theorem C98_ecc_mul (x y k : Word) : ∃ g, B.call (d + 1) "ecc_mul" [.word x, .word y, .word k] h =
    (eccMul x y k).map fun r => (words r, h ++ g) := by
  rw [call_find (by decide) (by find_fn)]
  exact eccMul_text x y k h

/-- **C98**, `_ecc_mul_add`: the sum is left in the last two words of the array, the first one is unchanged. -/
theorem C98_inner_mul_add : MulAddText (B.call (d + 1) "_ecc_mul_add") := by
  have : B.call (d + 1) "_ecc_mul_add" = innerMulAddFn.run (B.cx (B.call d)) := by
    funext args h
    exact call_find (by decide) (by find_fn) args h
  rw [this]
  exact innerMulAdd_text

/-- **C98**, `ecc_mul_add`. -/
theorem C98_ecc_mul_add (px py k qx qy : Word) : ∃ g, B.call (d + 2) "ecc_mul_add" [.word px, .word py, .word k, .word qx, .word qy] h =
    (eccMulAdd px py k qx qy).map fun r => (words r, h ++ g) := by
  rw [call_find (by decide) (by find_fn)]
  exact eccMulAdd_text (C98_inner_mul_add B d) px py k qx qy h

/-! ### Sums of products -/

/-- **C98**, `fr_mul_add_pm`. -/
theorem C98_fr_mul_add_pm {E : Env} {st : St} {o : ℕ} {mem : List Word} (hE : ∀ i, E.load st i = mem[i]?) (hh : h[o]? = some (arrObj mem))
    (hf : 16 < B.fuel) (op t : Word) : B.call (d + 1) "fr_mul_add_pm" [.ref o, .data E.proof, .word op, .word t] h =
    (frMulAddPM E st 16 op t).map fun r => ([.word r], h) := by
  rw [call_find (by decide) (by find_fn)]
  exact frMulAddPm_text (c := B.cx (B.call d)) hE hh hf op t

/-- **C98**, `fr_mul_add_mt`. -/
theorem C98_fr_mul_add_mt {E : Env} {st : St} {o : ℕ} {mem : List Word} (hE : ∀ i, E.load st i = mem[i]?) (hh : h[o]? = some (arrObj mem))
    (hf : 32 < B.fuel) (b op t : Word) : B.call (d + 1) "fr_mul_add_mt" [.ref o, .word b, .word op, .word t] h =
    (frMulAddMT E st b 32 op t).map fun r => ([.word r], h) := by
  rw [call_find (by decide) (by find_fn)]
  exact frMulAddMt_text (c := B.cx (B.call d)) hE hh hf b op t

/-- **C98**, `ecc_mul_add_pm`. -/
theorem C98_ecc_mul_add_pm {E : Env} {st : St} {o : ℕ} {mem : List Word} (hE : ∀ i, E.load st i = mem[i]?) (hh : h[o]? = some (arrObj mem))
    (hf : 16 < B.fuel) (op x y : Word) : ∃ g, B.call (d + 2) "ecc_mul_add_pm" [.ref o, .data E.proof, .word op, .word x, .word y] h =
    (eccMulAddPM E st 16 op x y).map fun r => (words r, h ++ g) := by
  rw [call_find (by decide) (by find_fn)]
  exact eccMulAddPm_text (c := B.cx (B.call (d + 1))) (C98_inner_mul_add B d) hE hh hf op x y

/-! ### The transcript -/

variable {h}

/-- **C98**, `update_hash_scalar`. -/
theorem C98_update_hash_scalar (v : Word) {o p : ℕ} {a : List Word} (ho : h[o]? = some (arrObj a)) (ha : a.length < 2 ^ 256) (hp : p < 2 ^ 256) :
    B.call (d + 1) "update_hash_scalar" [.word v, .ref o, .word (BitVec.ofNat 256 p)] h =
      (updateHashScalar v a p).map fun a' => ([], h.set o (arrObj a')) := by
  rw [call_find (by decide) (by find_fn)]
  exact updateHashScalar_text v ho ha hp

/-- **C98**, `update_hash_point`. -/
theorem C98_update_hash_point (x y : Word) {o p : ℕ} {a : List Word} (ho : h[o]? = some (arrObj a)) (ha : a.length < 2 ^ 256) (hp : p < 2 ^ 256) :
    B.call (d + 1) "update_hash_point" [.word x, .word y, .ref o, .word (BitVec.ofNat 256 p)] h =
      (updateHashPoint x y a p).map fun a' => ([], h.set o (arrObj a')) := by
  rw [call_find (by decide) (by find_fn)]
  exact updateHashPoint_text x y ho ha hp

/-- **C98**, `to_scalar`. -/
theorem C98_to_scalar (r : Word) (h : Heap) : B.call (d + 2) "to_scalar" [.word r] h = some ([.word (toScalar r)], h) := by
  rw [call_find (by decide) (by find_fn)]
  exact toScalar_text (fun v h => C98_fr_reverse B d h v) r h

/-- **C98**, `hash`. -/
theorem C98_hash {o n : ℕ} {a : List Word} (ho : h[o]? = some (arrObj a)) (hn : n ≤ 32 * a.length) (hb : n < 2 ^ 32) :
    B.call (d + 1) "hash" [.ref o, .u32 n] h = some ([.ref h.length], h ++ [arrObj [hashMem B.D a n]]) := by
  rw [call_find (by decide) (by find_fn)]
  exact hash_text (c := B.cx (B.call d)) ho hn hb

/-- **C98**, `squeeze_challenge`: the challenge, and the array with the hash in front. -/
theorem C98_squeeze_challenge {o n : ℕ} {a : List Word} (ho : h[o]? = some (arrObj a)) :
    ∃ g, B.call (d + 3) "squeeze_challenge" [.ref o, .u32 n] h = (squeezeChallenge B.D a n).map fun r => ([.word r.2], h.set o (arrObj r.1) ++ g) := by
  rw [call_find (by decide) (by find_fn)]
  exact squeezeChallenge_text (c := B.cx (B.call (d + 2))) (fun h o n a ho hn hb => C98_hash B (d + 1) ho hn hb) (fun r h => C98_to_scalar B d r h) ho

/-! ### Cases -/

example : B.call 1 "fr_mul_add" [.word 2#256, .word 3#256, .word 4#256] [] = some ([.word 10#256], []) := by
  rw [C98_fr_mul_add B 0, show frMulAdd 2#256 3#256 4#256 = 10#256 by decide +kernel]

/-- The inverse of one. -/
example : ∃ g, B.call 2 "fr_invert" [.word 1#256] [] = some ([.word 1#256], g) := by
  obtain ⟨g, hg⟩ := C98_fr_invert B 0 [] 1#256
  refine ⟨g, hg.trans ?_⟩
  have h1 : frInvert 1#256 = some 1#256 := by
    have hs : subChecked qMod 2#256 = some (qMod - 2#256) := by decide +kernel
    have hq : 1 < frMod := by decide +kernel
    simp [frInvert, hs, frPow, Nat.mod_eq_of_lt hq]
  rw [h1]
  rfl

/-- The array of the transcript, second of three objects. -/
example (a b : Obj) : B.call 1 "update_hash_scalar" [.word 7#256, .ref 1, .word 1#256] [a, arrObj [5#256, 0#256, 0#256], b] =
    some ([], [a, arrObj [5#256, 2#256, 7#256], b]) := by
  rw [show (1#256 : Word) = BitVec.ofNat 256 1 from rfl,
    C98_update_hash_scalar B 0 7#256 (a := [5#256, 0#256, 0#256]) rfl (by norm_num) (by norm_num)]
  rfl

/-- It is full. -/
example (a b : Obj) : B.call 1 "update_hash_scalar" [.word 7#256, .ref 1, .word 2#256] [a, arrObj [5#256, 0#256, 0#256], b] = none := by
  rw [show (2#256 : Word) = BitVec.ofNat 256 2 from rfl,
    C98_update_hash_scalar B 0 7#256 (a := [5#256, 0#256, 0#256]) rfl (by norm_num) (by norm_num)]
  rfl

/-- `proof[1] * m[0] + proof[0] * m[1] + t`: the opcode has the positions from the lowest byte on and ends with `0xff`. -/
example (hf : 16 < B.fuel) : B.call 1 "fr_mul_add_pm" [.ref 0, .data [3#256, 5#256], .word 0xff01000001#256, .word 1#256] [arrObj [10#256, 100#256]] =
    some ([.word 351#256], [arrObj [10#256, 100#256]]) := by
  have := C98_fr_mul_add_pm B 0 [arrObj [10#256, 100#256]] (E := ⟨B.D, [3#256, 5#256], [], 2⟩)
    (st := ⟨fun i => if i = 0 then 10#256 else 100#256, [], 0, 0⟩) (mem := [10#256, 100#256]) (o := 0)
    (fun i => by match i with | 0 => rfl | 1 => rfl | n + 2 => simp [Env.load]) rfl hf 0xff01000001#256 1#256
  rw [this]
  have h1 : ∀ D : Digest, frMulAddPM ⟨D, [3#256, 5#256], [], 2⟩ ⟨fun i => if i = 0 then 10#256 else 100#256, [], 0, 0⟩ 16 0xff01000001#256 1#256 = some 351#256 := by
    intro D
    rfl
  rw [h1]
  rfl

end Verif.Sol.Template
