import Verif.Sol.TemplateProps

/-!
# Functions of the template: the transcript and the points

As in `TemplateProps.lean`. The hypotheses about `c.fns` are what the functions that are called do; they are discharged in `TemplateLink.lean`.
-/

namespace Verif.Sol.Template
open Verif.Sol Verif.Circuit

variable {c : Cx} {vars : String → Option V} {h g : Heap} {as : List Stmt}

/-- An expression that is evaluated and dropped. -/
theorem step_exp {e : Exp} {s s' : S} {vs : List V} (he : Exp.run c s e = some (s', vs)) : rest c (.exp e :: as) s = rest c as s' := by
  rw [rest_cons, Stmt.run, he]
  rfl

theorem step_exp_none {e : Exp} {s : S} (he : Exp.run c s e = none) : rest c (.exp e :: as) s = none := by
  rw [rest_cons, Stmt.run, he]
  rfl

/-- A call with one variable as its argument. -/
theorem run_call1 {f x : String} {v : V} (hx : vars x = some v) :
    Exp.run c ⟨vars, h⟩ (.call f [.var x]) = (applyFn c f [v] h).map fun r => (⟨vars, r.2⟩, r.1) := by
  rw [Exp.run, runAll, run_var hx]
  simp only [Option.bind_eq_bind, Option.bind_some, runAll, oneV, Option.pure_def]
  cases applyFn c f [v] h <;> rfl

/-- `ecc_mul_add`: verifier.sol:233-248. -/
theorem eccMulAdd_text (hi : MulAddText (c.fns "_ecc_mul_add")) (px py k qx qy : Word) (h : Heap) :
    ∃ g, eccMulAddFn.run c [.word px, .word py, .word k, .word qx, .word qy] h = (eccMulAdd px py k qx qy).map fun r => (words r, h ++ g) := by
  obtain ⟨h1, h2⟩ := hi px py k qx qy (h ++ [⟨false, [.w px, .w py, .w k, .w qx, .w qy]⟩]) (h.length + 0) (by rw [get_app]; rfl)
  have hf : ∀ o h, applyFn c "_ecc_mul_add" [.ref o] h = c.fns "_ecc_mul_add" [.ref o] h := fun o h => by simp [applyFn]
  cases hr : eccMulAdd px py k qx qy with
  | none =>
    refine ⟨[], ?_⟩
    refine run_none rfl rfl ?_
    dsimp only [eccMulAddFn]
    rw [step_array]
    rw [step_set (k := 0) (by vars) (run_var (by vars)) rfl rfl rfl]
    rw [step_set (k := 0) (by vars) (run_var (by vars)) rfl rfl rfl]
    rw [step_set (k := 0) (by vars) (run_var (by vars)) rfl rfl rfl]
    rw [step_set (k := 0) (by vars) (run_var (by vars)) rfl rfl rfl]
    rw [step_set (k := 0) (by vars) (run_var (by vars)) rfl rfl rfl]
    apply step_exp_none
    rw [run_call1 (by vars), hf]
    have := h1 hr
    simp only [Option.map_eq_none_iff]
    exact this
  | some r =>
    obtain ⟨u, v, hu⟩ := h2 r hr
    refine ⟨[⟨false, [.w px, .w u, .w v, .w r.1, .w r.2]⟩], ?_⟩
    refine run_ret (vs := words r) rfl rfl ?_ rfl
    dsimp only [eccMulAddFn]
    rw [step_array]
    rw [step_set (k := 0) (by vars) (run_var (by vars)) rfl rfl rfl]
    rw [step_set (k := 0) (by vars) (run_var (by vars)) rfl rfl rfl]
    rw [step_set (k := 0) (by vars) (run_var (by vars)) rfl rfl rfl]
    rw [step_set (k := 0) (by vars) (run_var (by vars)) rfl rfl rfl]
    rw [step_set (k := 0) (by vars) (run_var (by vars)) rfl rfl rfl]
    rw [set_app] at hu
    rw [step_exp (vs := []) (s' := ⟨_, h ++ [⟨false, [.w px, .w u, .w v, .w r.1, .w r.2]⟩]⟩)
      (by rw [run_call1 (by vars), hf]; exact congrArg (Option.map _) hu)]
    rw [step_ret2 (run_index (k := 0) (by vars) rfl rfl) (run_index (k := 0) (by vars) rfl rfl)]
    rfl

/-! ### The transcript -/

/-- An array of fixed length. -/
def arrObj (a : List Word) : Obj := ⟨false, a.map .w⟩

theorem write_arr {o i : ℕ} {a : List Word} {v : V} {w : Word} (ho : h[o]? = some (arrObj a)) (hv : v.toWord = some w) :
    writeAt h (.ref o) i v = (store a i w).map fun a' => h.set o (arrObj a') := by
  by_cases hi : i < a.length
  · simp [writeAt, ho, arrObj, hi, Cell.like, hv, store, List.map_set]
  · simp [writeAt, ho, arrObj, hi, store]

theorem lit_big {n : ℕ} (hn : n < 2 ^ 256) : (BitVec.ofNat 256 n).toNat = n := by
  rw [BitVec.toNat_ofNat, Nat.mod_eq_of_lt hn]

/-- `x[y++] = e;` -/
theorem step_store {x y : String} {o p : ℕ} {a : List Word} {e : Exp} {v : V} {w : Word} (hx : vars x = some (.ref o))
    (hy : vars y = some (.word (BitVec.ofNat 256 p))) (hp : p < 2 ^ 256) (he : Exp.run c ⟨vars, h⟩ e = some (⟨vars, h⟩, [v]))
    (ho : h[o]? = some (arrObj a)) (ha : a.length < 2 ^ 256) (hv : v.toWord = some w) :
    rest c (.assign [.index (.var x) (.inc y)] e :: as) ⟨vars, h⟩ =
      (store a p w).bind fun a' => rest c as ⟨Function.update vars y (some (.word (BitVec.ofNat 256 (p + 1)))), h.set o (arrObj a')⟩ := by
  have h1 : lit 1 = some 1#256 := lit_small (by norm_num)
  rw [rest_cons, Stmt.run, he]
  simp only [Option.bind_eq_bind, Option.bind_some, assignAll, assignTo]
  rw [run_var hx]
  simp only [Option.bind_some]
  rw [Exp.run, lookup]
  simp only [hy]
  by_cases hq : p + 1 < 2 ^ 256
  · have h2 : binOp .add (.word (BitVec.ofNat 256 p)) (.num 1) = some (.word (BitVec.ofNat 256 (p + 1))) := by
      simp only [binOp, V.toWord, h1, Option.bind_eq_bind, Option.bind_some, wordOp]
      rw [lit_big hp, if_pos (by simpa using hq), BitVec.ofNat_add]
    simp only [Option.bind_eq_bind, Option.bind_some, Option.pure_def, h2, oneV, V.toNat, lit_big hp, S.put, write_arr ho hv]
    cases store a p w <;> rfl
  · have h2 : binOp .add (.word (BitVec.ofNat 256 p)) (.num 1) = none := by
      simp only [binOp, V.toWord, h1, Option.bind_eq_bind, Option.bind_some, wordOp]
      rw [lit_big hp, if_neg (by simpa using hq)]
    have h3 : store a p w = none := if_neg (by omega)
    simp [h2, h3, andThen_none]

theorem store_length {a a' : List Word} {p : ℕ} {w : Word} (hs : store a p w = some a') : a'.length = a.length := by
  rw [store] at hs
  split at hs <;> simp_all
  rw [← hs, List.length_set]

theorem get_set {o : ℕ} {a b : Obj} (ho : h[o]? = some a) : (h.set o b)[o]? = some b := by
  obtain ⟨hl, -⟩ := List.getElem?_eq_some_iff.1 ho
  simp [hl]

theorem store_pos {a a' : List Word} {p : ℕ} {w : Word} (hs : store a p w = some a') : p < a.length := by
  rw [store] at hs
  split at hs <;> simp_all

/-- `update_hash_scalar`: verifier.sol:278-281. -/
theorem updateHashScalar_text (v : Word) {o p : ℕ} {a : List Word} (ho : h[o]? = some (arrObj a)) (ha : a.length < 2 ^ 256) (hp : p < 2 ^ 256) :
    updateHashScalarFn.run c [.word v, .ref o, .word (BitVec.ofNat 256 p)] h =
      (updateHashScalar v a p).map fun a' => ([], h.set o (arrObj a')) := by
  cases h1 : store a p 2 with
  | none =>
    rw [updateHashScalar, h1]
    refine run_none rfl rfl ?_
    dsimp only [updateHashScalarFn, S.put]
    rw [step_store (w := 2) (by vars) (by vars) hp (run_num _ _) ho ha (lit_small (by norm_num)), h1]
    rfl
  | some a1 =>
    have hl := store_length h1
    have hq := store_pos h1
    cases h2 : store a1 (p + 1) v with
    | none =>
      rw [updateHashScalar, h1]
      simp only [Option.bind_eq_bind, Option.bind_some, h2]
      refine run_none rfl rfl ?_
      dsimp only [updateHashScalarFn, S.put]
      rw [step_store (w := 2) (by vars) (by vars) hp (run_num _ _) ho ha (lit_small (by norm_num)), h1, Option.bind_some]
      rw [step_store (w := v) (by vars) (by vars) (by omega) (run_var (by vars)) (get_set ho) (by omega) rfl, h2]
      rfl
    | some a2 =>
      rw [updateHashScalar, h1]
      simp only [Option.bind_eq_bind, Option.bind_some, h2]
      refine run_next (s'' := ⟨?_, h.set o (arrObj a2)⟩) rfl rfl ?_ rfl
      rotate_left
      · dsimp only [updateHashScalarFn, S.put]
        rw [step_store (w := 2) (by vars) (by vars) hp (run_num _ _) ho ha (lit_small (by norm_num)), h1, Option.bind_some]
        rw [step_store (w := v) (by vars) (by vars) (by omega) (run_var (by vars)) (get_set ho) (by omega) rfl, h2, Option.bind_some]
        rw [rest_nil, List.set_set]

/-- `update_hash_point`: verifier.sol:283-287. -/
theorem updateHashPoint_text (x y : Word) {o p : ℕ} {a : List Word} (ho : h[o]? = some (arrObj a)) (ha : a.length < 2 ^ 256) (hp : p < 2 ^ 256) :
    updateHashPointFn.run c [.word x, .word y, .ref o, .word (BitVec.ofNat 256 p)] h =
      (updateHashPoint x y a p).map fun a' => ([], h.set o (arrObj a')) := by
  cases h1 : store a p 1 with
  | none =>
    rw [updateHashPoint, h1]
    refine run_none rfl rfl ?_
    dsimp only [updateHashPointFn, S.put]
    rw [step_store (w := 1) (by vars) (by vars) hp (run_num _ _) ho ha (lit_small (by norm_num)), h1]
    rfl
  | some a1 =>
    have hl := store_length h1
    have hq := store_pos h1
    cases h2 : store a1 (p + 1) x with
    | none =>
      rw [updateHashPoint, h1]
      simp only [Option.bind_eq_bind, Option.bind_some, h2]
      refine run_none rfl rfl ?_
      dsimp only [updateHashPointFn, S.put]
      rw [step_store (w := 1) (by vars) (by vars) hp (run_num _ _) ho ha (lit_small (by norm_num)), h1, Option.bind_some]
      rw [step_store (w := x) (by vars) (by vars) (by omega) (run_var (by vars)) (get_set ho) (by omega) rfl, h2]
      rfl
    | some a2 =>
      have hl' := store_length h2
      have hq' := store_pos h2
      cases h3 : store a2 (p + 2) y with
      | none =>
        rw [updateHashPoint, h1]
        simp only [Option.bind_eq_bind, Option.bind_some, h2, h3]
        refine run_none rfl rfl ?_
        dsimp only [updateHashPointFn, S.put]
        rw [step_store (w := 1) (by vars) (by vars) hp (run_num _ _) ho ha (lit_small (by norm_num)), h1, Option.bind_some]
        rw [step_store (w := x) (by vars) (by vars) (by omega) (run_var (by vars)) (get_set ho) (by omega) rfl, h2, Option.bind_some]
        rw [step_store (w := y) (by vars) (by vars) (by omega) (run_var (by vars)) (get_set (get_set ho)) (by omega) rfl, h3]
        rfl
      | some a3 =>
        rw [updateHashPoint, h1]
        simp only [Option.bind_eq_bind, Option.bind_some, h2, h3]
        refine run_next (s'' := ⟨?_, h.set o (arrObj a3)⟩) rfl rfl ?_ rfl
        rotate_left
        · dsimp only [updateHashPointFn, S.put]
          rw [step_store (w := 1) (by vars) (by vars) hp (run_num _ _) ho ha (lit_small (by norm_num)), h1, Option.bind_some]
          rw [step_store (w := x) (by vars) (by vars) (by omega) (run_var (by vars)) (get_set ho) (by omega) rfl, h2, Option.bind_some]
          rw [step_store (w := y) (by vars) (by vars) (by omega) (run_var (by vars)) (get_set (get_set ho)) (by omega) rfl, h3, Option.bind_some]
          rw [rest_nil, List.set_set, List.set_set]

theorem umod_text (v : Word) : wordOp .mod v (BitVec.ofNat 256 21888242871839275222246405745257275088548364400416034343698204186575808495617) =
    some (.word (BitVec.ofNat 256 (v.toNat % frMod))) := by
  have hq : (BitVec.ofNat 256 21888242871839275222246405745257275088548364400416034343698204186575808495617 : Word) ≠ 0 := by decide +kernel
  rw [wordOp, if_neg hq]
  congr 2
  apply BitVec.eq_of_toNat_eq
  have hm : (BitVec.ofNat 256 21888242871839275222246405745257275088548364400416034343698204186575808495617 : Word).toNat = frMod := by
    decide +kernel
  rw [BitVec.toNat_umod, hm, lit_big (lt_of_le_of_lt (Nat.mod_le _ _) v.isLt)]

/-- `to_scalar`: verifier.sol:289-293. -/
theorem toScalar_text (hr : ∀ v h, c.fns "fr_reverse" [.word v] h = some ([.word (frReverse v)], h)) (r : Word) (h : Heap) :
    toScalarFn.run c [.word r] h = some ([.word (toScalar r)], h) := by
  have h1 : applyFn c "uint256" [.word r] h = some ([.word r], h) := by simp [applyFn, V.toWord]
  have h2 : ∀ v, applyFn c "fr_reverse" [.word v] h = some ([.word (frReverse v)], h) := fun v => by simp [applyFn, hr]
  refine run_next (s'' := ⟨?_, h⟩) rfl rfl ?_ ?_
  rotate_left
  · dsimp only [toScalarFn, S.put]
    rw [step_init (v := .word r) (w := .word r) (h' := h) (by rw [run_call1 (v := .word r) (by vars), h1]; rfl) rfl]
    rw [step_assign (v := .word (frReverse r)) (w := .word (frReverse r)) (h' := h) (by rw [run_call1 (v := .word r) (by vars), h2]; rfl) (by vars) rfl]
    rw [step_assign (run_bin (run_var (by vars)) (run_num _ _) (by rw [bin_num (by norm_num), umod_text])) (by vars) rfl, rest_nil]
  · simp only [toScalarFn, named, Function.update_self]
    rfl

/-- A call of a precompiled contract with objects anywhere in memory. -/
theorem call_at {x : String} {k o o' len outLen : ℕ} {src dst : Obj} {ws out : List Word} {cells : List Cell}
    (hn : h[o]? = some src) (hw : src.words = some ws) (hp : precompiled c.D c.p k ws len = some (some out)) (hm : h[o']? = some dst)
    (hd : dst.dyn = false) (ho : outLen = 32 * out.length) (hc : overwrite dst.cells 0 out = some cells) :
    staticcall c ⟨vars, h⟩ x (.n k) (.addr o 0) (.n len) (.addr o' 0) (.n outLen) =
      some ⟨Function.update vars x (some (.bool true)), h.set o' ⟨false, cells⟩⟩ := by
  subst ho
  simp [staticcall, hn, hw, hp, hm, hd, hc, S.put]

theorem arr_words (a : List Word) : (arrObj a).words = some a := by
  have : ∀ a : List Word, (a.map Cell.w).mapM Cell.word? = some a := by
    intro a
    induction a with
    | nil => rfl
    | cons x a ih => simp [Cell.word?, ih]
  simp [Obj.words, arrObj, this]

theorem get_left {o : ℕ} {a : Obj} (ho : h[o]? = some a) : (h ++ g)[o]? = some a := by
  obtain ⟨hl, -⟩ := List.getElem?_eq_some_iff.1 ho
  rw [List.getElem?_append_left hl, ho]

theorem set_left {o : ℕ} {a b : Obj} (ho : h[o]? = some a) : (h ++ g).set o b = h.set o b ++ g := by
  obtain ⟨hl, -⟩ := List.getElem?_eq_some_iff.1 ho
  exact List.set_append_left _ _ hl

theorem asm_word {s : S} {x : String} {w : Word} (hx : s.vars x = some (.word w)) : asmExp s (.var x) = some (.n w.toNat) := by
  rw [asmExp, hx]
  rfl

/-- `hash`: verifier.sol:295-302. -/
theorem hash_text {o n : ℕ} {a : List Word} (ho : h[o]? = some (arrObj a)) (hn : n ≤ 32 * a.length) (hb : n < 2 ^ 32) :
    hashFn.run c [.ref o, .u32 n] h = some ([.ref h.length], h ++ [arrObj [hashMem c.D a n]]) := by
  have hl : (BitVec.ofNat 256 n : Word).toNat = n := lit_big (lt_trans hb (by norm_num))
  refine run_next (s'' := ⟨?_, _⟩) rfl rfl ?_ ?_
  rotate_left
  · dsimp only [hashFn, S.put]
    rw [step_bool]
    rw [step_call rfl (asm_ref (o := o) (by vars)) (asm_word (w := BitVec.ofNat 256 n) (by vars)) (asm_ref (o := h.length) (by vars)) rfl
      (call_at (out := [hashMem c.D a n]) (dst := ⟨false, zeros 1⟩) (get_left ho) (arr_words a) ?_ ?_ rfl rfl rfl)]
    · rw [rest_cons, Stmt.run]
      simp only [Function.update_self, andThen_next]
      rw [step_exp (vs := []) (s' := ⟨_, _⟩) (by
        rw [run_call1 (v := .bool true) (by vars)]
        simp [applyFn]
        exact ⟨rfl, rfl⟩), rest_nil]
      rfl
    · rw [hl]
      simp [precompiled, hn]
    · rw [show h.length = h.length + 0 from rfl, get_app]
      rfl
  · simp only [hashFn, named]
    simp [Function.update_apply]

/-- `x[y] = e;` for a `uint32`. -/
theorem step_put {x y : String} {o n : ℕ} {a : List Word} {e : Exp} {v : V} {w : Word} (hx : vars x = some (.ref o)) (hy : vars y = some (.u32 n))
    (he : Exp.run c ⟨vars, h⟩ e = some (⟨vars, h⟩, [v])) (ho : h[o]? = some (arrObj a)) (hv : v.toWord = some w) :
    rest c (.assign [.index (.var x) (.var y)] e :: as) ⟨vars, h⟩ = (store a n w).bind fun a' => rest c as ⟨vars, h.set o (arrObj a')⟩ := by
  rw [rest_cons, Stmt.run, he]
  simp only [Option.bind_eq_bind, Option.bind_some, assignAll, assignTo]
  rw [run_var hx]
  simp only [Option.bind_some]
  rw [run_var hy]
  simp only [Option.bind_some, oneV, V.toNat, write_arr ho hv]
  cases store a n w <;> rfl

/-- `x[i] = e;` -/
theorem step_put_num {x : String} {o n : ℕ} {a : List Word} {e : Exp} {v : V} {w : Word} {h' : Heap} (hx : vars x = some (.ref o))
    (he : Exp.run c ⟨vars, h'⟩ e = some (⟨vars, h⟩, [v])) (ho : h[o]? = some (arrObj a)) (hv : v.toWord = some w) :
    rest c (.assign [.index (.var x) (.num n)] e :: as) ⟨vars, h'⟩ = (store a n w).bind fun a' => rest c as ⟨vars, h.set o (arrObj a')⟩ := by
  rw [rest_cons, Stmt.run, he]
  simp only [Option.bind_eq_bind, Option.bind_some, assignAll, assignTo]
  rw [run_var hx]
  simp only [Option.bind_some]
  rw [run_num]
  simp only [Option.bind_some, oneV, V.toNat, write_arr ho hv]
  cases store a n w <;> rfl

/-- `t x = e;` where `e` reverts. -/
theorem step_init_none {t : TyExp} {x : String} {e : Exp} {s : S} (he : Exp.run c s e = none) : rest c (.decl t x (some e) :: as) s = none := by
  rw [rest_cons, Stmt.run, he]
  rfl

/-- `hash(absorbing, length * 32 + 1)[0]` -/
theorem run_hash {o n : ℕ} {a : List Word} (hf : ∀ (h : Heap) o n a, h[o]? = some (arrObj a) → n ≤ 32 * a.length → n < 2 ^ 32 →
      c.fns "hash" [.ref o, .u32 n] h = some ([.ref h.length], h ++ [arrObj [hashMem c.D a n]]))
    (hx : vars "absorbing" = some (.ref o)) (hy : vars "length" = some (.u32 n)) (ho : h[o]? = some (arrObj a)) (hn : n < a.length) :
    Exp.run c ⟨vars, h⟩ (.index (.call "hash" [.var "absorbing", .bin .add (.bin .mul (.var "length") (.num 32)) (.num 1)]) (.num 0)) =
      if n * 32 + 1 < 2 ^ 32 then some (⟨vars, h ++ [arrObj [hashMem c.D a (n * 32 + 1)]]⟩, [.word (hashMem c.D a (n * 32 + 1))]) else none := by
  have hl : Exp.run c ⟨vars, h⟩ (.bin .add (.bin .mul (.var "length") (.num 32)) (.num 1)) =
      if n * 32 + 1 < 2 ^ 32 then some (⟨vars, h⟩, [.u32 (n * 32 + 1)]) else none := by
    rw [Exp.run, Exp.run, run_var hy]
    simp only [Option.bind_eq_bind, Option.bind_some, run_num, oneV, binOp, u32Op]
    by_cases h1 : n * 32 < 2 ^ 32
    · by_cases h2 : n * 32 + 1 < 2 ^ 32
      · simp only [if_pos h1, if_pos h2, Option.bind_some, Option.pure_def]
      · omega
    · simp only [if_neg h1, if_neg (show ¬ n * 32 + 1 < 2 ^ 32 by omega), Option.bind_none]
  rw [Exp.run, Exp.run, runAll, run_var hx]
  simp only [Option.bind_eq_bind, Option.bind_some]
  rw [runAll, hl]
  by_cases h2 : n * 32 + 1 < 2 ^ 32
  · simp only [if_pos h2, Option.bind_some, Option.bind_eq_bind]
    rw [runAll]
    have : applyFn c "hash" [.ref o, .u32 (n * 32 + 1)] h = some ([.ref h.length], h ++ [arrObj [hashMem c.D a (n * 32 + 1)]]) := by
      rw [← hf h o (n * 32 + 1) a ho (by omega) h2]
      simp [applyFn]
    simp only [Option.bind_some, oneV, Option.pure_def, this, run_num, V.toNat]
    have hr : readAt (h ++ [arrObj [hashMem c.D a (n * 32 + 1)]]) (.ref h.length) 0 = some (.word (hashMem c.D a (n * 32 + 1))) := by
      rw [show h.length = h.length + 0 from rfl, readAt, get_app]
      rfl
    simp only [hr, Option.bind_some]
  · rw [if_neg h2, if_neg h2]
    rfl

/-- `squeeze_challenge`: verifier.sol:304-310. -/
theorem squeezeChallenge_text (hf : ∀ (h : Heap) o n a, h[o]? = some (arrObj a) → n ≤ 32 * a.length → n < 2 ^ 32 →
      c.fns "hash" [.ref o, .u32 n] h = some ([.ref h.length], h ++ [arrObj [hashMem c.D a n]]))
    (ht : ∀ r h, c.fns "to_scalar" [.word r] h = some ([.word (toScalar r)], h)) {o n : ℕ} {a : List Word} (ho : h[o]? = some (arrObj a)) :
    ∃ g, squeezeChallengeFn.run c [.ref o, .u32 n] h = (squeezeChallenge c.D a n).map fun r => ([.word r.2], h.set o (arrObj r.1) ++ g) := by
  have h0 : lit 0 = some 0#256 := lit_small (by norm_num)
  cases h1 : store a n 0 with
  | none =>
    refine ⟨[], ?_⟩
    rw [squeezeChallenge, h1]
    refine run_none rfl rfl ?_
    dsimp only [squeezeChallengeFn, S.put]
    rw [step_put (w := 0) (by vars) (by vars) (run_num _ _) ho h0, h1]
    rfl
  | some a1 =>
    have hl := store_length h1
    have hq := store_pos h1
    by_cases hn : n * 32 + 1 < 2 ^ 32
    · have h2 : store a1 0 (hashMem c.D a1 (n * 32 + 1)) = some (a1.set 0 (hashMem c.D a1 (n * 32 + 1))) := if_pos (by omega)
      refine ⟨[arrObj [hashMem c.D a1 (n * 32 + 1)]], ?_⟩
      rw [squeezeChallenge, h1]
      simp only [Option.bind_eq_bind, Option.bind_some, if_pos hn, h2]
      refine run_next (s'' := ⟨?_, _⟩) rfl rfl ?_ ?_
      rotate_left
      · dsimp only [squeezeChallengeFn, S.put]
        rw [step_put (w := 0) (by vars) (by vars) (run_num _ _) ho h0, h1, Option.bind_some]
        rw [step_init (v := .word (hashMem c.D a1 (n * 32 + 1))) (w := .word (hashMem c.D a1 (n * 32 + 1)))
          (by rw [run_hash (n := n) (o := o) hf (by vars) (by vars) (get_set ho) (by omega), if_pos hn]) rfl]
        rw [step_assign (v := .word (toScalar (hashMem c.D a1 (n * 32 + 1)))) (w := .word (toScalar (hashMem c.D a1 (n * 32 + 1))))
          (by rw [run_call1 (v := .word (hashMem c.D a1 (n * 32 + 1))) (by vars)]; simp [applyFn, ht]; rfl) (by vars) rfl]
        rw [step_put_num (h := h.set o (arrObj a1) ++ [arrObj [hashMem c.D a1 (n * 32 + 1)]]) (a := a1) (v := .word (hashMem c.D a1 (n * 32 + 1)))
          (w := hashMem c.D a1 (n * 32 + 1)) (by vars)
          (by rw [run_call1 (v := .word (hashMem c.D a1 (n * 32 + 1))) (by vars)]; simp [applyFn, V.toWord]) (get_left (get_set ho)) rfl, h2, Option.bind_some]
        rw [step_assign (w := .u32 1) (run_num _ _) (by vars) rfl, rest_nil, set_left (get_set ho), List.set_set]
      · simp only [squeezeChallengeFn, named]
        simp [Function.update_apply]
    · refine ⟨[], ?_⟩
      rw [squeezeChallenge, h1]
      simp only [Option.bind_eq_bind, Option.bind_some, if_neg hn]
      refine run_none rfl rfl ?_
      dsimp only [squeezeChallengeFn, S.put]
      rw [step_put (w := 0) (by vars) (by vars) (run_num _ _) ho h0, h1, Option.bind_some]
      exact step_init_none (by rw [run_hash (n := n) (o := o) hf (by vars) (by vars) (get_set ho) (by omega), if_neg hn])

end Verif.Sol.Template
