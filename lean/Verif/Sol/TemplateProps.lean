import Verif.Sol.TemplateRun

/-!
# The functions of the template compute what the model of the contract says
-/

namespace Verif.Sol.Template
open Verif.Sol

theorem qMod_ne : qMod ≠ 0#256 := by decide +kernel

theorem qMod_toNat : qMod.toNat = frMod := by decide +kernel

/-! ### One statement after the other -/

/-- The statements that are left. -/
noncomputable def rest (c : Cx) (as : List Stmt) (s : S) : Option Out := runBody c s as

theorem runBody_cons (c : Cx) (s : S) (a : Stmt) (as : List Stmt) : runBody c s (a :: as) = Out.andThen (a.run c s) (rest c as) := by
  rw [runBody]
  rfl

theorem rest_nil (c : Cx) (s : S) : rest c [] s = some (.next s) := by rw [rest, runBody]

theorem rest_cons (c : Cx) (s : S) (a : Stmt) (as : List Stmt) : rest c (a :: as) s = Out.andThen (a.run c s) (rest c as) := runBody_cons c s a as

theorem andThen_next (s : S) (k : S → Option Out) : Out.andThen (some (.next s)) k = k s := rfl
theorem andThen_ret (vs : List V) (h : Heap) (k : S → Option Out) : Out.andThen (some (.ret vs h)) k = some (.ret vs h) := rfl
theorem andThen_brk (s : S) (k : S → Option Out) : Out.andThen (some (.brk s)) k = some (.brk s) := rfl
theorem andThen_none (k : S → Option Out) : Out.andThen none k = none := rfl

/-! ### Memory -/

theorem get_app (h g : Heap) (k : ℕ) : (h ++ g)[h.length + k]? = g[k]? := by
  rw [List.getElem?_append_right (by omega), Nat.add_sub_cancel_left]

theorem get_app0 (h g : Heap) : (h ++ g)[h.length]? = g[0]? := get_app h g 0

theorem set_app (h g : Heap) (k : ℕ) (o : Obj) : (h ++ g).set (h.length + k) o = h ++ g.set k o := by
  rw [List.set_append_right _ _ (by omega), Nat.add_sub_cancel_left]

theorem set_app0 (h g : Heap) (o : Obj) : (h ++ g).set h.length o = h ++ g.set 0 o := set_app h g 0 o

theorem mulmod_text (c : Cx) (a b : Word) (h : Heap) : applyFn c "mulmod" [.word a, .word b, .word qMod] h = some ([.word (mulmod a b)], h) := by
  simp [applyFn, V.toWord, qMod_ne, qMod_toNat, mulmod]

theorem addmod_text (c : Cx) (a b : Word) (h : Heap) : applyFn c "addmod" [.word a, .word b, .word qMod] h = some ([.word (addmod a b)], h) := by
  simp [applyFn, V.toWord, qMod_ne, qMod_toNat, addmod]

theorem lit_small {n : ℕ} (h : n < 2 ^ 256) : lit n = some (BitVec.ofNat 256 n) := if_pos h

/-- Execution of a function with known statements. -/
macro "run_text" "[" ls:Lean.Parser.Tactic.simpLemma,* "]" : tactic =>
  `(tactic| simp [Fn.run, bind, declare, runBody_cons, rest_cons, rest_nil, andThen_next, andThen_ret, andThen_brk, andThen_none, Stmt.run, runTuple, Exp.run,
    runAll, lookup, S.put, V.coerce, V.toWord, oneV, constant, mulmod_text, addmod_text, coerceAll, named, Function.update_apply, default, Size.val,
    Heap.new, zeros, assignAll, assignTo, writeAt, V.toNat, V.like, readAt, Cell.like, Cell.val, get_app, get_app0, set_app, set_app0, fieldPos,
    readField, binOp, wordOp, $ls,*])

theorem frMulAdd_text (c : Cx) (a b d : Word) (h : Heap) :
    frMulAddFn.run c [.word a, .word b, .word d] h = some ([.word (frMulAdd a b d)], h) := by
  run_text [frMulAddFn, frMulAdd]

/-! ### Steps -/

variable {c : Cx} {vars : String → Option V} {h g : Heap} {as : List Stmt}

theorem run_num (n : ℕ) (s : S) : Exp.run c s (.num n) = some (s, [.num n]) := by rw [Exp.run]

theorem run_var {s : S} {x : String} {v : V} (hx : s.vars x = some v) : Exp.run c s (.var x) = some (s, [v]) := by
  rw [Exp.run, lookup, hx]
  rfl

theorem run_const {s : S} {x : String} {v : V} (hx : s.vars x = none) (hc : constant x = some v) : Exp.run c s (.var x) = some (s, [v]) := by
  rw [Exp.run, lookup, hx, hc]
  rfl

/-- `t[n] memory x;` -/
theorem step_array (n : ℕ) (x : String) : rest c (.decl (.arr "uint256" (.num n)) x none :: as) ⟨vars, h⟩ =
    rest c as ⟨Function.update vars x (some (.ref h.length)), h ++ [⟨false, zeros n⟩]⟩ := by
  rw [rest_cons, Stmt.run]
  rfl

/-- `G1Point memory x;` -/
theorem step_point (x : String) : rest c (.decl (.plain "G1Point") x none :: as) ⟨vars, h⟩ =
    rest c as ⟨Function.update vars x (some (.ref h.length)), h ++ [⟨false, zeros 2⟩]⟩ := by
  rw [rest_cons, Stmt.run]
  rfl

/-- `bool x;` -/
theorem step_bool (x : String) : rest c (.decl (.plain "bool") x none :: as) ⟨vars, h⟩ =
    rest c as ⟨Function.update vars x (some (.bool false)), h⟩ := by
  rw [rest_cons, Stmt.run]
  rfl

/-- `t x = e;` -/
theorem step_init {t : TyExp} {x : String} {e : Exp} {h' : Heap} {v w : V} (he : Exp.run c ⟨vars, h⟩ e = some (⟨vars, h'⟩, [v]))
    (hv : v.coerce t = some w) : rest c (.decl t x (some e) :: as) ⟨vars, h⟩ = rest c as ⟨Function.update vars x (some w), h'⟩ := by
  rw [rest_cons, Stmt.run, he]
  simp only [Option.bind_eq_bind, Option.bind_some, oneV, hv]
  rfl

/-- `x[i] = e;` for an array made by this function. -/
theorem step_set {x : String} {k i : ℕ} {e : Exp} {v : V} {w : Word} {d : Bool} {cells : List Cell} {u : Word}
    (hx : vars x = some (.ref (h.length + k))) (he : Exp.run c ⟨vars, h ++ g⟩ e = some (⟨vars, h ++ g⟩, [v])) (hg : g[k]? = some ⟨d, cells⟩)
    (hc : cells[i]? = some (.w u)) (hv : v.toWord = some w) : rest c (.assign [.index (.var x) (.num i)] e :: as) ⟨vars, h ++ g⟩ =
    rest c as ⟨vars, h ++ g.set k ⟨d, cells.set i (.w w)⟩⟩ := by
  rw [rest_cons, Stmt.run, he]
  simp only [Option.bind_eq_bind, Option.bind_some, assignAll, assignTo]
  rw [run_var hx]
  simp only [Option.bind_eq_bind, Option.bind_some, run_num, oneV, V.toNat, writeAt, get_app, hg, hc, Cell.like, hv, Option.map_some, set_app]
  rfl

/-- `require(x);` -/
theorem step_require {x : String} (hx : vars x = some (.bool true)) :
    rest c (.exp (.call "require" [.var x]) :: as) ⟨vars, h⟩ = rest c as ⟨vars, h⟩ := by
  rw [rest_cons, Stmt.run, Exp.run, runAll, run_var hx]
  simp [runAll, oneV, applyFn, andThen_next, andThen_none]

theorem step_require_not {x : String} (hx : vars x = some (.bool false)) :
    rest c (.exp (.call "require" [.var x]) :: as) ⟨vars, h⟩ = none := by
  rw [rest_cons, Stmt.run, Exp.run, runAll, run_var hx]
  simp [runAll, oneV, applyFn, andThen_next, andThen_none]

/-- `x := staticcall(...)`. -/
theorem step_call {x : String} {z a b d e f : Exp} {a' b' d' e' f' : Asm} {s : S} (h1 : asmExp ⟨vars, h⟩ a = some a')
    (h2 : asmExp ⟨vars, h⟩ b = some b') (h3 : asmExp ⟨vars, h⟩ d = some d') (h4 : asmExp ⟨vars, h⟩ e = some e')
    (h5 : asmExp ⟨vars, h⟩ f = some f') (hs : staticcall c ⟨vars, h⟩ x a' b' d' e' f' = some s) :
    rest c (.staticcall x [z, a, b, d, e, f] :: as) ⟨vars, h⟩ = rest c as s := by
  rw [rest_cons, Stmt.run, h1, h2, h3, h4, h5]
  simp only [Option.bind_eq_bind, Option.bind_some, hs]
  rfl

theorem asm_ref {s : S} {x : String} {o : ℕ} (hx : s.vars x = some (.ref o)) : asmExp s (.var x) = some (.addr o 0) := by
  rw [asmExp, hx]
  rfl

theorem asm_add {s : S} {x : String} {o k j : ℕ} (hk : k = 32 * j) (hx : s.vars x = some (.ref o)) :
    asmExp s (.call "add" [.var x, .num k]) = some (.addr o (32 * j)) := by
  rw [asmExp, hx, hk]
  simp [asmVal]

/-- A call that succeeds, from and to objects made by this function. -/
theorem call_some {x : String} {k n m i j len outLen : ℕ} {src dst : Obj} {ws out : List Word} {cells : List Cell}
    (hn : g[n]? = some src) (hw : src.words = some ws) (hp : precompiled c.D c.p k (ws.drop i) len = some (some out)) (hm : g[m]? = some dst)
    (hd : dst.dyn = false) (ho : outLen = 32 * out.length) (hc : overwrite dst.cells j out = some cells) :
    staticcall c ⟨vars, h ++ g⟩ x (.n k) (.addr (h.length + n) (32 * i)) (.n len) (.addr (h.length + m) (32 * j)) (.n outLen) =
      some ⟨Function.update vars x (some (.bool true)), h ++ g.set m ⟨false, cells⟩⟩ := by
  subst ho
  simp [staticcall, get_app, hn, hw, hp, hm, hd, hc, set_app, S.put]

/-- A call that fails. -/
theorem call_none {x : String} {k n m i j len outLen : ℕ} {src : Obj} {ws : List Word}
    (hn : g[n]? = some src) (hw : src.words = some ws) (hp : precompiled c.D c.p k (ws.drop i) len = some none) :
    staticcall c ⟨vars, h ++ g⟩ x (.n k) (.addr (h.length + n) (32 * i)) (.n len) (.addr (h.length + m) (32 * j)) (.n outLen) =
      some ⟨Function.update vars x (some (.bool false)), h ++ g⟩ := by
  simp [staticcall, get_app, hn, hw, hp, S.put]

/-- A function that returns. -/
theorem run_ret {f : Fn} {args vs ws : List V} {s s' : S} {h' : Heap} (hb : bind f.params args ⟨fun _ => none, h⟩ = some s)
    (hd : declare c.fill f.rets s = some s') (hr : rest c f.body s' = some (.ret vs h')) (hv : coerceAll f.rets vs = some ws) :
    f.run c args h = some (ws, h') := by
  rw [rest] at hr
  simp [Fn.run, hb, hd, hr, hv]

/-- A function that reverts. -/
theorem run_none {f : Fn} {args : List V} {s s' : S} (hb : bind f.params args ⟨fun _ => none, h⟩ = some s)
    (hd : declare c.fill f.rets s = some s') (hr : rest c f.body s' = none) : f.run c args h = none := by
  rw [rest] at hr
  simp [Fn.run, hb, hd, hr]

/-- `return e;` -/
theorem step_ret {e : Exp} {h' : Heap} {vars' : String → Option V} {vs : List V} (he : Exp.run c ⟨vars, h⟩ e = some (⟨vars', h'⟩, vs)) :
    rest c [.ret [e]] ⟨vars, h⟩ = some (.ret vs h') := by
  rw [rest_cons, Stmt.run, runTuple, he]
  rfl

/-- `x[i]` for an array made by this function. -/
theorem run_index {x : String} {k i : ℕ} {d : Bool} {cells : List Cell} {u : Cell} (hx : vars x = some (.ref (h.length + k)))
    (hg : g[k]? = some ⟨d, cells⟩) (hc : cells[i]? = some u) :
    Exp.run c ⟨vars, h ++ g⟩ (.index (.var x) (.num i)) = some (⟨vars, h ++ g⟩, [u.val]) := by
  rw [Exp.run, run_var hx]
  simp only [Option.bind_eq_bind, Option.bind_some, run_num, oneV, V.toNat, readAt, get_app, hg, hc]
  rfl

theorem ref_zero (h : Heap) : V.ref h.length = V.ref (h.length + 0) := rfl

theorem lit_32 : lit 32 = some 32#256 := lit_small (by norm_num)

/-- Looking up a variable. -/
macro "vars" : tactic => `(tactic| (simp [Function.update_apply, S.put] <;> rfl))

theorem frPow_text (c : Cx) (a e : Word) (h : Heap) :
    ∃ g, frPowFn.run c [.word a, .word e] h = some ([.word (frPow a e)], h ++ g) := by
  apply Exists.intro
  refine run_ret (vs := [.word (frPow a e)]) rfl rfl ?_ rfl
  dsimp only [frPowFn]
  rw [step_array, step_array, step_bool]
  rw [List.append_assoc, List.singleton_append, List.length_append]
  rw [step_set (k := 0) (by vars) (run_num _ _) rfl rfl lit_32]
  rw [step_set (k := 0) (by vars) (run_num _ _) rfl rfl lit_32]
  rw [step_set (k := 0) (by vars) (run_num _ _) rfl rfl lit_32]
  rw [step_set (k := 0) (by vars) (run_var (by vars)) rfl rfl rfl]
  rw [step_set (k := 0) (by vars) (run_var (by vars)) rfl rfl rfl]
  rw [step_set (k := 0) (by vars) (run_const (by vars) rfl) rfl rfl rfl]
  rw [step_call rfl (asm_ref (by vars)) rfl (asm_ref (by vars)) rfl
    (call_some (n := 0) (m := 1) (i := 0) (j := 0) rfl rfl (out := [frPow a e]) ?_ rfl rfl rfl rfl)]
  · rw [step_require (by vars)]
    apply step_ret
    rw [run_index (k := 1) (by vars) rfl rfl]
    rfl
  · simp [precompiled, modexp, qMod_ne, qMod_toNat, frPow]

/-- `fr_invert`: verifier.sol:43-45. -/
theorem frInvert_text (a : Word) (h : Heap)
    (hp : ∀ a e h, ∃ g, c.fns "fr_pow" [.word a, .word e] h = some ([.word (frPow a e)], h ++ g)) :
    ∃ g, frInvertFn.run c [.word a] h = (frInvert a).map fun r => ([.word r], h ++ g) := by
  have hs : subChecked qMod 2#256 = some (qMod - 2#256) := by decide +kernel
  have h2 : lit 2 = some 2#256 := lit_small (by norm_num)
  obtain ⟨g, hg⟩ := hp a (qMod - 2#256) h
  exact ⟨g, by run_text [frInvertFn, h2, hs, applyFn, hg, frInvert]⟩

/-- `fr_div`: verifier.sol:67-70. -/
theorem frDiv_text (a b : Word) (h : Heap)
    (hi : ∀ a h, ∃ g, c.fns "fr_invert" [.word a] h = (frInvert a).map fun r => ([.word r], h ++ g)) :
    ∃ g, frDivFn.run c [.word a, .word b] h = (frDiv a b).map fun r => ([.word r], h ++ g) := by
  have h0 : lit 0 = some 0#256 := lit_small (by norm_num)
  obtain ⟨g, hg⟩ := hi b h
  have hf : applyFn c "fr_invert" [.word b] h = c.fns "fr_invert" [.word b] h := by simp [applyFn]
  refine ⟨g, ?_⟩
  by_cases hb : b = 0#256
  · have : frDiv a b = none := if_pos hb
    rw [this]
    have hr : applyFn c "require" [.bool false] h = none := by simp [applyFn]
    run_text [frDivFn, h0, hb, hr]
  · have hr : applyFn c "require" [.bool true] h = some ([], h) := by simp [applyFn]
    have : frDiv a b = (frInvert b).map fun i => mulmod a i := if_neg hb
    rw [this]
    cases hv : frInvert b with
    | none =>
      rw [hv] at hg
      run_text [frDivFn, h0, hb, hr, hf, hg]
    | some v =>
      rw [hv] at hg
      run_text [frDivFn, h0, hb, hr, hf, hg]

/-- Assigning to a variable. -/
theorem step_assign {x : String} {e : Exp} {u v w : V} {h' : Heap} (he : Exp.run c ⟨vars, h⟩ e = some (⟨vars, h'⟩, [v]))
    (hx : vars x = some u) (hv : u.like v = some w) :
    rest c (.assign [.var x] e :: as) ⟨vars, h⟩ = rest c as ⟨Function.update vars x (some w), h'⟩ := by
  rw [rest_cons, Stmt.run, he]
  simp only [Option.bind_eq_bind, Option.bind_some, assignAll, assignTo, hx, hv]
  rfl

theorem run_bin {op : Op} {l r : Exp} {s s' s'' : S} {a b v : V} (h1 : Exp.run c s l = some (s', [a])) (h2 : Exp.run c s' r = some (s'', [b]))
    (hv : binOp op a b = some v) : Exp.run c s (.bin op l r) = some (s'', [v]) := by
  rw [Exp.run, h1]
  simp only [Option.bind_eq_bind, Option.bind_some, h2, oneV, hv]
  rfl

theorem bin_num {op : Op} {a : Word} {n : ℕ} (h : n < 2 ^ 256) : binOp op (.word a) (.num n) = wordOp op a (BitVec.ofNat 256 n) := by
  simp [binOp, V.toWord, lit_small h]

theorem bin_word (op : Op) (a b : Word) : binOp op (.word a) (.word b) = wordOp op a b := rfl

theorem shr_num {a : Word} {n : ℕ} (h : n < 2 ^ 256) : binOp .shr (.word a) (.num n) = some (.word (a >>> n)) := by
  rw [bin_num h, wordOp, BitVec.toNat_ofNat, Nat.mod_eq_of_lt h]

theorem shl_num {a : Word} {n : ℕ} (h : n < 2 ^ 256) : binOp .shl (.word a) (.num n) = some (.word (a <<< n)) := by
  rw [bin_num h, wordOp, BitVec.toNat_ofNat, Nat.mod_eq_of_lt h]

/-- `((v & a) >> k) | ((v & b) << k)` -/
theorem run_swap {x : String} {v : Word} {a b k : ℕ} (hx : vars x = some (.word v)) (ha : a < 2 ^ 256) (hb : b < 2 ^ 256) (hk : k < 2 ^ 256) :
    Exp.run c ⟨vars, h⟩ (.bin .or (.bin .shr (.bin .and (.var x) (.num a)) (.num k)) (.bin .shl (.bin .and (.var x) (.num b)) (.num k))) =
      some (⟨vars, h⟩, [.word (((v &&& BitVec.ofNat 256 a) >>> k) ||| ((v &&& BitVec.ofNat 256 b) <<< k))]) :=
  run_bin (run_bin (run_bin (run_var hx) (run_num _ _) (bin_num ha)) (run_num _ _) (shr_num hk))
    (run_bin (run_bin (run_var hx) (run_num _ _) (bin_num hb)) (run_num _ _) (shl_num hk)) rfl

/-- `(v >> k) | (v << k)` -/
theorem run_rotate {x : String} {v : Word} {k : ℕ} (hx : vars x = some (.word v)) (hk : k < 2 ^ 256) :
    Exp.run c ⟨vars, h⟩ (.bin .or (.bin .shr (.var x) (.num k)) (.bin .shl (.var x) (.num k))) =
      some (⟨vars, h⟩, [.word ((v >>> k) ||| (v <<< k))]) :=
  run_bin (run_bin (run_var hx) (run_num _ _) (shr_num hk)) (run_bin (run_var hx) (run_num _ _) (shl_num hk)) rfl

/-- A function that reaches its end. -/
theorem run_next {f : Fn} {args ws : List V} {s s' s'' : S} (hb : bind f.params args ⟨fun _ => none, h⟩ = some s)
    (hd : declare c.fill f.rets s = some s') (hr : rest c f.body s' = some (.next s'')) (hv : named s'' f.rets = some ws) :
    f.run c args h = some (ws, s''.heap) := by
  rw [rest] at hr
  simp [Fn.run, hb, hd, hr, hv]

/-- `fr_reverse`: verifier.sol:120-141. -/
theorem frReverse_text (v : Word) (h : Heap) : frReverseFn.run c [.word v] h = some ([.word (frReverse v)], h) := by
  refine run_next (s'' := ⟨?_, h⟩) rfl rfl ?_ ?_
  rotate_left
  · dsimp only [frReverseFn]
    rw [step_assign (run_var (by vars)) (by vars) rfl]
    rw [step_assign (run_swap (by vars) (by norm_num) (by norm_num) (by norm_num)) (by vars) rfl]
    rw [step_assign (run_swap (by vars) (by norm_num) (by norm_num) (by norm_num)) (by vars) rfl]
    rw [step_assign (run_swap (by vars) (by norm_num) (by norm_num) (by norm_num)) (by vars) rfl]
    rw [step_assign (run_swap (by vars) (by norm_num) (by norm_num) (by norm_num)) (by vars) rfl]
    rw [step_assign (run_rotate (by vars) (by norm_num)) (by vars) rfl, rest_nil]
    rfl
  · simp only [frReverseFn, named, Function.update_self]
    rfl

/-! ### Points -/

/-- `x.field` for a structure made by this function. -/
theorem run_field {x f : String} {k i : ℕ} {d : Bool} {cells : List Cell} {u : Cell} (hx : vars x = some (.ref (h.length + k)))
    (hf : fieldPos f = some i) (hl : f ≠ "length") (hg : g[k]? = some ⟨d, cells⟩) (hc : cells[i]? = some u) :
    Exp.run c ⟨vars, h ++ g⟩ (.field (.var x) f) = some (⟨vars, h ++ g⟩, [u.val]) := by
  rw [Exp.run, run_var hx]
  simp only [Option.bind_eq_bind, Option.bind_some, oneV]
  have : readField (h ++ g) (.ref (h.length + k)) f = some u.val := by
    unfold readField
    split
    · exact absurd rfl hl
    · next he => cases he
    · simp [hf, readAt, get_app, hg, hc]
  rw [this]
  rfl

/-- `return (a, b);` -/
theorem step_ret2 {a b : Exp} {u v : V} {s s' s'' : S} (h1 : Exp.run c s a = some (s', [u])) (h2 : Exp.run c s' b = some (s'', [v])) :
    rest c [.ret [a, b]] s = some (.ret [u, v] s''.heap) := by
  rw [rest_cons, Stmt.run, runTuple]
  · rw [runAll, h1]
    simp only [Option.bind_eq_bind, Option.bind_some]
    rw [runAll, h2]
    simp only [Option.bind_eq_bind, Option.bind_some]
    rw [runAll]
    rfl
  · simp

theorem eccAdd_eq (ax ay bx by' : Word) : eccAdd ax ay bx by' = none ∧ ecAdd [ax, ay, bx, by'] = none ∨
    ∃ r, eccAdd ax ay bx by' = some r ∧ ecAdd [ax, ay, bx, by'] = some [r.1, r.2] := by
  unfold eccAdd ecAdd
  cases hA : g1 ax ay <;> cases hB : g1 bx by' <;> simp [hA, hB]

theorem eccMul_eq (x y k : Word) : eccMul x y k = none ∧ ecMul [x, y, k] = none ∨ ∃ r, eccMul x y k = some r ∧ ecMul [x, y, k] = some [r.1, r.2] := by
  unfold eccMul ecMul
  cases hA : g1 x y <;> simp [hA]

/-- Two coordinates. -/
def words (r : Word × Word) : List V := [.word r.1, .word r.2]

/-- `ecc_add`: verifier.sol:165-185. -/
theorem eccAdd_text (ax ay bx by' : Word) (h : Heap) :
    ∃ g, eccAddFn.run c [.word ax, .word ay, .word bx, .word by'] h = (eccAdd ax ay bx by').map fun r => (words r, h ++ g) := by
  rcases eccAdd_eq ax ay bx by' with ⟨h1, h2⟩ | ⟨r, h1, h2⟩
  · refine ⟨[], ?_⟩
    rw [h1]
    refine run_none rfl rfl ?_
    dsimp only [eccAddFn]
    rw [step_init (run_const (by vars) rfl) rfl, step_point, step_array, List.append_assoc, List.singleton_append, List.length_append]
    rw [step_set (k := 1) (by vars) (run_var (by vars)) rfl rfl rfl]
    rw [step_set (k := 1) (by vars) (run_var (by vars)) rfl rfl rfl]
    rw [step_set (k := 1) (by vars) (run_var (by vars)) rfl rfl rfl]
    rw [step_set (k := 1) (by vars) (run_var (by vars)) rfl rfl rfl]
    rw [step_call rfl (asm_ref (by vars)) rfl (asm_ref (by vars)) rfl (call_none (n := 1) (m := 0) (i := 0) (j := 0) rfl rfl ?_)]
    · exact step_require_not (by vars)
    · simpa [precompiled] using h2
  · apply Exists.intro
    rw [h1]
    refine run_ret (vs := words r) rfl rfl ?_ rfl
    dsimp only [eccAddFn]
    rw [step_init (run_const (by vars) rfl) rfl, step_point, step_array, List.append_assoc, List.singleton_append, List.length_append]
    rw [step_set (k := 1) (by vars) (run_var (by vars)) rfl rfl rfl]
    rw [step_set (k := 1) (by vars) (run_var (by vars)) rfl rfl rfl]
    rw [step_set (k := 1) (by vars) (run_var (by vars)) rfl rfl rfl]
    rw [step_set (k := 1) (by vars) (run_var (by vars)) rfl rfl rfl]
    rw [step_call rfl (asm_ref (by vars)) rfl (asm_ref (by vars)) rfl
      (call_some (n := 1) (m := 0) (i := 0) (j := 0) rfl rfl (out := [r.1, r.2]) ?_ rfl rfl rfl rfl)]
    · rw [step_require (by vars), step_ret2 (run_field (k := 0) (by vars) rfl (by decide) rfl rfl)
        (run_field (k := 0) (by vars) rfl (by decide) rfl rfl)]
      rfl
    · simpa [precompiled] using h2

/-- `ecc_sub`: verifier.sol:187-193. -/
theorem eccSub_text (ax ay bx by' : Word) (h : Heap)
    (ha : ∀ ax ay bx by' h, ∃ g, c.fns "ecc_add" [.word ax, .word ay, .word bx, .word by'] h = (eccAdd ax ay bx by').map fun r => (words r, h ++ g)) :
    ∃ g, eccSubFn.run c [.word ax, .word ay, .word bx, .word by'] h = (eccSub ax ay bx by').map fun r => (words r, h ++ g) := by
  cases hs : subChecked pMod by' with
  | none => exact ⟨[], by run_text [eccSubFn, eccSub, hs]⟩
  | some y =>
    obtain ⟨g, hg⟩ := ha ax ay bx y h
    have hf : applyFn c "ecc_add" [.word ax, .word ay, .word bx, .word y] h = (eccAdd ax ay bx y).map fun r => (words r, h ++ g) := by
      rw [← hg]
      simp [applyFn]
    refine ⟨g, ?_⟩
    have he : eccSub ax ay bx by' = eccAdd ax ay bx y := by simp [eccSub, hs]
    rw [he]
    cases hr : eccAdd ax ay bx y with
    | none => run_text [eccSubFn, hs, hf, hr]
    | some r => run_text [eccSubFn, hs, hf, hr, words]

/-- `ecc_mul`: verifier.sol:195-214. -/
theorem eccMul_text (x y k : Word) (h : Heap) :
    ∃ g, eccMulFn.run c [.word x, .word y, .word k] h = (eccMul x y k).map fun r => (words r, h ++ g) := by
  rcases eccMul_eq x y k with ⟨h1, h2⟩ | ⟨r, h1, h2⟩
  · refine ⟨[], ?_⟩
    rw [h1]
    refine run_none rfl rfl ?_
    dsimp only [eccMulFn]
    rw [step_array, step_init (run_const (by vars) rfl) rfl, step_point, List.append_assoc, List.singleton_append, List.length_append]
    rw [step_set (k := 0) (by vars) (run_var (by vars)) rfl rfl rfl]
    rw [step_set (k := 0) (by vars) (run_var (by vars)) rfl rfl rfl]
    rw [step_set (k := 0) (by vars) (run_var (by vars)) rfl rfl rfl]
    rw [step_call rfl (asm_ref (by vars)) rfl (asm_ref (by vars)) rfl (call_none (n := 0) (m := 1) (i := 0) (j := 0) rfl rfl ?_)]
    · exact step_require_not (by vars)
    · simpa [precompiled] using h2
  · apply Exists.intro
    rw [h1]
    refine run_ret (vs := words r) rfl rfl ?_ rfl
    dsimp only [eccMulFn]
    rw [step_array, step_init (run_const (by vars) rfl) rfl, step_point, List.append_assoc, List.singleton_append, List.length_append]
    rw [step_set (k := 0) (by vars) (run_var (by vars)) rfl rfl rfl]
    rw [step_set (k := 0) (by vars) (run_var (by vars)) rfl rfl rfl]
    rw [step_set (k := 0) (by vars) (run_var (by vars)) rfl rfl rfl]
    rw [step_call rfl (asm_ref (by vars)) rfl (asm_ref (by vars)) rfl
      (call_some (n := 0) (m := 1) (i := 0) (j := 0) rfl rfl (out := [r.1, r.2]) ?_ rfl rfl rfl rfl)]
    · rw [step_require (by vars), step_ret2 (run_field (k := 1) (by vars) rfl (by decide) rfl rfl)
        (run_field (k := 1) (by vars) rfl (by decide) rfl rfl)]
      rfl
    · simpa [precompiled] using h2

/-- The objects before and after one of them. -/
theorem split_at {h : Heap} {o : ℕ} {obj : Obj} (ho : h[o]? = some obj) : ∃ h₁ h₂, h = h₁ ++ obj :: h₂ ∧ o = h₁.length := by
  obtain ⟨hl, hx⟩ := List.getElem?_eq_some_iff.1 ho
  refine ⟨h.take o, h.drop (o + 1), ?_, by simp; omega⟩
  rw [← hx, List.getElem_cons_drop, List.take_append_drop]

theorem set_mid (h₁ h₂ : Heap) (a b : Obj) : (h₁ ++ a :: h₂).set h₁.length b = h₁ ++ b :: h₂ := by
  rw [List.set_append_right _ _ le_rfl, Nat.sub_self]
  rfl

/-- `_ecc_mul_add`: verifier.sol:216-231. The result is left in the array. -/
def MulAddText (f : List V → Heap → Option (List V × Heap)) : Prop :=
  ∀ x y k qx qy (h : Heap) o, h[o]? = some ⟨false, [.w x, .w y, .w k, .w qx, .w qy]⟩ →
    (eccMulAdd x y k qx qy = none → f [.ref o] h = none) ∧
    ∀ r, eccMulAdd x y k qx qy = some r → ∃ u v, f [.ref o] h = some ([], h.set o ⟨false, [.w x, .w u, .w v, .w r.1, .w r.2]⟩)

theorem innerMulAdd_text : MulAddText (innerMulAddFn.run c) := by
  intro x y k qx qy h o ho
  obtain ⟨h₁, h₂, rfl, rfl⟩ := split_at ho
  rcases eccMul_eq x y k with ⟨h1, h2⟩ | ⟨r, h1, h2⟩
  · refine ⟨fun _ => ?_, fun r hr => ?_⟩
    · refine run_none rfl rfl ?_
      dsimp only [innerMulAddFn, S.put]
      rw [step_init (run_const (by vars) rfl) rfl]
      rw [step_call rfl (asm_ref (by vars)) rfl (asm_add (j := 1) rfl (by vars)) rfl (call_none (n := 0) (m := 0) (i := 0) (j := 1) rfl rfl ?_)]
      · exact step_require_not (by vars)
      · simpa [precompiled] using h2
    · simp [eccMulAdd, h1] at hr
  · have hm : eccMulAdd x y k qx qy = eccAdd r.1 r.2 qx qy := by simp [eccMulAdd, h1]
    rcases eccAdd_eq r.1 r.2 qx qy with ⟨h3, h4⟩ | ⟨r', h3, h4⟩
    · refine ⟨fun _ => ?_, fun r hr => ?_⟩
      · refine run_none rfl rfl ?_
        dsimp only [innerMulAddFn, S.put]
        rw [step_init (run_const (by vars) rfl) rfl]
        rw [step_call rfl (asm_ref (by vars)) rfl (asm_add (j := 1) rfl (by vars)) rfl
          (call_some (n := 0) (m := 0) (i := 0) (j := 1) rfl rfl (out := [r.1, r.2]) ?_ rfl rfl rfl rfl)]
        · rw [step_require (by vars)]
          rw [step_call rfl (asm_add (j := 1) rfl (by vars)) rfl (asm_add (j := 3) rfl (by vars)) rfl (call_none (n := 0) (m := 0) (i := 1) (j := 3) rfl rfl ?_)]
          · exact step_require_not (by vars)
          · simpa [precompiled] using h4
        · simpa [precompiled] using h2
      · rw [hm, h3] at hr
        cases hr
    · refine ⟨fun hr => ?_, fun r'' hr => ?_⟩
      · rw [hm, h3] at hr
        cases hr
      · rw [hm, h3] at hr
        cases hr
        refine ⟨r.1, r.2, ?_⟩
        rw [set_mid]
        refine run_next (s'' := ⟨?_, _⟩) rfl rfl ?_ rfl
        rotate_left
        · dsimp only [innerMulAddFn, S.put]
          rw [step_init (run_const (by vars) rfl) rfl]
          rw [step_call rfl (asm_ref (by vars)) rfl (asm_add (j := 1) rfl (by vars)) rfl
            (call_some (n := 0) (m := 0) (i := 0) (j := 1) rfl rfl (out := [r.1, r.2]) ?_ rfl rfl rfl rfl)]
          · rw [step_require (by vars)]
            rw [step_call rfl (asm_add (j := 1) rfl (by vars)) rfl (asm_add (j := 3) rfl (by vars)) rfl
              (call_some (n := 0) (m := 0) (i := 1) (j := 3) rfl rfl (out := [r'.1, r'.2]) ?_ rfl rfl rfl rfl)]
            · rw [step_require (by vars), rest_nil]
              rfl
            · simpa [precompiled] using h4
          · simpa [precompiled] using h2

end Verif.Sol.Template
