import Verif.Sol.TemplateHash

/-!
# Functions of the template: sums of products

As in `TemplateProps.lean`. The loops of `fr_mul_add_pm`, `fr_mul_add_mt` and `ecc_mul_add_pm`.
-/

namespace Verif.Sol.Template
open Verif.Sol Verif.Circuit

variable {c : Cx} {vars : String → Option V} {h g : Heap} {as : List Stmt}

/-! ### Steps -/

/-- The rounds of a loop of the text. -/
noncomputable def loopRounds (c : Cx) (e : Exp) (st : Stmt) (body : List Stmt) : ℕ → S → Option Out :=
  rounds (e.test c) (fun s => runBody c s body) (fun s => st.run c s)

theorem step_loop {init st : Stmt} {e : Exp} {body : List Stmt} {s s' : S} (hi : init.run c s = some (.next s')) :
    rest c (.loop init e st body :: as) s = Out.andThen (loopRounds c e st body c.fuel s') (rest c as) := by
  rw [rest_cons, Stmt.run, hi]
  rfl

theorem rounds_done {e : Exp} {st : Stmt} {body : List Stmt} {n : ℕ} {s : S} (he : e.test c s = some (s, false)) :
    loopRounds c e st body (n + 1) s = some (.next s) := by simp [loopRounds, rounds, he]

theorem rounds_next {e : Exp} {st : Stmt} {body : List Stmt} {n : ℕ} {s s' s'' : S} (he : e.test c s = some (s, true))
    (hb : rest c body s = some (.next s')) (hs : st.run c s' = some (.next s'')) :
    loopRounds c e st body (n + 1) s = loopRounds c e st body n s'' := by
  rw [rest] at hb
  simp [loopRounds, rounds, he, hb, hs]

theorem rounds_brk {e : Exp} {st : Stmt} {body : List Stmt} {n : ℕ} {s s' : S} (he : e.test c s = some (s, true))
    (hb : rest c body s = some (.brk s')) : loopRounds c e st body (n + 1) s = some (.next s') := by
  rw [rest] at hb
  simp [loopRounds, rounds, he, hb]

theorem rounds_none {e : Exp} {st : Stmt} {body : List Stmt} {n : ℕ} {s : S} (he : e.test c s = some (s, true))
    (hb : rest c body s = none) : loopRounds c e st body (n + 1) s = none := by
  rw [rest] at hb
  simp [loopRounds, rounds, he, hb]

/-- `x < k` -/
theorem test_lt {x : String} {i k : ℕ} (hx : vars x = some (.word (BitVec.ofNat 256 i))) (hi : i < 2 ^ 256) (hk : k < 2 ^ 256) :
    Exp.test c (.bin .lt (.var x) (.num k)) ⟨vars, h⟩ = some (⟨vars, h⟩, decide (i < k)) := by
  rw [Exp.test, run_bin (run_var hx) (run_num _ _) (by rw [bin_num hk, wordOp, lit_big hi, lit_big hk])]
  rfl

/-- `x += k` -/
theorem step_plus {x : String} {i k : ℕ} (hx : vars x = some (.word (BitVec.ofNat 256 i))) (hi : i + k < 2 ^ 256) :
    Stmt.run c ⟨vars, h⟩ (.assignOp .add x (.num k)) = some (.next ⟨Function.update vars x (some (.word (BitVec.ofNat 256 (i + k)))), h⟩) := by
  rw [Stmt.run, run_num]
  simp only [Option.bind_eq_bind, Option.bind_some, hx, oneV]
  rw [bin_num (by omega), wordOp, lit_big (by omega), lit_big (by omega), if_pos hi]
  simp [V.like, V.toWord, S.put, BitVec.ofNat_add]

/-- `x >>= k;` -/
theorem step_shr {x : String} {w : Word} {k : ℕ} (hx : vars x = some (.word w)) (hk : k < 2 ^ 256) :
    rest c (.assignOp .shr x (.num k) :: as) ⟨vars, h⟩ = rest c as ⟨Function.update vars x (some (.word (w >>> k))), h⟩ := by
  rw [rest_cons, Stmt.run, run_num]
  simp only [Option.bind_eq_bind, Option.bind_some, hx, oneV, shr_num hk]
  rfl

/-- `if (a != k) { t } else { f }` -/
theorem step_ne {x : String} {w : Word} {k : ℕ} {t f : List Stmt} (hx : vars x = some (.word w)) (hk : k < 2 ^ 256) :
    rest c (.ite (.bin .ne (.var x) (.num k)) t f :: as) ⟨vars, h⟩ =
      Out.andThen (if w ≠ BitVec.ofNat 256 k then rest c t ⟨vars, h⟩ else rest c f ⟨vars, h⟩) (rest c as) := by
  rw [rest_cons, Stmt.run, Exp.test, run_bin (run_var hx) (run_num _ _) (by rw [bin_num hk, wordOp])]
  simp only [Option.bind_eq_bind, Option.bind_some, Option.pure_def, decide_eq_true_eq]
  rfl

/-- `x[y]` for an array of the input. -/
theorem run_data {x y : String} {l : List Word} {w : Word} (hx : vars x = some (.data l)) (hy : vars y = some (.word w)) :
    Exp.run c ⟨vars, h⟩ (.index (.var x) (.var y)) = l[w.toNat]?.map fun v => (⟨vars, h⟩, [.word v]) := by
  rw [Exp.run, run_var hx]
  simp only [Option.bind_eq_bind, Option.bind_some]
  rw [run_var hy]
  simp only [Option.bind_some, oneV, V.toNat, readAt]
  cases l[w.toNat]? <;> rfl

/-- `x[y + k]` for an array of the input. -/
theorem run_data_add {x y : String} {l : List Word} {w : Word} {k : ℕ} (hx : vars x = some (.data l)) (hy : vars y = some (.word w))
    (hk : w.toNat + k < 2 ^ 256) :
    Exp.run c ⟨vars, h⟩ (.index (.var x) (.bin .add (.var y) (.num k))) = l[w.toNat + k]?.map fun v => (⟨vars, h⟩, [.word v]) := by
  have hb : k < 2 ^ 256 := by omega
  have hw : (w + BitVec.ofNat 256 k).toNat = w.toNat + k := by
    rw [BitVec.toNat_add, lit_big hb, Nat.mod_eq_of_lt hk]
  rw [Exp.run, run_var hx]
  simp only [Option.bind_eq_bind, Option.bind_some]
  rw [run_bin (run_var hy) (run_num _ _) (by rw [bin_num hb, wordOp, lit_big hb, if_pos hk])]
  simp only [Option.bind_some, oneV, V.toNat, readAt, hw]
  cases l[w.toNat + k]? <;> rfl

/-- `x[y]` for an array in memory. -/
theorem run_arr {x y : String} {o : ℕ} {l : List Word} {w : Word} (hx : vars x = some (.ref o)) (ho : h[o]? = some (arrObj l))
    (hy : vars y = some (.word w)) : Exp.run c ⟨vars, h⟩ (.index (.var x) (.var y)) = l[w.toNat]?.map fun v => (⟨vars, h⟩, [.word v]) := by
  rw [Exp.run, run_var hx]
  simp only [Option.bind_eq_bind, Option.bind_some]
  rw [run_var hy]
  simp only [Option.bind_some, oneV, V.toNat, readAt, ho, arrObj, List.getElem?_map, Option.bind_eq_bind]
  cases l[w.toNat]? <;> rfl

theorem run_call3 {f : String} {s : S} {e₁ e₂ e₃ : Exp} {a b d : V} (h1 : Exp.run c s e₁ = some (s, [a])) (h2 : Exp.run c s e₂ = some (s, [b]))
    (h3 : Exp.run c s e₃ = some (s, [d])) {vs : List V} (hf : applyFn c f [a, b, d] s.heap = some (vs, s.heap)) :
    Exp.run c s (.call f [e₁, e₂, e₃]) = some (s, vs) := by
  rw [Exp.run, runAll, h1]
  simp only [Option.bind_eq_bind, Option.bind_some]
  rw [runAll, h2]
  simp only [Option.bind_eq_bind, Option.bind_some]
  rw [runAll, h3]
  simp only [Option.bind_eq_bind, Option.bind_some, runAll, oneV, Option.pure_def, hf]

theorem run_call_none {f : String} {s : S} {e : Exp} {es : List Exp} (h1 : Exp.run c s e = none) : Exp.run c s (.call f (e :: es)) = none := by
  rw [Exp.run, runAll, h1]
  rfl

theorem run_call_none2 {f : String} {s s' : S} {vs : List V} {e e' : Exp} {es : List Exp} (h1 : Exp.run c s e = some (s', vs)) (h2 : Exp.run c s' e' = none) :
    Exp.run c s (.call f (e :: e' :: es)) = none := by
  rw [Exp.run, runAll, h1]
  simp only [Option.bind_eq_bind, Option.bind_some]
  rw [runAll, h2]
  rfl

/-- Assigning what reverts. -/
theorem step_assign_none {l : List Exp} {e : Exp} {s : S} (he : Exp.run c s e = none) : rest c (.assign l e :: as) s = none := by
  rw [rest_cons, Stmt.run, he]
  rfl

theorem step_brk {s : S} : rest c (.brk :: as) s = some (.brk s) := by
  rw [rest_cons, Stmt.run]
  rfl

/-! ### `fr_mul_add_pm` -/

/-- The body of its loop: verifier.sol:87-96. -/
def pmBody : List Stmt := match frMulAddPmFn.body with
  | .loop _ _ _ body :: _ => body
  | _ => []

/-- Looking up a variable whose value is known. -/
macro "look" : tactic => `(tactic| simp [Function.update_apply, *])

theorem pm_brk {op : Word} (ho : vars "opcode" = some (.word op)) (ha : op &&& 255#256 = 255#256) :
    rest c pmBody ⟨vars, h⟩ = some (.brk ⟨Function.update vars "a" (some (.word (op &&& 255#256))), h⟩) := by
  dsimp only [pmBody, frMulAddPmFn]
  rw [step_init (v := .word (op &&& 255#256)) (run_bin (run_var ho) (run_num _ _) (bin_num (by norm_num))) rfl]
  rw [step_ne (w := op &&& 255#256) (by look) (by norm_num), if_neg (by simpa using ha), step_brk]
  rfl

/-- The variables after a round. -/
def pmVars (vars : String → Option V) (op t : Word) : String → Option V :=
  Function.update (Function.update (Function.update (Function.update (Function.update vars "a" (some (.word (op &&& 255#256)))) "opcode"
    (some (.word (op >>> 8)))) "b" (some (.word (op >>> 8 &&& 255#256)))) "opcode" (some (.word (op >>> 8 >>> 8)))) "t" (some (.word t))

theorem pm_next {op t p v : Word} {o : ℕ} {proof mem : List Word} (ho : vars "opcode" = some (.word op)) (ht : vars "t" = some (.word t))
    (hq : vars "q_mod" = none) (hp : vars "proof" = some (.data proof)) (hm : vars "m" = some (.ref o)) (hh : h[o]? = some (arrObj mem))
    (ha : op &&& 255#256 ≠ 255#256) (h1 : proof[(op &&& 255#256).toNat]? = some p) (h2 : mem[(op >>> 8 &&& 255#256).toNat]? = some v) :
    rest c pmBody ⟨vars, h⟩ = some (.next ⟨pmVars vars op (addmod (mulmod p v) t), h⟩) := by
  dsimp only [pmBody, frMulAddPmFn]
  rw [step_init (v := .word (op &&& 255#256)) (run_bin (run_var ho) (run_num _ _) (bin_num (by norm_num))) rfl]
  rw [step_ne (w := op &&& 255#256) (by look) (by norm_num), if_pos (by simpa using ha)]
  rw [step_shr (w := op) (by look) (by norm_num)]
  rw [step_init (v := .word (op >>> 8 &&& 255#256)) (run_bin (run_var (v := .word (op >>> 8)) (by look)) (run_num _ _) (bin_num (by norm_num))) rfl]
  rw [step_shr (w := op >>> 8) (by look) (by norm_num)]
  rw [step_assign (run_call3 (run_call3 (by rw [run_data (l := proof) (w := op &&& 255#256) (by look) (by look), h1]; rfl)
    (by rw [run_arr (l := mem) (o := o) (w := op >>> 8 &&& 255#256) (by look) hh (by look), h2]; rfl) (run_const (by look) rfl) (mulmod_text _ _ _ _))
    (run_var (v := .word t) (by look)) (run_const (by look) rfl) (addmod_text _ _ _ _)) (u := .word t) (by look) rfl]
  rw [rest_nil, andThen_next, rest_nil]
  rfl

theorem pm_none {op : Word} {o : ℕ} {proof mem : List Word} (ho : vars "opcode" = some (.word op))
    (hp : vars "proof" = some (.data proof)) (hm : vars "m" = some (.ref o)) (hh : h[o]? = some (arrObj mem))
    (ha : op &&& 255#256 ≠ 255#256) (h1 : proof[(op &&& 255#256).toNat]? = none ∨ mem[(op >>> 8 &&& 255#256).toNat]? = none) :
    rest c pmBody ⟨vars, h⟩ = none := by
  dsimp only [pmBody, frMulAddPmFn]
  rw [step_init (v := .word (op &&& 255#256)) (run_bin (run_var ho) (run_num _ _) (bin_num (by norm_num))) rfl]
  rw [step_ne (w := op &&& 255#256) (by look) (by norm_num), if_pos (by simpa using ha)]
  rw [step_shr (w := op) (by look) (by norm_num)]
  rw [step_init (v := .word (op >>> 8 &&& 255#256)) (run_bin (run_var (v := .word (op >>> 8)) (by look)) (run_num _ _) (bin_num (by norm_num))) rfl]
  rw [step_shr (w := op >>> 8) (by look) (by norm_num)]
  rw [step_assign_none, andThen_none]
  apply run_call_none
  cases h1' : proof[(op &&& 255#256).toNat]? with
  | none =>
    apply run_call_none
    rw [run_data (l := proof) (w := op &&& 255#256) (by look) (by look), h1']
    rfl
  | some p =>
    have h2 : mem[(op >>> 8 &&& 255#256).toNat]? = none := h1.resolve_left (by rw [h1']; simp)
    refine run_call_none2 (by rw [run_data (l := proof) (w := op &&& 255#256) (by look) (by look), h1']; rfl) ?_
    rw [run_arr (l := mem) (o := o) (w := op >>> 8 &&& 255#256) (by look) hh (by look), h2]
    rfl

theorem pm_step {E : Env} {st : St} {mem : List Word} (hE : ∀ i, E.load st i = mem[i]?) {n : ℕ} {op t : Word} (ha : op &&& 255#256 ≠ 255#256) :
    frMulAddPM E st (n + 1) op t = E.proof[(op &&& 255#256).toNat]?.bind fun p => mem[(op >>> 8 &&& 255#256).toNat]?.bind fun v =>
      frMulAddPM E st n (op >>> 8 >>> 8) (addmod (mulmod p v) t) := by
  rw [frMulAddPM]
  simp only [hE, if_pos ha]
  rfl

theorem pm_rounds {E : Env} {st : St} {o : ℕ} {mem : List Word} (hE : ∀ i, E.load st i = mem[i]?) (hh : h[o]? = some (arrObj mem)) :
    ∀ (n i fuel : ℕ) (op t : Word) (vars : String → Option V), i + 2 * n = 32 → n < fuel → vars "i" = some (.word (BitVec.ofNat 256 i)) →
      vars "opcode" = some (.word op) → vars "t" = some (.word t) → vars "q_mod" = none → vars "proof" = some (.data E.proof) →
      vars "m" = some (.ref o) →
      (frMulAddPM E st n op t = none →
        loopRounds c (.bin .lt (.var "i") (.num 32)) (.assignOp .add "i" (.num 2)) pmBody fuel ⟨vars, h⟩ = none) ∧
      ∀ r, frMulAddPM E st n op t = some r → ∃ vars',
        loopRounds c (.bin .lt (.var "i") (.num 32)) (.assignOp .add "i" (.num 2)) pmBody fuel ⟨vars, h⟩ = some (.next ⟨vars', h⟩) ∧
        vars' "t" = some (.word r)
  | 0, i, fuel, op, t, vars, hi, hf, vi, vo, vt, vq, vp, vm => by
    obtain ⟨fuel, rfl⟩ : ∃ k, fuel = k + 1 := ⟨fuel - 1, by omega⟩
    refine ⟨fun hr => by simp [frMulAddPM] at hr, fun r hr => ?_⟩
    refine ⟨vars, rounds_done ?_, by simpa [frMulAddPM, vt] using hr⟩
    rw [test_lt vi (by omega) (by norm_num), decide_eq_false (by omega)]
  | n + 1, i, fuel, op, t, vars, hi, hf, vi, vo, vt, vq, vp, vm => by
    obtain ⟨fuel, rfl⟩ : ∃ k, fuel = k + 1 := ⟨fuel - 1, by omega⟩
    have ht : Exp.test c (.bin .lt (.var "i") (.num 32)) ⟨vars, h⟩ = some (⟨vars, h⟩, true) := by
      rw [test_lt vi (by omega) (by norm_num), decide_eq_true (by omega)]
    by_cases ha : op &&& 255#256 = 255#256
    · refine ⟨fun hr => by simp [frMulAddPM, ha] at hr, fun r hr => ?_⟩
      refine ⟨_, rounds_brk ht (pm_brk vo ha), ?_⟩
      have : t = r := by simpa [frMulAddPM, ha] using hr
      simp [Function.update_apply, vt, this]
    · cases h1 : E.proof[(op &&& 255#256).toNat]? with
      | none =>
        have hn : frMulAddPM E st (n + 1) op t = none := by rw [pm_step hE ha, h1]; rfl
        refine ⟨fun _ => rounds_none ht (pm_none vo vp vm hh ha (.inl h1)), fun r hr => by simp [hn] at hr⟩
      | some p =>
        cases h2 : mem[(op >>> 8 &&& 255#256).toNat]? with
        | none =>
          have hn : frMulAddPM E st (n + 1) op t = none := by rw [pm_step hE ha, h1, h2]; rfl
          refine ⟨fun _ => rounds_none ht (pm_none vo vp vm hh ha (.inr h2)), fun r hr => by simp [hn] at hr⟩
        | some v =>
          have hn : frMulAddPM E st (n + 1) op t = frMulAddPM E st n (op >>> 8 >>> 8) (addmod (mulmod p v) t) := by
            rw [pm_step hE ha, h1, h2]
            rfl
          rw [hn, rounds_next ht (pm_next vo vt vq vp vm hh ha h1 h2) (step_plus (i := i) (by simp [pmVars, Function.update_apply, vi]) (by omega))]
          exact pm_rounds hE hh n (i + 2) fuel _ _ _ (by omega) (by omega) (by simp) (by simp [pmVars, Function.update_apply])
            (by simp [pmVars, Function.update_apply]) (by simp [pmVars, Function.update_apply, vq]) (by simp [pmVars, Function.update_apply, vp])
            (by simp [pmVars, Function.update_apply, vm])

/-- `return x;` -/
theorem ret_var {x : String} {v : V} (hx : vars x = some v) : rest c [.ret [.var x]] ⟨vars, h⟩ = some (.ret [v] h) :=
  step_ret (run_var hx)

/-- `uint256 i = 0` -/
theorem init_zero (c : Cx) (vars : String → Option V) (h : Heap) : Stmt.run c ⟨vars, h⟩ (.decl (.plain "uint256") "i" (some (.num 0))) =
    some (.next ⟨Function.update vars "i" (some (.word (BitVec.ofNat 256 0))), h⟩) := by
  have h0 : lit 0 = some 0#256 := lit_small (by norm_num)
  rw [Stmt.run, run_num]
  simp [oneV, V.coerce, V.toWord, h0, S.put]

/-- `fr_mul_add_pm`: verifier.sol:81-99. -/
theorem frMulAddPm_text {E : Env} {st : St} {o : ℕ} {mem : List Word} (hE : ∀ i, E.load st i = mem[i]?) (hh : h[o]? = some (arrObj mem))
    (hf : 16 < c.fuel) (op t : Word) :
    frMulAddPmFn.run c [.ref o, .data E.proof, .word op, .word t] h = (frMulAddPM E st 16 op t).map fun r => ([.word r], h) := by
  have hr := pm_rounds (c := c) hE hh 16 0 c.fuel op t (vars := Function.update (Function.update (Function.update (Function.update
    (Function.update (fun _ => none) "m" (some (.ref o))) "proof" (some (.data E.proof))) "opcode" (some (.word op))) "t" (some (.word t))) "i"
    (some (.word (BitVec.ofNat 256 0)))) (by norm_num) hf (by look) (by look) (by look) (by look) (by look) (by look)
  cases hp : frMulAddPM E st 16 op t with
  | none =>
    refine run_none rfl rfl ?_
    dsimp only [frMulAddPmFn, S.put]
    rw [step_loop (init_zero _ _ _)]
    exact (congrArg (fun x => Out.andThen x _) (hr.1 hp)).trans rfl
  | some r =>
    obtain ⟨vars', h1, h2⟩ := hr.2 r hp
    refine run_ret (vs := [.word r]) rfl rfl ?_ rfl
    dsimp only [frMulAddPmFn, S.put]
    rw [step_loop (init_zero _ _ _)]
    exact (congrArg (fun x => Out.andThen x _) h1).trans (ret_var h2)

/-! ### `fr_mul_add_mt` -/

/-- The body of its loop: verifier.sol:107-115. -/
def mtBody : List Stmt := match frMulAddMtFn.body with
  | .loop _ _ _ body :: _ => body
  | _ => []

theorem mt_brk {op : Word} (ho : vars "opcode" = some (.word op)) (ha : op &&& 255#256 = 255#256) :
    rest c mtBody ⟨vars, h⟩ = some (.brk ⟨Function.update vars "a" (some (.word (op &&& 255#256))), h⟩) := by
  dsimp only [mtBody, frMulAddMtFn]
  rw [step_init (v := .word (op &&& 255#256)) (run_bin (run_var ho) (run_num _ _) (bin_num (by norm_num))) rfl]
  rw [step_ne (w := op &&& 255#256) (by look) (by norm_num), if_neg (by simpa using ha), step_brk]
  rfl

/-- The variables after a round. -/
def mtVars (vars : String → Option V) (op t : Word) : String → Option V :=
  Function.update (Function.update (Function.update vars "a" (some (.word (op &&& 255#256)))) "opcode" (some (.word (op >>> 8)))) "t" (some (.word t))

theorem mt_next {op t b v : Word} {o : ℕ} {mem : List Word} (ho : vars "opcode" = some (.word op)) (ht : vars "t" = some (.word t))
    (hq : vars "q_mod" = none) (hb : vars "base" = some (.word b)) (hm : vars "m" = some (.ref o)) (hh : h[o]? = some (arrObj mem))
    (ha : op &&& 255#256 ≠ 255#256) (h1 : mem[(op &&& 255#256).toNat]? = some v) :
    rest c mtBody ⟨vars, h⟩ = some (.next ⟨mtVars vars op (addmod (mulmod b t) v), h⟩) := by
  dsimp only [mtBody, frMulAddMtFn]
  rw [step_init (v := .word (op &&& 255#256)) (run_bin (run_var ho) (run_num _ _) (bin_num (by norm_num))) rfl]
  rw [step_ne (w := op &&& 255#256) (by look) (by norm_num), if_pos (by simpa using ha)]
  rw [step_shr (w := op) (by look) (by norm_num)]
  rw [step_assign (run_call3 (run_call3 (run_var (v := .word b) (by look)) (run_var (v := .word t) (by look)) (run_const (by look) rfl)
    (mulmod_text _ _ _ _)) (by rw [run_arr (l := mem) (o := o) (w := op &&& 255#256) (by look) hh (by look), h1]; rfl) (run_const (by look) rfl)
    (addmod_text _ _ _ _)) (u := .word t) (by look) rfl]
  rw [rest_nil, andThen_next, rest_nil]
  rfl

theorem mt_none {op t b : Word} {o : ℕ} {mem : List Word} (ho : vars "opcode" = some (.word op)) (ht : vars "t" = some (.word t))
    (hq : vars "q_mod" = none) (hb : vars "base" = some (.word b)) (hm : vars "m" = some (.ref o)) (hh : h[o]? = some (arrObj mem))
    (ha : op &&& 255#256 ≠ 255#256) (h1 : mem[(op &&& 255#256).toNat]? = none) : rest c mtBody ⟨vars, h⟩ = none := by
  dsimp only [mtBody, frMulAddMtFn]
  rw [step_init (v := .word (op &&& 255#256)) (run_bin (run_var ho) (run_num _ _) (bin_num (by norm_num))) rfl]
  rw [step_ne (w := op &&& 255#256) (by look) (by norm_num), if_pos (by simpa using ha)]
  rw [step_shr (w := op) (by look) (by norm_num)]
  rw [step_assign_none, andThen_none]
  refine run_call_none2 (run_call3 (run_var (v := .word b) (by look)) (run_var (v := .word t) (by look)) (run_const (by look) rfl)
    (mulmod_text _ _ _ _)) ?_
  rw [run_arr (l := mem) (o := o) (w := op &&& 255#256) (by look) hh (by look), h1]
  rfl

theorem mt_step {E : Env} {st : St} {mem : List Word} (hE : ∀ i, E.load st i = mem[i]?) {n : ℕ} {b op t : Word} (ha : op &&& 255#256 ≠ 255#256) :
    frMulAddMT E st b (n + 1) op t = mem[(op &&& 255#256).toNat]?.bind fun v => frMulAddMT E st b n (op >>> 8) (addmod (mulmod b t) v) := by
  rw [frMulAddMT]
  simp only [hE, if_pos ha]
  rfl

theorem mt_rounds {E : Env} {st : St} {o : ℕ} {mem : List Word} {b : Word} (hE : ∀ i, E.load st i = mem[i]?) (hh : h[o]? = some (arrObj mem)) :
    ∀ (n i fuel : ℕ) (op t : Word) (vars : String → Option V), i + n = 32 → n < fuel → vars "i" = some (.word (BitVec.ofNat 256 i)) →
      vars "opcode" = some (.word op) → vars "t" = some (.word t) → vars "q_mod" = none → vars "base" = some (.word b) →
      vars "m" = some (.ref o) →
      (frMulAddMT E st b n op t = none →
        loopRounds c (.bin .lt (.var "i") (.num 32)) (.assignOp .add "i" (.num 1)) mtBody fuel ⟨vars, h⟩ = none) ∧
      ∀ r, frMulAddMT E st b n op t = some r → ∃ vars',
        loopRounds c (.bin .lt (.var "i") (.num 32)) (.assignOp .add "i" (.num 1)) mtBody fuel ⟨vars, h⟩ = some (.next ⟨vars', h⟩) ∧
        vars' "t" = some (.word r)
  | 0, i, fuel, op, t, vars, hi, hf, vi, vo, vt, vq, vb, vm => by
    obtain ⟨fuel, rfl⟩ : ∃ k, fuel = k + 1 := ⟨fuel - 1, by omega⟩
    refine ⟨fun hr => by simp [frMulAddMT] at hr, fun r hr => ?_⟩
    refine ⟨vars, rounds_done ?_, by simpa [frMulAddMT, vt] using hr⟩
    rw [test_lt vi (by omega) (by norm_num), decide_eq_false (by omega)]
  | n + 1, i, fuel, op, t, vars, hi, hf, vi, vo, vt, vq, vb, vm => by
    obtain ⟨fuel, rfl⟩ : ∃ k, fuel = k + 1 := ⟨fuel - 1, by omega⟩
    have ht : Exp.test c (.bin .lt (.var "i") (.num 32)) ⟨vars, h⟩ = some (⟨vars, h⟩, true) := by
      rw [test_lt vi (by omega) (by norm_num), decide_eq_true (by omega)]
    by_cases ha : op &&& 255#256 = 255#256
    · refine ⟨fun hr => by simp [frMulAddMT, ha] at hr, fun r hr => ?_⟩
      refine ⟨_, rounds_brk ht (mt_brk vo ha), ?_⟩
      have : t = r := by simpa [frMulAddMT, ha] using hr
      simp [Function.update_apply, vt, this]
    · cases h1 : mem[(op &&& 255#256).toNat]? with
      | none =>
        have hn : frMulAddMT E st b (n + 1) op t = none := by rw [mt_step hE ha, h1]; rfl
        refine ⟨fun _ => rounds_none ht (mt_none vo vt vq vb vm hh ha h1), fun r hr => by simp [hn] at hr⟩
      | some v =>
        have hn : frMulAddMT E st b (n + 1) op t = frMulAddMT E st b n (op >>> 8) (addmod (mulmod b t) v) := by
          rw [mt_step hE ha, h1]
          rfl
        rw [hn, rounds_next ht (mt_next vo vt vq vb vm hh ha h1) (step_plus (i := i) (by simp [mtVars, Function.update_apply, vi]) (by omega))]
        exact mt_rounds hE hh n (i + 1) fuel _ _ _ (by omega) (by omega) (by simp) (by simp [mtVars, Function.update_apply])
          (by simp [mtVars, Function.update_apply]) (by simp [mtVars, Function.update_apply, vq]) (by simp [mtVars, Function.update_apply, vb])
          (by simp [mtVars, Function.update_apply, vm])

/-- `fr_mul_add_mt`: verifier.sol:101-118. -/
theorem frMulAddMt_text {E : Env} {st : St} {o : ℕ} {mem : List Word} (hE : ∀ i, E.load st i = mem[i]?) (hh : h[o]? = some (arrObj mem))
    (hf : 32 < c.fuel) (b op t : Word) :
    frMulAddMtFn.run c [.ref o, .word b, .word op, .word t] h = (frMulAddMT E st b 32 op t).map fun r => ([.word r], h) := by
  have hr := mt_rounds (c := c) (b := b) hE hh 32 0 c.fuel op t (vars := Function.update (Function.update (Function.update (Function.update
    (Function.update (fun _ => none) "m" (some (.ref o))) "base" (some (.word b))) "opcode" (some (.word op))) "t" (some (.word t))) "i"
    (some (.word (BitVec.ofNat 256 0)))) (by norm_num) hf (by look) (by look) (by look) (by look) (by look) (by look)
  cases hp : frMulAddMT E st b 32 op t with
  | none =>
    refine run_none rfl rfl ?_
    dsimp only [frMulAddMtFn, S.put]
    rw [step_loop (init_zero _ _ _)]
    exact (congrArg (fun x => Out.andThen x _) (hr.1 hp)).trans rfl
  | some r =>
    obtain ⟨vars', h1, h2⟩ := hr.2 r hp
    refine run_ret (vs := [.word r]) rfl rfl ?_ rfl
    dsimp only [frMulAddMtFn, S.put]
    rw [step_loop (init_zero _ _ _)]
    exact (congrArg (fun x => Out.andThen x _) h1).trans (ret_var h2)

/-! ### `ecc_mul_add_pm` -/

/-- The body of its loop: verifier.sol:261-272. -/
def eccBody : List Stmt := match eccMulAddPmFn.body with
  | _ :: _ :: _ :: .loop _ _ _ body :: _ => body
  | _ => []

theorem ecc_brk {op : Word} (ho : vars "opcode" = some (.word op)) (ha : op &&& 255#256 = 255#256) :
    rest c eccBody ⟨vars, h⟩ = some (.brk ⟨Function.update vars "a" (some (.word (op &&& 255#256))), h⟩) := by
  dsimp only [eccBody, eccMulAddPmFn]
  rw [step_init (v := .word (op &&& 255#256)) (run_bin (run_var ho) (run_num _ _) (bin_num (by norm_num))) rfl]
  rw [step_ne (w := op &&& 255#256) (by look) (by norm_num), if_neg (by simpa using ha), step_brk]
  rfl

/-- The variables after a round. -/
def eccVars (vars : String → Option V) (op : Word) : String → Option V :=
  Function.update (Function.update (Function.update (Function.update vars "a" (some (.word (op &&& 255#256)))) "opcode"
    (some (.word (op >>> 8)))) "b" (some (.word (op >>> 8 &&& 255#256)))) "opcode" (some (.word (op >>> 8 >>> 8)))

/-- The array of five words. -/
def five (a b d x y : Word) : Heap := [⟨false, [.w a, .w b, .w d, .w x, .w y]⟩]

theorem and_small (op : Word) : (op &&& 255#256).toNat + 1 < 2 ^ 256 := by
  rw [BitVec.toNat_and]
  have : op.toNat &&& (255#256).toNat ≤ (255#256).toNat := Nat.and_le_right
  have h2 : (255#256).toNat = 255 := rfl
  omega

theorem ecc_round (hi : MulAddText (c.fns "_ecc_mul_add")) {op a b d x y : Word} {o : ℕ} {proof mem : List Word}
    (ho : vars "opcode" = some (.word op)) (hn : vars "input" = some (.ref (h.length + 0))) (hp : vars "proof" = some (.data proof))
    (hm : vars "m" = some (.ref o)) (hh : h[o]? = some (arrObj mem)) (ha : op &&& 255#256 ≠ 255#256) :
    match proof[(op &&& 255#256).toNat]?.bind fun px => proof[(op &&& 255#256).toNat + 1]?.bind fun py =>
      mem[(op >>> 8 &&& 255#256).toNat]?.bind fun v => eccMulAdd px py v x y with
    | none => rest c eccBody ⟨vars, h ++ five a b d x y⟩ = none
    | some r => ∃ a' b' d', rest c eccBody ⟨vars, h ++ five a b d x y⟩ = some (.next ⟨eccVars vars op, h ++ five a' b' d' r.1 r.2⟩) := by
  have hc : ∀ o h, applyFn c "_ecc_mul_add" [.ref o] h = c.fns "_ecc_mul_add" [.ref o] h := fun o h => by simp [applyFn]
  have hs : ∀ (P : Option Out → Prop), P (Out.andThen (rest c [.assign [.index (.var "input") (.num 0)] (.index (.var "proof") (.var "a")),
      .assign [.index (.var "input") (.num 1)] (.index (.var "proof") (.bin .add (.var "a") (.num 1))),
      .assign [.index (.var "input") (.num 2)] (.index (.var "m") (.var "b")), .exp (.call "_ecc_mul_add" [.var "input"])]
      ⟨eccVars vars op, h ++ five a b d x y⟩) (rest c [])) → P (rest c eccBody ⟨vars, h ++ five a b d x y⟩) := by
    intro P
    dsimp only [eccBody, eccMulAddPmFn]
    rw [step_init (v := .word (op &&& 255#256)) (run_bin (run_var ho) (run_num _ _) (bin_num (by norm_num))) rfl]
    rw [step_ne (w := op &&& 255#256) (by look) (by norm_num), if_pos (by simpa using ha)]
    rw [step_shr (w := op) (by look) (by norm_num)]
    rw [step_init (v := .word (op >>> 8 &&& 255#256)) (run_bin (run_var (v := .word (op >>> 8)) (by look)) (run_num _ _) (bin_num (by norm_num))) rfl]
    rw [step_shr (w := op >>> 8) (by look) (by norm_num)]
    exact id
  have vp : eccVars vars op "proof" = some (.data proof) := by simp [eccVars, Function.update_apply, hp]
  have va : eccVars vars op "a" = some (.word (op &&& 255#256)) := by simp [eccVars, Function.update_apply]
  have vb : eccVars vars op "b" = some (.word (op >>> 8 &&& 255#256)) := by simp [eccVars, Function.update_apply]
  have vm : eccVars vars op "m" = some (.ref o) := by simp [eccVars, Function.update_apply, hm]
  have vi : eccVars vars op "input" = some (.ref (h.length + 0)) := by simp [eccVars, Function.update_apply, hn]
  cases h1 : proof[(op &&& 255#256).toNat]? with
  | none =>
    refine hs (· = none) ?_
    rw [step_assign_none (by rw [run_data vp va, h1]; rfl)]
    rfl
  | some px =>
    cases h2 : proof[(op &&& 255#256).toNat + 1]? with
    | none =>
      refine hs (· = none) ?_
      rw [step_set (k := 0) (w := px) vi (by rw [run_data vp va, h1]; rfl) rfl rfl rfl]
      rw [step_assign_none (by rw [run_data_add vp va (and_small op), h2]; rfl)]
      rfl
    | some py =>
      cases h3 : mem[(op >>> 8 &&& 255#256).toNat]? with
      | none =>
        refine hs (· = none) ?_
        rw [step_set (k := 0) (w := px) vi (by rw [run_data vp va, h1]; rfl) rfl rfl rfl]
        rw [step_set (k := 0) (w := py) vi (by rw [run_data_add vp va (and_small op), h2]; rfl) rfl rfl rfl]
        rw [step_assign_none (by rw [run_arr vm (get_left hh) vb, h3]; rfl)]
        rfl
      | some v =>
        obtain ⟨m1, m2⟩ := hi px py v x y (h ++ five px py v x y) (h.length + 0) (by rw [get_app]; rfl)
        simp only [Option.bind_some]
        cases h4 : eccMulAdd px py v x y with
        | none =>
          refine hs (· = none) ?_
          rw [step_set (k := 0) (w := px) vi (by rw [run_data vp va, h1]; rfl) rfl rfl rfl]
          rw [step_set (k := 0) (w := py) vi (by rw [run_data_add vp va (and_small op), h2]; rfl) rfl rfl rfl]
          rw [step_set (k := 0) (w := v) vi (by rw [run_arr vm (get_left hh) vb, h3]; rfl) rfl rfl rfl]
          rw [step_exp_none (by rw [run_call1 vi, hc]; exact congrArg (Option.map _) (m1 h4))]
          rfl
        | some r =>
          obtain ⟨u, w, hu⟩ := m2 r h4
          rw [set_app] at hu
          refine ⟨px, u, w, hs (· = _) ?_⟩
          rw [step_set (k := 0) (w := px) vi (by rw [run_data vp va, h1]; rfl) rfl rfl rfl]
          rw [step_set (k := 0) (w := py) vi (by rw [run_data_add vp va (and_small op), h2]; rfl) rfl rfl rfl]
          rw [step_set (k := 0) (w := v) vi (by rw [run_arr vm (get_left hh) vb, h3]; rfl) rfl rfl rfl]
          rw [step_exp (vs := []) (s' := ⟨_, h ++ five px u w r.1 r.2⟩) (by rw [run_call1 vi, hc]; exact congrArg (Option.map _) hu)]
          rw [rest_nil, andThen_next, rest_nil]

theorem ecc_step {E : Env} {st : St} {mem : List Word} (hE : ∀ i, E.load st i = mem[i]?) {n : ℕ} {op x y : Word} (ha : op &&& 255#256 ≠ 255#256) :
    eccMulAddPM E st (n + 1) op x y = (E.proof[(op &&& 255#256).toNat]?.bind fun px => E.proof[(op &&& 255#256).toNat + 1]?.bind fun py =>
      mem[(op >>> 8 &&& 255#256).toNat]?.bind fun v => eccMulAdd px py v x y).bind fun r => eccMulAddPM E st n (op >>> 8 >>> 8) r.1 r.2 := by
  rw [eccMulAddPM]
  simp only [hE, if_pos ha, Option.bind_assoc]
  rfl

theorem ecc_rounds (hc : MulAddText (c.fns "_ecc_mul_add")) {E : Env} {st : St} {o : ℕ} {mem : List Word} (hE : ∀ i, E.load st i = mem[i]?)
    (hh : h[o]? = some (arrObj mem)) :
    ∀ (n i fuel : ℕ) (op a b d x y : Word) (vars : String → Option V), i + 2 * n = 32 → n < fuel → vars "i" = some (.word (BitVec.ofNat 256 i)) →
      vars "opcode" = some (.word op) → vars "input" = some (.ref (h.length + 0)) → vars "proof" = some (.data E.proof) →
      vars "m" = some (.ref o) →
      (eccMulAddPM E st n op x y = none →
        loopRounds c (.bin .lt (.var "i") (.num 32)) (.assignOp .add "i" (.num 2)) eccBody fuel ⟨vars, h ++ five a b d x y⟩ = none) ∧
      ∀ r, eccMulAddPM E st n op x y = some r → ∃ vars' a' b' d',
        loopRounds c (.bin .lt (.var "i") (.num 32)) (.assignOp .add "i" (.num 2)) eccBody fuel ⟨vars, h ++ five a b d x y⟩ =
          some (.next ⟨vars', h ++ five a' b' d' r.1 r.2⟩) ∧ vars' "input" = some (.ref (h.length + 0))
  | 0, i, fuel, op, a, b, d, x, y, vars, hi, hf, vi, vo, vn, vp, vm => by
    obtain ⟨fuel, rfl⟩ : ∃ k, fuel = k + 1 := ⟨fuel - 1, by omega⟩
    refine ⟨fun hr => by simp [eccMulAddPM] at hr, fun r hr => ?_⟩
    obtain rfl : (x, y) = r := by simpa [eccMulAddPM] using hr
    refine ⟨vars, a, b, d, rounds_done ?_, vn⟩
    rw [test_lt vi (by omega) (by norm_num), decide_eq_false (by omega)]
  | n + 1, i, fuel, op, a, b, d, x, y, vars, hi, hf, vi, vo, vn, vp, vm => by
    obtain ⟨fuel, rfl⟩ : ∃ k, fuel = k + 1 := ⟨fuel - 1, by omega⟩
    have ht : Exp.test c (.bin .lt (.var "i") (.num 32)) ⟨vars, h ++ five a b d x y⟩ = some (⟨vars, h ++ five a b d x y⟩, true) := by
      rw [test_lt vi (by omega) (by norm_num), decide_eq_true (by omega)]
    by_cases ha : op &&& 255#256 = 255#256
    · refine ⟨fun hr => by simp [eccMulAddPM, ha] at hr, fun r hr => ?_⟩
      obtain rfl : (x, y) = r := by simpa [eccMulAddPM, ha] using hr
      exact ⟨_, a, b, d, rounds_brk ht (ecc_brk vo ha), by simp [Function.update_apply, vn]⟩
    · have hr := ecc_round hc (a := a) (b := b) (d := d) (x := x) (y := y) vo vn vp vm hh ha
      rw [ecc_step hE ha]
      generalize (E.proof[(op &&& 255#256).toNat]?.bind fun px => E.proof[(op &&& 255#256).toNat + 1]?.bind fun py =>
        mem[(op >>> 8 &&& 255#256).toNat]?.bind fun v => eccMulAdd px py v x y) = z at hr ⊢
      cases z with
      | none => exact ⟨fun _ => rounds_none ht hr, fun r hr => by simp at hr⟩
      | some r =>
        obtain ⟨a', b', d', hb⟩ := hr
        rw [Option.bind_some, rounds_next ht hb (step_plus (i := i) (by simp [eccVars, Function.update_apply, vi]) (by omega))]
        exact ecc_rounds hc hE hh n (i + 2) fuel _ _ _ _ _ _ _ (by omega) (by omega) (by simp) (by simp [eccVars, Function.update_apply])
          (by simp [eccVars, Function.update_apply, vn]) (by simp [eccVars, Function.update_apply, vp])
          (by simp [eccVars, Function.update_apply, vm])

/-- `ecc_mul_add_pm`: verifier.sol:250-276. -/
theorem eccMulAddPm_text (hc : MulAddText (c.fns "_ecc_mul_add")) {E : Env} {st : St} {o : ℕ} {mem : List Word} (hE : ∀ i, E.load st i = mem[i]?)
    (hh : h[o]? = some (arrObj mem)) (hf : 16 < c.fuel) (op x y : Word) :
    ∃ g, eccMulAddPmFn.run c [.ref o, .data E.proof, .word op, .word x, .word y] h =
      (eccMulAddPM E st 16 op x y).map fun r => (words r, h ++ g) := by
  have hr := ecc_rounds hc hE hh 16 0 c.fuel op 0 0 0 x y (vars := Function.update (Function.update (Function.update (Function.update (Function.update
    (Function.update (Function.update (fun _ => none) "m" (some (.ref o))) "proof" (some (.data E.proof))) "opcode" (some (.word op))) "t0"
    (some (.word x))) "t1" (some (.word y))) "input" (some (.ref h.length))) "i"
    (some (.word (BitVec.ofNat 256 0)))) (by norm_num) hf (by look) (by look) (by look) (by look) (by look)
  cases hp : eccMulAddPM E st 16 op x y with
  | none =>
    refine ⟨[], run_none rfl rfl ?_⟩
    dsimp only [eccMulAddPmFn, S.put]
    rw [step_array]
    rw [step_set (k := 0) (w := x) (by vars) (run_var (v := .word x) (by vars)) rfl rfl rfl]
    rw [step_set (k := 0) (w := y) (by vars) (run_var (v := .word y) (by vars)) rfl rfl rfl]
    rw [step_loop (init_zero _ _ _)]
    exact (congrArg (fun x => Out.andThen x _) (hr.1 hp)).trans rfl
  | some r =>
    obtain ⟨vars', a, b, d, h1, h2⟩ := hr.2 r hp
    refine ⟨five a b d r.1 r.2, ?_⟩
    refine run_ret (vs := words r) rfl rfl ?_ rfl
    dsimp only [eccMulAddPmFn, S.put]
    rw [step_array]
    rw [step_set (k := 0) (w := x) (by vars) (run_var (v := .word x) (by vars)) rfl rfl rfl]
    rw [step_set (k := 0) (w := y) (by vars) (run_var (v := .word y) (by vars)) rfl rfl rfl]
    rw [step_loop (init_zero _ _ _)]
    refine (congrArg (fun x => Out.andThen x _) h1).trans ?_
    rw [andThen_next, step_ret2 (run_index (k := 0) (g := five a b d r.1 r.2) h2 rfl rfl) (run_index (k := 0) (g := five a b d r.1 r.2) h2 rfl rfl)]
    rfl

end Verif.Sol.Template
