import Verif.Circuit.BaseProps
import Verif.Circuit.Shape
import Verif.Integer.ProgramComplete
import Verif.Integer.ProgramShape

/-!
# Properties C08 – C17, C53 – C55: the integer chip

`Sat tables ctx adv` says that the prover's advice matrix `adv` satisfies all gate rows, lookups and copy
constraints.  `residue adv a` is the element of the simulated field `W` that the four limb cells of `a` stand
for under `adv`; `Announced adv a` says that the limbs obey the bound announced by the overflow counter of
`a` and that a cached native cell is right (`Spec.lean`).
-/

set_option linter.unusedSimpArgs false

namespace Verif.Circuit

variable {ctx ctx' : Ctx N} {adv : Advice N}

/-! ### C08 -/

theorem C08_nonleading {n : N} {r : AV N} (h : assignNonleadingLimb n ctx = some (r, ctx'))
    (hs : Sat tables ctx' adv) : lv adv r < 2 ^ 68 := ((Spec.assignNonleadingLimb n).run _ _ _ h _ hs).2

theorem C08_n_floor {n : N} {r : AV N} (h : assignNFloorLeadingLimb n ctx = some (r, ctx'))
    (hs : Sat tables ctx' adv) : lv adv r < 2 ^ 49 := ((Spec.assignNFloorLeadingLimb n).run _ _ _ h _ hs).2

theorem C08_d_leading {n : N} {r : AV N} (h : assignDLeadingLimb n ctx = some (r, ctx'))
    (hs : Sat tables ctx' adv) : lv adv r < 2 ^ 67 := ((Spec.assignDLeadingLimb n).run _ _ _ h _ hs).2

theorem C08_assign_w {v : W} {r : AInt} (h : assignW v ctx = some (r, ctx')) (hs : Sat tables ctx' adv) :
    lv adv (r.limbs 0) < 2 ^ 68 ∧ lv adv (r.limbs 1) < 2 ^ 68 ∧ lv adv (r.limbs 2) < 2 ^ 68 ∧
      lv adv (r.limbs 3) < 2 ^ 50 ∧ limbsVal adv r.limbs < 2 ^ 254 := by
  obtain ⟨-, hb, -, -⟩ := (Spec.assignW v).run _ _ _ h _ hs
  refine ⟨?_, ?_, ?_, ?_, limbsVal_lt_one hb⟩
  · simpa using hb.b0
  · simpa using hb.b1
  · simpa using hb.b2
  · simpa using hb.b3

/-- The quotient of a multiplication: an integer below `2^271`. -/
theorem C08_assign_d {v : ℕ} {r : Fin 4 → AV N} (h : assignD v ctx = some (r, ctx')) (hs : Sat tables ctx' adv) :
    limbsVal adv r < 2 ^ 271 := by
  obtain ⟨-, h0, h1, h2, h3⟩ := (Spec.assignD v).run _ _ _ h _ hs
  unfold limbsVal
  omega

/-- `assign_w` yields an integer that is what its bookkeeping says. -/
theorem C08_assign_w_announced {v : W} {r : AInt} (h : assignW v ctx = some (r, ctx'))
    (hs : Sat tables ctx' adv) : Announced adv r ∧ r.overflows = 0 := by
  obtain ⟨-, hb, ho, hn⟩ := (Spec.assignW v).run _ _ _ h _ hs
  exact ⟨.of_bd1 ho hb (natOk_none hn), ho⟩

/-- Constants are exact. -/
theorem C08_assign_constant {v : W} {r : AInt} (h : iassignConstant v ctx = some (r, ctx'))
    (hs : Sat tables ctx' adv) : limbsVal adv r.limbs = v.val ∧ Announced adv r ∧ r.overflows = 0 := by
  obtain ⟨-, hv, hb, ho, hn⟩ := (Spec.iassignConstant (t := tables) v).run _ _ _ h _ hs
  exact ⟨hv, .of_bd1 ho hb (natOk_none hn), ho⟩

/-! ### C09 -/

theorem Announced.bd64 {a : AInt} (ha : Announced adv a) : Bd 64 adv a.limbs :=
  ha.bound.mono (by have := ha.counter; omega)

theorem C09_reduce {a r : AInt} (h : Circuit.reduce a ctx = some (r, ctx')) (hs : Sat tables ctx' adv)
    (ha : Announced adv a) :
    residue adv r = residue adv a ∧ Bd 1 adv r.limbs ∧ r.overflows = 0 ∧ Announced adv r := by
  obtain ⟨hr, ho⟩ := ((Spec.reduce a).run _ _ _ h _ hs).2 64 (by norm_num) ha.bd64 ha.native
  have hb : r.overflows = 0 ∧ Bd 1 adv r.limbs := by
    rcases ho with ⟨h0, rfl⟩ | ⟨-, -, h1, h2⟩
    · have := ha.bound
      rw [h0] at this
      exact ⟨h0, this⟩
    · exact ⟨h1, h2⟩
  exact ⟨residue_eq_iff.2 hr.1, hb.2, hb.1, .of_bd1 hb.1 hb.2 hr.2⟩

/-! ### C10 -/

theorem Announced.of_or {a : AInt} {k : ℕ} (hn : NatOk adv a)
    (h : k < 32 ∧ a.overflows = k ∧ Bd (k + 1) adv a.limbs ∨ a.overflows = 0 ∧ Bd 1 adv a.limbs) :
    Announced adv a := (IntOk.of_or hn rfl h).1

theorem C10_add {a b r : AInt} (h : iadd a b ctx = some (r, ctx')) (hs : Sat tables ctx' adv)
    (ha : Announced adv a) (hb : Announced adv b) :
    residue adv r = residue adv a + residue adv b ∧ Announced adv r := by
  obtain ⟨h1, h2, h3⟩ := ((Spec.iadd a b).run _ _ _ h _ hs).2 _ _
    (by have := ha.counter; have := hb.counter; omega) ha.bound hb.bound
  refine ⟨by rw [residue_eq h1, Nat.cast_add]; rfl, .of_or h2 (h3.imp (fun h => ⟨h.1, h.2.1, h.2.2.mono ?_⟩) id)⟩
  omega

theorem C10_sub {a b r : AInt} (h : isub a b ctx = some (r, ctx')) (hs : Sat tables ctx' adv)
    (ha : Announced adv a) (hb : Announced adv b) :
    residue adv r = residue adv a - residue adv b ∧ Announced adv r := by
  obtain ⟨h1, h2, h3⟩ := ((Spec.isub a b).run _ _ _ h _ hs).2 _
    (by have := ha.counter; have := hb.counter; omega) hb.counter ha.bound hb.bound
  refine ⟨?_, .of_or h2 (h3.imp (fun h => ⟨h.1, h.2.1, h.2.2.mono ?_⟩) id)⟩
  · have := modEq_cast h1
    rw [Nat.cast_add] at this
    exact eq_sub_of_add_eq this
  · omega

theorem C10_neg {a r : AInt} (h : ineg a ctx = some (r, ctx')) (hs : Sat tables ctx' adv)
    (ha : Announced adv a) : residue adv r = -residue adv a ∧ Announced adv r := by
  obtain ⟨h1, h2, h3⟩ := ((Spec.ineg a).run _ _ _ h _ hs).2 ha.counter ha.bound
  refine ⟨?_, .of_or h2 h3⟩
  have := modEq_cast h1
  rw [Nat.cast_add, Nat.cast_zero] at this
  exact eq_neg_of_add_eq_zero_left this

/-! ### C11 -/

theorem Announced.same {a a' : AInt} (ha : Announced adv a) (hs : Same adv a a') :
    Announced adv a' ∧ SameInt a a' :=
  ⟨⟨by rw [hs.1, hs.2.1]; exact ha.bound, hs.2.2, by rw [hs.2.1]; exact ha.counter⟩, hs.1, hs.2.1⟩

/-- `p = (a * b, a, b)` after the call. -/
theorem C11_mul {a b : AInt} {p : AInt × AInt × AInt} (h : imul a b ctx = some (p, ctx'))
    (hs : Sat tables ctx' adv) (ha : Announced adv a) (hb : Announced adv b) :
    residue adv p.1 = residue adv a * residue adv b ∧ Bd 1 adv p.1.limbs ∧ p.1.overflows = 0 ∧
      Announced adv p.1 ∧ (Announced adv p.2.1 ∧ SameInt a p.2.1) ∧ (Announced adv p.2.2 ∧ SameInt b p.2.2) := by
  obtain ⟨h1, h2, h3, h4, h5, h6⟩ := ((Spec.imul a b).run _ _ _ h _ hs).2 _ _ le_rfl le_rfl ha.bd64 hb.bd64
    ha.native hb.native
  exact ⟨by rw [residue_eq h1, Nat.cast_mul]; rfl, h3, h2, .of_bd1 h2 h3 h4, ha.same h5, hb.same h6⟩

theorem C11_square {a : AInt} {p : AInt × AInt} (h : isquare a ctx = some (p, ctx'))
    (hs : Sat tables ctx' adv) (ha : Announced adv a) :
    residue adv p.1 = residue adv a ^ 2 ∧ Bd 1 adv p.1.limbs ∧ p.1.overflows = 0 ∧
      Announced adv p.1 ∧ (Announced adv p.2 ∧ SameInt a p.2) := by
  obtain ⟨h1, h2, h3, h4, h5⟩ := ((Spec.isquare a).run _ _ _ h _ hs).2 _ le_rfl ha.bd64 ha.native
  exact ⟨by rw [residue_eq h1, Nat.cast_mul, sq]; rfl, h3, h2, .of_bd1 h2 h3 h4, ha.same h5⟩

/-! ### C12 -/

theorem Announced.reduced {a r : AInt} (ha : Announced adv a) (hr : Reduced adv a r)
    (ho : a.overflows = 0 ∧ r.limbs = a.limbs ∧ r.overflows = 0
        ∨ 0 < a.overflows ∧ a.overflows < 64 ∧ r.overflows = 0 ∧ Bd 1 adv r.limbs) :
    Announced adv r ∧ Bd 1 adv r.limbs ∧ residue adv r = residue adv a := by
  have hb : Bd 1 adv r.limbs ∧ r.overflows = 0 := by
    rcases ho with ⟨p, q, s⟩ | ⟨-, -, p, q⟩
    · refine ⟨?_, s⟩
      have := ha.bound
      rwa [p, ← q] at this
    · exact ⟨q, p⟩
  exact ⟨.of_bd1 hb.2 hb.1 hr.2, hb.1, residue_eq_iff.2 hr.1⟩

open Classical in
/-- `p = (flag, c, a, b)` after the call. -/
theorem C12_div {a b : AInt} {p : AV N × AInt × AInt × AInt} (h : idiv a b ctx = some (p, ctx'))
    (hs : Sat tables ctx' adv) (ha : Announced adv a) (hb : Announced adv b) :
    p.1.val adv = (if residue adv b = 0 then 1 else 0) ∧
      (residue adv b ≠ 0 → residue adv p.2.1 = residue adv a / residue adv b) ∧
      Announced adv p.2.1 ∧ p.2.1.overflows = 0 ∧
      (Announced adv p.2.2.1 ∧ residue adv p.2.2.1 = residue adv a) ∧
      (Announced adv p.2.2.2 ∧ residue adv p.2.2.2 = residue adv b) := by
  obtain ⟨q1, q2, q3, q4, q5, q6, q7⟩ := ((Spec.idiv a b).run _ _ _ h _ hs).2 64 64 (by norm_num) le_rfl le_rfl
    ha.bd64 hb.bd64 ha.native hb.native
  obtain ⟨oa, -, ea⟩ := ha.reduced q4 q6
  obtain ⟨ob, b1, eb⟩ := hb.reduced q5 q7
  have hz : ZeroRep adv p.2.2.2.limbs ↔ residue adv b = 0 := by rw [zeroRep_iff b1, ← eb, residue_eq_zero]
  refine ⟨?_, ?_, .of_bd1 q3.1 q3.2.1 q3.2.2, q3.1, ⟨oa, ea⟩, ob, eb⟩
  · rw [q1]; exact if_congr hz rfl rfl
  · intro hne
    rw [if_neg (fun h => hne (hz.1 h))] at q2
    have := modEq_cast q2
    rw [Nat.cast_mul] at this
    rw [eq_div_iff hne, mul_comm, ← eb]
    exact this

/-! ### C13 -/

open Classical in
/-- `p = (flag, a)` after the call. -/
theorem C13_is_zero {a : AInt} {p : AV N × AInt} (h : iisZero a ctx = some (p, ctx'))
    (hs : Sat tables ctx' adv) (ha : Announced adv a) :
    p.1.val adv = (if residue adv a = 0 then 1 else 0) ∧ Announced adv p.2 ∧
      residue adv p.2 = residue adv a := by
  obtain ⟨q1, q2, q3⟩ := ((Spec.iisZero a).run _ _ _ h _ hs).2 64 (by norm_num) ha.bd64 ha.native
  obtain ⟨oa, b1, ea⟩ := ha.reduced q2 q3
  refine ⟨?_, oa, ea⟩
  rw [q1]
  exact if_congr (by rw [zeroRep_iff b1, ← ea, residue_eq_zero]) rfl rfl

open Classical in
theorem C13_is_equal {a b : AInt} {r : AV N} (h : iisEqual a b ctx = some (r, ctx'))
    (hs : Sat tables ctx' adv) (ha : Announced adv a) (hb : Announced adv b) :
    r.val adv = if residue adv a = residue adv b then 1 else 0 := by
  rw [((Spec.iisEqual a b).run _ _ _ h _ hs).2 64 (by norm_num) hb.counter ha.bd64 hb.bound]
  exact if_congr residue_eq_iff.symm rfl rfl

theorem C13_assert_equal {a b : AInt} (h : iassertEqual a b ctx = some ((), ctx'))
    (hs : Sat tables ctx' adv) (ha : Announced adv a) (hb : Announced adv b) :
    residue adv a = residue adv b :=
  residue_eq_iff.2
    (((Spec.iassertEqual a b).run _ _ _ h _ hs).2 64 (by norm_num) hb.counter ha.bd64 hb.bound)

/-- `bisec` on integers selects the residue and keeps the bookkeeping honest. -/
theorem C13_bisec {c : AV N} {a b r : AInt} {z : Bool} (h : ibisec c a b ctx = some (r, ctx'))
    (hs : Sat tables ctx' adv) (hc : c.val adv = if z then 1 else 0) (ha : Announced adv a)
    (hb : Announced adv b) : residue adv r = (if z then residue adv a else residue adv b) ∧ Announced adv r := by
  obtain ⟨-, r1, r0, ro, rn⟩ := (Spec.ibisec (t := tables) c a b).run _ _ _ h _ hs
  have l1 := ha.counter
  have l2 := hb.counter
  cases z with
  | true =>
    have e1 := r1 (by simpa using hc)
    refine ⟨?_, (ha.bound.congr e1).mono (by rw [ro]; omega), natOk_none rn, by rw [ro]; omega⟩
    simp only [if_true, residue]
    rw [limbsVal_congr e1]
  | false =>
    have e1 := r0 (by simpa using hc)
    refine ⟨?_, (hb.bound.congr e1).mono (by rw [ro]; omega), natOk_none rn, by rw [ro]; omega⟩
    simp only [Bool.false_eq_true, if_false, residue]
    rw [limbsVal_congr e1]

/-! ### C53: programs -/

/-- Whatever the witness, the integers and bits produced by a program stand for values allowed by the
meaning of the program over the simulated field, and all bookkeeping is honest. -/
theorem C53_programs_sound {ops : List IOp} {s : IState}
    (h : runIProg ops ⟨[], []⟩ ctx = some (s, ctx')) (hs : Sat tables ctx' adv) :
    ∃ e, IProgSem ops ⟨[], []⟩ e ∧ Stands adv s e :=
  ((Spec.iprog ops ⟨[], []⟩).run _ _ _ h _ hs).2 ⟨[], []⟩ ⟨.nil, .nil⟩

/-- The same from any state that already stands for values. -/
theorem C53_programs_sound_from {ops : List IOp} {s s' : IState} {e : IEnv}
    (h : runIProg ops s ctx = some (s', ctx')) (hs : Sat tables ctx' adv) (he : Stands adv s e) :
    ∃ e', IProgSem ops e e' ∧ Stands adv s' e' ∧ Sat tables ctx adv := by
  obtain ⟨h0, h1⟩ := (Spec.iprog ops s).run _ _ _ h _ hs
  obtain ⟨e', h2, h3⟩ := h1 e he
  exact ⟨e', h2, h3, h0⟩

/-! ### C16: completeness -/

theorem good_empty : Good tables (Ctx.empty : Ctx N) := by
  intro adv _
  exact ⟨by simp [Ctx.empty], by simp [Ctx.empty]⟩

theorem hstate_empty : HState (Ctx.empty : Ctx N) ⟨[], []⟩ ⟨[], []⟩ [] :=
  ⟨by simp, by simp, ⟨.nil, .nil⟩, rfl⟩

/-- Honest witnesses satisfy all rows and lookups, for every program whose assertions hold and that never
subtracts two integers whose counters are both 31; the run does not panic and yields the evaluated values. -/
theorem C16_programs_complete {ops : List IOp} {e : IEnv} {c : List ℕ}
    (he : evalIProg ops ⟨[], []⟩ = some e) (hc : countIProg ops [] = some c) :
    ∃ s ctx, runIProg ops ⟨[], []⟩ Ctx.empty = some (s, ctx) ∧ Sat tables ctx ctx.wit ∧
      Stands ctx.wit s e := by
  obtain ⟨s, ctx, h1, h2, -, h3⟩ := iprog_complete good_empty hstate_empty he hc
  exact ⟨s, ctx, h1, h2.sat, h3.stands⟩

/-- `assign_w` from any satisfied circuit. -/
theorem C16_assign_w (v : W) (hg : Good tables ctx) : ∃ r ctx', assignW v ctx = some (r, ctx') ∧
    Good tables ctx' ∧ limbsVal ctx'.wit r.limbs = v.val := by
  obtain ⟨r, c1, f, g, -, -, -, -, w⟩ := (CSpec.assignW v).run ctx hg trivial
  exact ⟨r, c1, f, g, w⟩

/-- `reduce` of any honest integer within its announced bound. -/
theorem C16_reduce {a : AInt} (hg : Good tables ctx) (ha : HInt ctx a) :
    ∃ r ctx', Circuit.reduce a ctx = some (r, ctx') ∧ Good tables ctx' ∧
      limbsVal ctx'.wit r.limbs = limbsVal ctx.wit a.limbs % fqMod := by
  obtain ⟨r, c1, f, g, x, -, -, k, m⟩ := (CSpec.reduceH a).run ctx hg ha
  refine ⟨r, c1, f, g, ?_⟩
  rw [limbsVal_ext ha.valid x] at m
  unfold Nat.ModEq at m
  rwa [Nat.mod_eq_of_lt k] at m

/-- `mul` of any honest integers within their announced bounds. -/
theorem C16_mul {a b : AInt} (hg : Good tables ctx) (ha : HInt ctx a) (hb : HInt ctx b) :
    ∃ p ctx', imul a b ctx = some (p, ctx') ∧ Good tables ctx' ∧
      residue ctx'.wit p.1 = residue ctx.wit a * residue ctx.wit b := by
  obtain ⟨p, c1, f, g, x, -⟩ := (CSpec.imul a b ha.ann.counter hb.ann.counter).run ctx hg
    ⟨ha.vint, ha.ann.bd64, hb.vint, hb.ann.bd64⟩
  refine ⟨p, c1, f, g, ?_⟩
  rw [(C11_mul f g.sat (ha.ext x).ann (hb.ext x).ann).1]
  unfold residue
  rw [limbsVal_ext ha.valid x, limbsVal_ext hb.valid x]

/-- The hypotheses are met by real computations: `(x * y - z) / y`, with the result checked against the
constant `x - z / y`. -/
example (x y z : W) (hy : y ≠ 0) : ∃ s ctx, runIProg [.assign x, .assign y, .mul 0 1, .assign z, .sub 2 3,
      .div 4 1, .constant (x - z / y), .assertEqual 5 6] ⟨[], []⟩ Ctx.empty = some (s, ctx) ∧
    Sat tables ctx ctx.wit ∧
    Stands ctx.wit s ⟨[x, y, x * y, z, x * y - z, (x * y - z) / y, x - z / y], [false]⟩ := by
  have e : (x * y - z) / y = x - z / y := by field_simp
  refine C16_programs_complete ?_ (c := [0, 0, 0, 0, 0, 0, 0]) ?_
  · simp [evalIProg, IOp.eval, hy, e]
  · simp [countIProg, IOp.count]

/-! ### C15: panics -/

/-- Doubling a freshly assigned integer five times and subtracting the result from itself. -/
def panicProgram (v : W) : List IOp := [.assign v, .add 0 0, .add 1 1, .add 2 2, .add 3 3, .add 4 4]

/-- C15 as stated is false: for every value, the chip accepts the additions and then panics in `sub`,
whose arguments are results of its own operations. -/
theorem C15_sub_panics (v : W) : (∃ s ctx, runIProg (panicProgram v) ⟨[], []⟩ Ctx.empty = some (s, ctx) ∧
      Sat tables ctx ctx.wit) ∧
    ∀ ctx, runIProg (panicProgram v ++ [.sub 5 5]) ⟨[], []⟩ ctx = none := by
  constructor
  · obtain ⟨s, ctx, h1, h2, -⟩ := C16_programs_complete (ops := panicProgram v)
      (e := ⟨[v, v + v, v + v + (v + v), v + v + (v + v) + (v + v + (v + v)), _, _], []⟩)
      (c := [0, 1, 3, 7, 15, 31]) (by simp [panicProgram, evalIProg, IOp.eval]; exact ⟨rfl, rfl⟩) (by rfl)
    exact ⟨s, ctx, h1, h2⟩
  · intro ctx
    cases hr : runIProg (panicProgram v ++ [.sub 5 5]) ⟨[], []⟩ ctx with
    | none => rfl
    | some q =>
      obtain ⟨s, ctx'⟩ := q
      simp only [panicProgram, List.cons_append, List.nil_append, runIProg, IOp.run, bind_run, pure_run] at hr
      obtain ⟨_, _, ⟨a0, _, h0, rfl, rfl⟩, _, _, ⟨_, _, -, a1, _, h1, rfl, rfl⟩, _, _,
        ⟨_, _, -, a2, _, h2, rfl, rfl⟩, _, _, ⟨_, _, -, a3, _, h3, rfl, rfl⟩, _, _,
        ⟨_, _, -, a4, _, h4, rfl, rfl⟩, _, _, ⟨_, _, -, a5, _, h5, rfl, rfl⟩, _, _,
        ⟨_, _, -, a6, _, h6, rfl, rfl⟩, -⟩ := hr
      simp only [IState.int, List.nil_append, List.cons_append, List.getD_cons_zero, List.getD_cons_succ] at *
      have e0 := assignW_ov h0
      have e1 := iadd_ov h1
      have e2 := iadd_ov h2
      have e3 := iadd_ov h3
      have e4 := iadd_ov h4
      have e5 := iadd_ov h5
      simp only [e0, e1, e2, e3, e4, Nat.reduceAdd, Nat.reduceLT, if_true] at *
      rw [isub_panics (by omega)] at h6
      exact absurd h6 (by simp)

/-- What remains true: no call panics, except a subtraction (or an equality test, which subtracts) of two
integers whose counters are both 31.  `count` is the public evolution of the counters. -/
theorem C15_no_panic_partial {ops : List IOp} {op : IOp} {e e' : IEnv} {c c' : List ℕ}
    (he : evalIProg ops ⟨[], []⟩ = some e) (hc : countIProg ops [] = some c)
    (he' : op.eval e = some e') (hc' : op.count c = some c') :
    ∃ s ctx s' ctx', runIProg ops ⟨[], []⟩ Ctx.empty = some (s, ctx) ∧ op.run s ctx = some (s', ctx') := by
  obtain ⟨s, ctx, h1, h2, -, h3⟩ := iprog_complete good_empty hstate_empty he hc
  obtain ⟨s', ctx', h4, -⟩ := iop_complete h2 h3 he' hc'
  exact ⟨s, ctx, s', ctx', h1, h4⟩

/-- Only `sub`, `is_equal` and `assert_equal` can be rejected by the counters. -/
theorem C15_only_subtractions_partial {op : IOp} {c : List ℕ} (h : op.count c = none) :
    ∃ i j, (op = .sub i j ∨ op = .isEqual i j ∨ op = .assertEqual i j) ∧ c.getD i 0 = 31 ∧ c.getD j 0 = 31 := by
  cases op <;> simp only [IOp.count, reduceCtorEq] at h
  case sub i j =>
    split at h
    · next hh => exact ⟨i, j, .inl rfl, hh⟩
    · cases h
  case isEqual i j =>
    split at h
    · next hh => exact ⟨i, j, .inr (.inl rfl), hh⟩
    · cases h
  case assertEqual i j =>
    split at h
    · next hh => exact ⟨i, j, .inr (.inr rfl), hh⟩
    · cases h

/-! ### C14: multiplication by a small constant -/

/-- The value is right, and the limbs are within `b` times the announced bound of the argument; the
returned counter announces only `overflows * b + 1` times the unit, which is less. -/
theorem C14_mul_small_constant_partial {a : AInt} {b : ℕ} {p : AInt × AInt} (hb : 0 < b)
    (h : imulSmallConstant a b ctx = some (p, ctx')) (hs : Sat tables ctx' adv) (ha : Announced adv a) :
    residue adv p.1 = b * residue adv a ∧ NatOk adv p.1 ∧ Bd ((a.overflows + 1) * b) adv p.1.limbs ∧
      residue adv p.2 = residue adv a ∧ Announced adv p.2 := by
  obtain ⟨h1, h2, h3, h4, h5⟩ := ((Spec.imulSmallConstant a b).run _ _ _ h _ hs).2 (a.overflows + 1) (by omega)
    (by have := ha.counter; omega) hb ha.bound ha.native
  refine ⟨by rw [residue_eq h1, Nat.cast_mul]; rfl, h2, ?_, residue_eq_iff.2 h3.1, ?_⟩
  · rcases h4 with ⟨-, -, h⟩ | ⟨-, h⟩
    · exact h
    · exact h.mono (Nat.mul_pos (by omega) hb)
  · rcases h5 with rfl | ⟨h, h'⟩
    · exact ha
    · exact .of_bd1 h h' h3.2

/-- Three times the largest field element. -/
def tripleMax : M N (AInt × AInt) := do
  let a ← assignW (-1)
  imulSmallConstant a 3

/-- C14 as stated is false: in the honest run on `w - 1` and the constant 3, the returned counter is 0 but
the leading limb is not below `2^50`. -/
theorem C14_bookkeeping_wrong : ∃ p ctx, tripleMax Ctx.empty = some (p, ctx) ∧ Sat tables ctx ctx.wit ∧
    p.1.overflows = 0 ∧ ¬ Bd (p.1.overflows + 1) ctx.wit p.1.limbs ∧ ¬ Announced ctx.wit p.1 := by
  obtain ⟨a, c1, f, g, x, y, o, n, w⟩ := (CSpec.assignW (-1)).run Ctx.empty good_empty trivial
  have hw : ((-1 : W)).val = fqMod - 1 := by decide +kernel
  rw [hw] at w
  obtain ⟨l0, l1, l2, l3, d0, d1, d2, d3, e0, e1, e2, e3, g3, x3, v3, s3⟩ :=
    sum4_run (f := fun i => [(a.limbs i, ((3 : ℕ) : N))]) (k := fun _ => 0) g (by simp [y.valid])
  have hrun : tripleMax Ctx.empty = some ((AInt.new (vec4 l0 l1 l2 l3) (a.overflows * 3), a), d3) := by
    unfold tripleMax imulSmallConstant
    rw [bind_some f, bind_some (assertM_run (by decide) _)]
    rw [if_neg (by rw [o]; decide)]
    have hp : (pure a : M N AInt) c1 = some (a, c1) := rfl
    rw [bind_some hp, bind_some e0, bind_some e1, bind_some e2, bind_some e3]
    have hp : conditionallyReduce (AInt.new (vec4 l0 l1 l2 l3) (a.overflows * 3)) d3 =
        some (AInt.new (vec4 l0 l1 l2 l3) (a.overflows * 3), d3) := by
      unfold conditionallyReduce
      rw [if_neg (by simp [AInt.new, o, overflowThreshold])]
      rfl
    rw [bind_some hp]
    rfl
  have hb : ¬ Bd 1 d3.wit (vec4 l0 l1 l2 l3) := by
    intro hb
    have hb3 := hb.b3
    have hlim := s3 3
    have ha := (y.ext x3).ann.bound
    rw [o] at ha
    have h3 := ha.b3
    obtain ⟨hl, -⟩ := small_limb (adv := d3.wit) (a := a.limbs 3) (c := vec4 l0 l1 l2 l3 3) (b := 3) (k := 1)
      (m := 2 ^ 50) (by norm_num) hlim h3 (by norm_num)
    rw [hl] at hb3
    have hv : limbsVal d3.wit a.limbs = fqMod - 1 := by rw [limbsVal_ext y.valid x3, w]
    unfold limbsVal at hv
    have hq : fqMod - 1 ≥ 2 ^ 253 + 2 ^ 252 := by decide +kernel
    have b0 := ha.b0
    have b1 := ha.b1
    have b2 := ha.b2
    omega
  refine ⟨_, _, hrun, g3.sat, by simp [AInt.new, o], ?_, ?_⟩
  · simpa [AInt.new, o] using hb
  · intro h
    apply hb
    simpa [AInt.new, o] using h.bound

/-! ### C17: parity -/

/-- `get_last_bit` returns the parity of the represented number. -/
theorem C17_get_last_bit_partial {a : AInt} {r : AV N} (h : getLastBit a ctx = some (r, ctx'))
    (hs : Sat tables ctx' adv) : r.val adv = ((limbsVal adv a.limbs % 2 : ℕ) : N) :=
  ((Spec.getLastBit a).run _ _ _ h _ hs).2

/-- Hence it is the parity of the canonical representative if the represented number is canonical. -/
theorem C17_canonical_partial {a : AInt} {r : AV N} (h : getLastBit a ctx = some (r, ctx'))
    (hs : Sat tables ctx' adv) (hc : limbsVal adv a.limbs < fqMod) :
    r.val adv = (((residue adv a).val % 2 : ℕ) : N) := by
  rw [C17_get_last_bit_partial h hs]
  unfold residue
  rw [ZMod.val_natCast, Nat.mod_eq_of_lt hc]

/-- What the code does with a coordinate: assign it, export its parity. -/
def exportParity (v : W) : M N (AInt × AV N) := do
  let a ← assignW v
  let b ← getLastBit a
  return (a, b)

/-- The same rows filled with other limbs. -/
def exportLimbs (x : ℕ) : M N (AInt × AV N) := do
  let l3 ← assignWCeilLeadingLimb (bnToLimbsN x 3)
  let l2 ← assignNonleadingLimb (bnToLimbsN x 2)
  let l1 ← assignNonleadingLimb (bnToLimbsN x 1)
  let l0 ← assignNonleadingLimb (bnToLimbsN x 0)
  let b ← getLastBit (AInt.new (vec4 l0 l1 l2 l3) 0)
  return (AInt.new (vec4 l0 l1 l2 l3) 0, b)

theorem rel_export (v : W) (x : ℕ) : Rel (exportParity v) (exportLimbs x)
    (fun p p' => SameCells p.1 p'.1 ∧ SameCell p.2 p'.2) := by
  unfold exportParity assignW exportLimbs
  simp only [bind_assoc, pure_bind]
  exact (Rel.assignWCeilLeadingLimb _ _).bind fun _ _ h3 => (Rel.assignNonleadingLimb _ _).bind fun _ _ h2 =>
    (Rel.assignNonleadingLimb _ _).bind fun _ _ h1 => (Rel.assignNonleadingLimb _ _).bind fun _ _ h0 =>
    (Rel.getLastBit (.new (same_vec4 h0 h1 h2 h3) rfl)).bind fun _ _ hb =>
    Rel.pure ⟨.new (same_vec4 h0 h1 h2 h3) rfl, hb⟩

theorem val_sameCell {a a' : AV N} (h : SameCell a a') (adv : Advice N) : a.val adv = a'.val adv := by
  unfold AV.val
  rw [show a.cell = a'.cell from h]

theorem exportLimbs_complete {x : ℕ} (hx : x < 2 ^ 254) : ∃ p ctx, exportLimbs x Ctx.empty = some (p, ctx) ∧
    Good tables ctx ∧ limbsVal ctx.wit p.1.limbs = x ∧ p.2.val ctx.wit = ((x % 2 : ℕ) : N) := by
  have hlt' : x < 2 ^ 272 := hx.trans (Nat.pow_lt_pow_right (by norm_num) (by norm_num))
  have hv := bnToLimbsN_val hlt'
  have hb : ∀ i, (bnToLimbsN x i).val < 2 ^ 68 := fun i => by rw [hv]; exact bnToLimbs_lt hlt'
  have h3 : (bnToLimbsN x 3).val < 2 ^ 50 := by
    rw [hv]
    simp only [bnToLimbs, limbWidth_eq, Nat.shiftRight_eq_div_pow]
    omega
  obtain ⟨l3, c3, e3, g3, x3, v3, w3⟩ := (CSpec.assignWCeilLeadingLimb _ h3).run Ctx.empty good_empty trivial
  obtain ⟨l2, c2, e2, g2, x2, v2, w2⟩ := (CSpec.assignNonleadingLimb _ (hb 2)).run c3 g3 trivial
  obtain ⟨l1, c1, e1, g1, x1, v1, w1⟩ := (CSpec.assignNonleadingLimb _ (hb 1)).run c2 g2 trivial
  obtain ⟨l0, c0, e0, g0, x0, v0, w0⟩ := (CSpec.assignNonleadingLimb _ (hb 0)).run c1 g1 trivial
  have hvalid : ∀ i, ValidAV c0 ((AInt.new (vec4 l0 l1 l2 l3) 0).limbs i) := by
    intro i
    fin_cases i
    · exact v0
    · exact v1.ext x0
    · exact v2.ext (x1.trans x0)
    · exact v3.ext (x2.trans (x1.trans x0))
  have hval : limbsVal c0.wit (AInt.new (vec4 l0 l1 l2 l3) 0).limbs = x := by
    unfold limbsVal
    rw [lv_wit (hvalid 0), lv_wit (hvalid 1), lv_wit (hvalid 2), lv_wit (hvalid 3)]
    simp only [AInt.new, vec4, w0, w1, w2, w3, hv]
    exact limbs4_sum
  obtain ⟨b, c4, e4, g4, x4, v4⟩ := (CSpec.getLastBit' (AInt.new (vec4 l0 l1 l2 l3) 0)).run c0 g0
    ⟨hvalid 0, by rw [show (AInt.new (vec4 l0 l1 l2 l3) 0).limbs 0 = l0 from rfl, w0]; exact hb 0⟩
  refine ⟨(AInt.new (vec4 l0 l1 l2 l3) 0, b), c4, ?_, g4, ?_, ?_⟩
  · unfold exportLimbs
    rw [bind_some e3, bind_some e2, bind_some e1, bind_some e0, bind_some e4]
    rfl
  · dsimp only
    rw [limbsVal_ext hvalid x4, hval]
  · dsimp only
    rw [C17_get_last_bit_partial e4 g4.sat, limbsVal_ext hvalid x4, hval]

/-- C17 as stated is false: for every coordinate `v` with `v + w < 2^254` (in particular for 0) the circuit
that assigns `v` and exports its parity has a satisfying assignment in which the assigned integer still has
residue `v` but the exported bit is the opposite parity. -/
theorem C17_parity_forgeable {v : W} (hv : v.val + fqMod < 2 ^ 254) : ∃ p ctx,
    exportParity v Ctx.empty = some (p, ctx) ∧
    (Sat tables ctx ctx.wit ∧ residue ctx.wit p.1 = v ∧ p.2.val ctx.wit = ((v.val % 2 : ℕ) : N)) ∧
    ∃ adv, Sat tables ctx adv ∧ residue adv p.1 = v ∧ p.2.val adv = (((v.val + 1) % 2 : ℕ) : N) := by
  -- the honest run
  obtain ⟨a, c1, f1, g1, x1, y1, o1, n1, w1⟩ := (CSpec.assignW v).run Ctx.empty good_empty trivial
  obtain ⟨b, c2, f2, g2, x2, y2⟩ := (CSpec.getLastBit a o1).run c1 g1 y1
  have hrun : exportParity v Ctx.empty = some ((a, b), c2) := by
    unfold exportParity
    rw [bind_some f1, bind_some f2]
    rfl
  -- the dishonest one
  obtain ⟨q, d, e1, h1, h2, h3⟩ := exportLimbs_complete hv
  obtain ⟨hsame, hi, hb⟩ := (rel_export v (v.val + fqMod)).run _ _ (SameCircuit.refl _) _ _ _ _ hrun e1
  have hlv : ∀ i, lv d.wit (a.limbs i) = lv d.wit (q.1.limbs i) := fun i => by
    unfold lv
    rw [val_sameCell (hi.limbs i)]
  refine ⟨(a, b), c2, hrun, ⟨g2.sat, ?_, ?_⟩, d.wit, ?_, ?_, ?_⟩
  · unfold residue
    dsimp only
    rw [limbsVal_ext y1.valid x2, w1, ZMod.natCast_zmod_val]
  · rw [C17_get_last_bit_partial f2 g2.sat, limbsVal_ext y1.valid x2, w1]
  · obtain ⟨s1, s2⟩ := h1.sat
    exact ⟨by rw [hsame.rows]; exact s1, by rw [hsame.copies]; exact s2⟩
  · unfold residue
    dsimp only
    rw [limbsVal_congr hlv, h2, Nat.cast_add, ZMod.natCast_self, add_zero, ZMod.natCast_zmod_val]
  · dsimp only
    rw [val_sameCell hb, h3]
    have : fqMod % 2 = 1 := by decide +kernel
    congr 1
    omega

example : ∃ p ctx, exportParity 0 Ctx.empty = some (p, ctx) ∧
    ∃ adv, Sat tables ctx adv ∧ residue adv p.1 = 0 ∧ p.2.val adv = 1 := by
  obtain ⟨p, ctx, h1, -, adv, h2, h3, h4⟩ := C17_parity_forgeable (v := 0) (by decide +kernel)
  refine ⟨p, ctx, h1, adv, h2, h3, ?_⟩
  rw [h4]
  simp

/-! ### C54: the circuit does not depend on the witness -/

/-- Two native programs that differ only in assigned values build the same rows and copy constraints. -/
theorem C54_native {F : Type} [Field F] [DecidableEq F] {ps ps' : List (Op F ℕ)} {c d d' : Ctx F}
    {out out' : List (AV F)} (h : ps.map Op.forget = ps'.map Op.forget)
    (hr : runProg ps [] c = some (out, d)) (hr' : runProg ps' [] c = some (out', d')) :
    d.offset = d'.offset ∧ d.rows = d'.rows ∧ d.copies = d'.copies ∧
      out.map AV.cell = out'.map AV.cell := by
  obtain ⟨h1, h2⟩ := (Rel.prog h .nil).run _ _ (SameCircuit.refl _) _ _ _ _ hr hr'
  refine ⟨h1.offset, h1.rows, h1.copies, ?_⟩
  rw [← List.forall₂_eq_eq_eq, List.forall₂_map_left_iff, List.forall₂_map_right_iff]
  exact h2

/-- Two integer programs that differ only in assigned values build the same rows and copy constraints,
and the same overflow counters. -/
theorem C54_integer {ps ps' : List IOp} {c d d' : Ctx N} {s s' : IState}
    (h : ps.map IOp.forget = ps'.map IOp.forget)
    (hr : runIProg ps ⟨[], []⟩ c = some (s, d)) (hr' : runIProg ps' ⟨[], []⟩ c = some (s', d')) :
    d.offset = d'.offset ∧ d.rows = d'.rows ∧ d.copies = d'.copies ∧
      s.ints.map AInt.overflows = s'.ints.map AInt.overflows ∧ s.bits.map AV.cell = s'.bits.map AV.cell := by
  obtain ⟨h1, h2⟩ := (Rel.iprog h ⟨.nil, .nil⟩).run _ _ (SameCircuit.refl _) _ _ _ _ hr hr'
  refine ⟨h1.offset, h1.rows, h1.copies, ?_, ?_⟩
  · rw [← List.forall₂_eq_eq_eq, List.forall₂_map_left_iff, List.forall₂_map_right_iff]
    exact h2.ints.imp fun _ _ h => h.overflows
  · rw [← List.forall₂_eq_eq_eq, List.forall₂_map_left_iff, List.forall₂_map_right_iff]
    exact h2.bits

/-- Both hypotheses hold for the squares of any two elements. -/
example (x y : W) : ∃ s d s' d', runIProg [.assign x, .square 0] ⟨[], []⟩ Ctx.empty = some (s, d) ∧
    runIProg [.assign y, .square 0] ⟨[], []⟩ Ctx.empty = some (s', d') ∧ d.rows = d'.rows := by
  obtain ⟨s, d, h1, -⟩ := C16_programs_complete (ops := [.assign x, .square 0]) (e := ⟨[x, x ^ 2], []⟩)
    (c := [0, 0]) (by simp [evalIProg, IOp.eval]) rfl
  obtain ⟨s', d', h2, -⟩ := C16_programs_complete (ops := [.assign y, .square 0]) (e := ⟨[y, y ^ 2], []⟩)
    (c := [0, 0]) (by simp [evalIProg, IOp.eval]) rfl
  exact ⟨s, d, s', d', h1, h2, (C54_integer (by simp [IOp.forget]) h1 h2).2.1⟩

/-! ### C55: the disabled prerequisite checks -/

set_option exponentiation.threshold 600

/-- integer_chip.rs:77-83, `is_pure_w_modulus`. -/
theorem C55_is_pure_w_modulus : Nat.lcm frMod limbMod ≥ 2 ^ wCeilBits := by decide +kernel

/-- integer_chip.rs:120-138, the multiplication equation. -/
theorem C55_mul : 2 ^ wCeilBits * overflowLimit * (2 ^ wCeilBits * overflowLimit) ≤ Nat.lcm intMod frMod ∧
    2 ^ dBits * fqMod + 2 ^ wCeilBits ≤ Nat.lcm intMod frMod ∧
    2 ^ wCeilBits * overflowLimit * (2 ^ wCeilBits * overflowLimit) ≤ 2 ^ dBits * fqMod + 2 ^ wCeilBits := by
  decide +kernel

/-- integer_chip.rs:168-188, the carry of the multiplication equation. -/
theorem C55_carry : limbMod * (overflowLimit * overflowLimit + 1) * 4 + 4 * (overflowLimit * overflowLimit + 1)
    + 1 < 2 ^ (nFloorBits - limbWidth * 2) := by decide +kernel

/-- integer_chip.rs:493-526, `reduce`. -/
theorem C55_reduce : Nat.lcm frMod limbMod ≥ 2 ^ wCeilBits * overflowLimit ∧
    Nat.lcm frMod limbMod ≥ fqMod * 2 ^ 17 + 2 ^ wCeilBits ∧
    fqMod * 2 ^ 17 + 2 ^ wCeilBits ≥ 2 ^ wCeilBits * overflowLimit ∧
    overflowLimit * 3 + 1 + overflowLimit < 2 ^ 17 := by decide +kernel

/-- utils.rs:54, the enabled assertion on the quotient range. -/
theorem C55_d_range : 2 ^ dBits * fqMod + fqMod ≤ Nat.lcm intMod frMod := by decide +kernel

end Verif.Circuit
