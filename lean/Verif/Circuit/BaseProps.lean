import Verif.Circuit.ProgramLemmas
import Mathlib.Data.ZMod.Basic
import Mathlib.Algebra.Field.ZMod

/-!
# Properties C01 – C07: the native gate

Reading guide: `op args ctx = some (r, ctx')` says that the chip call `op args`, made when the circuit is
`ctx`, returned `r` without panicking and left the circuit `ctx'`.  `Sat t ctx' adv` says that the
prover's advice matrix `adv` satisfies all gate rows, lookups and copy constraints of `ctx'`.
`x.val adv` is the value of the cell of `x` in that matrix (not the honest value carried by `x`).
`ctx`, the argument cells and `adv` are arbitrary in every theorem.
-/

set_option linter.unusedSimpArgs false

namespace Verif.Circuit

variable {F : Type} [Field F] {t : Tables} {ctx ctx' : Ctx F} {adv : Advice F}

/-- The circuit before the first call. -/
def Ctx.empty : Ctx F := ⟨0, [], [], fun _ _ => 0⟩

/-! ### C01 -/

theorem C01_add {a b r : AV F} (h : add a b ctx = some (r, ctx')) (hs : Sat t ctx' adv) :
    r.val adv = a.val adv + b.val adv := ((Spec.add a b).run _ _ _ h _ hs).2

theorem C01_addConstant {a r : AV F} {k : F} (h : addConstant a k ctx = some (r, ctx'))
    (hs : Sat t ctx' adv) : r.val adv = a.val adv + k := ((Spec.addConstant a k).run _ _ _ h _ hs).2

theorem C01_sub {a b r : AV F} (h : sub a b ctx = some (r, ctx')) (hs : Sat t ctx' adv) :
    r.val adv = a.val adv - b.val adv := ((Spec.sub a b).run _ _ _ h _ hs).2

theorem C01_mul {a b r : AV F} (h : mul a b ctx = some (r, ctx')) (hs : Sat t ctx' adv) :
    r.val adv = a.val adv * b.val adv := ((Spec.mul a b).run _ _ _ h _ hs).2

theorem C01_mulAddConstant {a b r : AV F} {k : F} (h : mulAddConstant a b k ctx = some (r, ctx'))
    (hs : Sat t ctx' adv) : r.val adv = a.val adv * b.val adv + k :=
  ((Spec.mulAddConstant a b k).run _ _ _ h _ hs).2

theorem C01_mulAdd {a b c r : AV F} {k : F} (h : mulAdd a b c k ctx = some (r, ctx'))
    (hs : Sat t ctx' adv) : r.val adv = a.val adv * b.val adv + k * c.val adv :=
  ((Spec.mulAdd a b c k).run _ _ _ h _ hs).2

theorem C01_assignConstant {r : AV F} {v : F} (h : assignConstant v ctx = some (r, ctx'))
    (hs : Sat t ctx' adv) : r.val adv = v := ((Spec.assignConstant v).run _ _ _ h _ hs).2

theorem C01_assertEqual {a b : AV F} (h : assertEqual a b ctx = some ((), ctx'))
    (hs : Sat t ctx' adv) : a.val adv = b.val adv := ((Spec.assertEqual a b).run _ _ _ h _ hs).2

theorem C01_assertConstant {a : AV F} {k : F} (h : assertConstant a k ctx = some ((), ctx'))
    (hs : Sat t ctx' adv) : a.val adv = k := ((Spec.assertConstant a k).run _ _ _ h _ hs).2

/-- `invert_unsafe` forces a non-zero argument and its inverse. -/
theorem C01_invertUnsafe [DecidableEq F] {a r : AV F} (h : invertUnsafe a ctx = some (r, ctx'))
    (hs : Sat t ctx' adv) : a.val adv ≠ 0 ∧ r.val adv = (a.val adv)⁻¹ := by
  have h1 := ((Spec.invertUnsafe a).run _ _ _ h _ hs).2
  refine ⟨fun h0 => ?_, eq_inv_of_mul_eq_one_right h1⟩
  rw [h0] at h1
  simp at h1

/-- `div_unsafe`, for a divisor that is non-zero in the prover's assignment. -/
theorem C01_divUnsafe [DecidableEq F] {a b r : AV F} (h : divUnsafe a b ctx = some (r, ctx'))
    (hs : Sat t ctx' adv) (hb : b.val adv ≠ 0) : r.val adv = a.val adv / b.val adv := by
  have h1 := ((Spec.divUnsafe a b).run _ _ _ h _ hs).2
  rw [eq_div_iff hb, ← h1, mul_comm]

/-- No call weakens the circuit built so far (so facts established by earlier calls persist). -/
theorem C01_calls_keep_earlier_constraints [DecidableEq F] {op : Op F (AV F)} {r : List (AV F)}
    (h : op.run ctx = some (r, ctx')) (hs : Sat t ctx' adv) : Sat t ctx adv :=
  ((Spec.opRun op).run _ _ _ h _ hs).1

/-! ### C02 -/

/-- Weighted sums of any length, although spread over many rows. -/
theorem C02_sum_with_constant {l : List (AV F × F)} {k : F} {r : AV F}
    (h : sumWithConstant l k ctx = some (r, ctx')) (hs : Sat t ctx' adv) :
    r.val adv = k + (l.map fun p => p.2 * p.1.val adv).sum :=
  ((Spec.sumWithConstant l k).run _ _ _ h _ hs).2

/-! ### C03 -/

theorem C03_assertBit {a : AV F} (h : assertBit a ctx = some ((), ctx')) (hs : Sat t ctx' adv) :
    a.val adv = 0 ∨ a.val adv = 1 := ((Spec.assertBit a).run _ _ _ h _ hs).2

/-- The field element encoding a Boolean. -/
def ofBool (b : Bool) : F := if b then 1 else 0

theorem C03_and {a b r : AV F} {x y : Bool} (h : and a b ctx = some (r, ctx')) (hs : Sat t ctx' adv)
    (ha : a.val adv = ofBool x) (hb : b.val adv = ofBool y) : r.val adv = ofBool (x && y) := by
  have h1 := ((Spec.mul a b).run _ _ _ h _ hs).2
  rw [h1, ha, hb]
  cases x <;> cases y <;> simp [ofBool]

theorem C03_or {a b r : AV F} {x y : Bool} (h : or a b ctx = some (r, ctx')) (hs : Sat t ctx' adv)
    (ha : a.val adv = ofBool x) (hb : b.val adv = ofBool y) : r.val adv = ofBool (x || y) := by
  have h1 := ((Spec.or a b).run _ _ _ h _ hs).2
  rw [h1, ha, hb]
  cases x <;> cases y <;> simp [ofBool]

theorem C03_xor {a b r : AV F} {x y : Bool} (h : xor a b ctx = some (r, ctx')) (hs : Sat t ctx' adv)
    (ha : a.val adv = ofBool x) (hb : b.val adv = ofBool y) : r.val adv = ofBool (x != y) := by
  have h1 := ((Spec.xor a b).run _ _ _ h _ hs).2
  rw [h1, ha, hb]
  cases x <;> cases y <;> simp [ofBool]
  norm_num

theorem C03_xnor {a b r : AV F} {x y : Bool} (h : xnor a b ctx = some (r, ctx')) (hs : Sat t ctx' adv)
    (ha : a.val adv = ofBool x) (hb : b.val adv = ofBool y) : r.val adv = ofBool (x == y) := by
  have h1 := ((Spec.xnor a b).run _ _ _ h _ hs).2
  rw [h1, ha, hb]
  cases x <;> cases y <;> simp [ofBool]
  norm_num

theorem C03_not {a r : AV F} {x : Bool} (h : not a ctx = some (r, ctx')) (hs : Sat t ctx' adv)
    (ha : a.val adv = ofBool x) : r.val adv = ofBool (!x) := by
  have h1 := ((Spec.not a).run _ _ _ h _ hs).2
  rw [h1, ha]
  cases x <;> simp [ofBool]

theorem C03_bisec {c a b r : AV F} {x : Bool} (h : bisec c a b ctx = some (r, ctx'))
    (hs : Sat t ctx' adv) (hc : c.val adv = ofBool x) :
    r.val adv = if x then a.val adv else b.val adv := by
  have h1 := ((Spec.bisec c a b).run _ _ _ h _ hs).2
  rw [h1, hc]
  cases x <;> simp [ofBool]

theorem C03_bisecCond {c a b r : AV F} {x : Bool} (h : bisecCond c a b ctx = some (r, ctx'))
    (hs : Sat t ctx' adv) (hc : c.val adv = ofBool x) :
    r.val adv = if x then a.val adv else b.val adv := C03_bisec h hs hc

theorem C03_assertTrue {a : AV F} (h : assertTrue a ctx = some ((), ctx')) (hs : Sat t ctx' adv) :
    a.val adv = 1 := ((Spec.assertConstant a 1).run _ _ _ h _ hs).2

theorem C03_assertFalse {a : AV F} (h : assertFalse a ctx = some ((), ctx')) (hs : Sat t ctx' adv) :
    a.val adv = 0 := ((Spec.assertConstant a 0).run _ _ _ h _ hs).2

/-! ### C04 -/

theorem C04_isZero [DecidableEq F] {a r : AV F} (h : isZero a ctx = some (r, ctx'))
    (hs : Sat t ctx' adv) :
    (a.val adv = 0 → r.val adv = 1) ∧ (a.val adv ≠ 0 → r.val adv = 0) := by
  have h1 := ((Spec.isZero a).run _ _ _ h _ hs).2
  rw [h1]
  exact ⟨fun h => by simp [zeroFlag, h], fun h => by simp [zeroFlag, h]⟩

theorem C04_invert [DecidableEq F] {a flag inv : AV F} (h : invert a ctx = some ((flag, inv), ctx'))
    (hs : Sat t ctx' adv) :
    (a.val adv = 0 → flag.val adv = 1) ∧
      (a.val adv ≠ 0 → flag.val adv = 0 ∧ a.val adv * inv.val adv = 1) := by
  obtain ⟨h1, h2⟩ := ((Spec.invert a).run _ _ _ h _ hs).2
  have h3 := flag_of_invert h1 h2
  simp only at h1 h2 h3
  refine ⟨fun h => by simp [h3, zeroFlag, h], fun h => ?_⟩
  have h4 : flag.val adv = 0 := by simp [h3, zeroFlag, h]
  exact ⟨h4, by rw [h4, add_zero] at h2; exact h2⟩

/-! ### C05 -/

section
variable [DecidableEq F]

/-- Completeness: a program whose direct evaluation succeeds and whose assertions hold runs without
panic from the empty circuit, the advice the chip wrote satisfies every row and copy constraint, and the
result cells contain the directly evaluated values. -/
theorem C05_honest_witness_satisfies {ops : List (Op F ℕ)} {out : List F}
    (hv : progValue ops [] = some out) (hc : progClaims ops []) :
    ∃ r ctx', runProg ops [] Ctx.empty = some (r, ctx') ∧ Sat t ctx' ctx'.wit ∧
      (r.map fun a => a.val ctx'.wit) = out := by
  obtain ⟨r, c, h1, h2, -, h4, h5⟩ := (CSpec.runProg (t := t) ops [] out hv hc).run Ctx.empty
    (fun adv _ => ⟨by simp [Ctx.empty], by simp [Ctx.empty]⟩) (by simp)
  refine ⟨r, c, h1, h2 _ (fun _ _ => rfl), ?_⟩
  rw [← h5]
  exact List.map_congr_left fun a ha => (h4 a ha).2

/-- A program panics exactly when its direct evaluation does, i.e. only by inverting or dividing by zero
(or on an empty multiply-accumulate or a position that does not exist), whatever the circuit before. -/
theorem C05_panics_only_on_zero_division {ops : List (Op F ℕ)} {env : List (AV F)} :
    runProg ops env ctx = none ↔ progValue ops (env.map AV.value) = none := by
  constructor
  · intro h
    cases hv : progValue ops (env.map AV.value) with
    | none => rfl
    | some out =>
      obtain ⟨r, c, h1, -⟩ := runProg_total ops env out hv ctx
      rw [h1] at h
      cases h
  · exact fun h => runProg_none ops env h ctx

/-! ### C06 -/

/-- Any program from any circuit: in every satisfying assignment the values of the result cells are
related to the values of the input cells by the direct meaning of the program. -/
theorem C06_program_sound {ops : List (Op F ℕ)} {env r : List (AV F)}
    (h : runProg ops env ctx = some (r, ctx')) (hs : Sat t ctx' adv) :
    progSem ops (env.map fun a => a.val adv) (r.map fun a => a.val adv) :=
  ((Spec.runProg ops env).run _ _ _ h _ hs).2

/-- Calls whose result a prover cannot influence. -/
def Op.pure {ι : Type} : Op F ι → Prop
  | .assign _ => False
  | .invert _ => False
  | .divUnsafe _ _ => False
  | _ => True

/-- For programs without free choices the relational meaning is the direct evaluation. -/
theorem progSem_value {ops : List (Op F ℕ)} (hp : ∀ op ∈ ops, op.pure) :
    ∀ {env out : List F}, progSem ops env out → progValue ops env = some out := by
  induction ops with
  | nil => rintro env out rfl; rfl
  | cons op ops ih =>
    rintro env out ⟨ha, new, h1, h2⟩
    have hpo := hp op (by simp)
    have hval : Op.value (op.map fun i => env.getD i 0) = some new := by
      have := h1.2
      cases op <;> first | exact this | exact absurd hpo (by simp [Op.pure])
    simp only [progValue, if_pos ha, hval, Option.bind_eq_bind, Option.bind_some]
    exact ih (fun o ho => hp o (by simp [ho])) h2

/-- Circuit result equals direct evaluation (programs over given input cells). -/
theorem C06_result_eq_direct_evaluation {ops : List (Op F ℕ)} {env r : List (AV F)}
    (hp : ∀ op ∈ ops, op.pure) (h : runProg ops env ctx = some (r, ctx')) (hs : Sat t ctx' adv) :
    progValue ops (env.map fun a => a.val adv) = some (r.map fun a => a.val adv) :=
  progSem_value hp (C06_program_sound h hs)

end

/-! ### C07 -/

theorem C07_mul_add_with_next_line {l : List (MulTerm F)} {r : AV F}
    (h : mulAddWithNextLine l ctx = some (r, ctx')) (hs : Sat t ctx' adv) :
    r.val adv = (l.map fun x => x.a.val adv * x.b.val adv + x.coeff * x.c.val adv).sum :=
  ((Spec.mulAddWithNextLine l).run _ _ _ h _ hs).2

/-- The trait's default body does not have the property: with two terms a prover can give the result
any value `v` while all argument cells are zero. -/
theorem C07_default_body_unsound (v : F) :
    ∃ (a : AV F) (c0 c1 : Ctx F) (r : AV F) (adv : Advice F),
      assign 0 Ctx.empty = some (a, c0) ∧
      mulAddWithNextLineDefault [⟨a, a, a, 0⟩, ⟨a, a, a, 0⟩] c0 = some (r, c1) ∧
      Sat t c1 adv ∧ a.val adv = 0 ∧ r.val adv = v := by
  refine ⟨⟨⟨0, 0⟩, 0⟩, _, _, _, fun _ c => if c = 4 then v else 0, rfl, rfl, ?_, ?_, ?_⟩
  · refine ⟨?_, ?_⟩
    · simp [Ctx.empty, gateEval, resizePairs, lookupsHold]
    · simp [Ctx.empty, copyOf, resizePairs, Advice.at]
  · rfl
  · rfl

/-! ### Concrete non-trivial cases -/

instance : Fact (Nat.Prime 7) := ⟨by decide⟩

/-- A program using most calls, over `ZMod 7`. -/
def exProg : List (Op (ZMod 7) ℕ) :=
  [.assign 2, .assign 3, .add 0 1, .mul 0 2, .sum [(0, 1), (1, 2), (2, 3), (3, 4), (0, 5), (1, 6)] 1,
   .divUnsafe 3 1, .isZero 2, .invert 1, .xor 6 7, .mulAddNext [(0, 1, 2, 3), (1, 2, 3, 1)],
   .assertBit 6, .bisec 6 0 1, .not 6, .assertEqual 0 0]

/-- The hypotheses of C05 are met by `exProg`, so its honest witness satisfies its circuit; this also
gives a satisfying assignment for the hypotheses of C01–C04, C06 and C07. -/
example : ∃ out, progValue exProg [] = some out ∧ progClaims exProg [] ∧ out.length = 13 := by
  refine ⟨_, rfl, ?_, rfl⟩
  simp only [exProg, progClaims, Op.map, Op.value, Op.claim]
  simp only [Option.some.injEq, forall_eq', true_and]
  decide

example : ∃ r ctx', runProg exProg [] Ctx.empty = some (r, ctx') ∧ Sat ⟨17, 16, 15, 16⟩ ctx' ctx'.wit := by
  have hc : progClaims exProg [] := by
    simp only [exProg, progClaims, Op.map, Op.value, Op.claim]
    simp only [Option.some.injEq, forall_eq', true_and]
    decide
  obtain ⟨r, c, h1, h2, -⟩ := C05_honest_witness_satisfies (t := ⟨17, 16, 15, 16⟩) (ops := exProg) rfl hc
  exact ⟨r, c, h1, h2⟩

/-- A panicking program: inversion of zero. -/
example : runProg [.assign (0 : ZMod 7), .invertUnsafe 0] [] Ctx.empty = none :=
  C05_panics_only_on_zero_division.2 rfl

/-- A seven-element sum spread over two rows meets the hypotheses of C02. -/
example : ∃ r ctx', sumWithConstant (List.replicate 7 (⟨⟨0, 0⟩, 3⟩, (2 : ZMod 7))) 5
    (⟨1, [], [], fun _ _ => 3⟩ : Ctx (ZMod 7)) = some (r, ctx') ∧ Sat ⟨17, 16, 15, 16⟩ ctx' ctx'.wit := by
  obtain ⟨r, c, h1, h2, -⟩ := (CSpec.sumWithConstant (t := ⟨17, 16, 15, 16⟩)
    (List.replicate 7 (⟨⟨0, 0⟩, 3⟩, (2 : ZMod 7))) 5).run (⟨1, [], [], fun _ _ => 3⟩ : Ctx (ZMod 7))
    (fun adv _ => ⟨by simp, by simp⟩) (by
      intro p hp
      rw [List.eq_of_mem_replicate hp]
      exact ⟨by decide, rfl⟩)
  exact ⟨r, c, h1, h2 _ (fun _ _ => rfl)⟩

end Verif.Circuit
