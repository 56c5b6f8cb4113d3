import Verif.Ecc.ProgramLemmas
import Verif.Ecc.ProgramShape
import Verif.Ecc.CompleteConst
import Verif.Integer.Props

/-!
# Properties of the ECC chip (C18 - C22, C56 - C60)
-/

set_option exponentiation.threshold 600

namespace Verif.Circuit

open Verif.Ecc

/-! ### Concrete points used as witnesses -/

theorem tangentSafe_nat {x y t : ℕ} (hx : x < fqMod) (hy : y < fqMod) (ht : t < fqMod)
    (hs : (t * (2 * y)) % fqMod = (3 * x ^ 2) % fqMod) (hne : (2 * y) % fqMod ≠ 0)
    (h1 : 3 * (x ^ 2 % fqMod) ≤ t * (2 * y)) (h2 : 3 * (x ^ 2 % fqMod % 2 ^ 136) ≤ 2 ^ 136 + 2 ^ 68 * (2 * (y % 2 ^ 68) * (t / 2 ^ 68 % 2 ^ 68)))
    (h3 : 3 * (x ^ 2 % fqMod) ≤ t * (2 * y % fqMod))
    (h4 : 3 * (x ^ 2 % fqMod % 2 ^ 136) ≤ 2 ^ 136 + 2 ^ 68 * (2 * y % fqMod % 2 ^ 68 * (t / 2 ^ 68 % 2 ^ 68))) : TangentSafe (x : W) (y : W) := by
  have e1 : ((t : W)) * (2 * (y : W)) = 3 * (x : W) ^ 2 := by
    have := cast_of_mod hs
    push_cast at this
    exact this
  have e2 : 2 * (y : W) ≠ 0 := by
    intro h
    apply hne
    have : ((2 * y : ℕ) : W) = 0 := by push_cast; exact h
    rw [ZMod.natCast_eq_zero_iff] at this
    exact Nat.mod_eq_zero_of_dvd this
  have e3 : tangent (x : W) (y : W) = (t : W) := by
    unfold tangent
    rw [← e1, mul_comm (t : W), inv_mul_cancel_left₀ e2]
  have v1 : (t : W).val = t := ZMod.val_cast_of_lt ht
  have v2 : (y : W).val = y := ZMod.val_cast_of_lt hy
  have v3 : ((x : W) ^ 2).val = x ^ 2 % fqMod := by
    rw [← Nat.cast_pow, ZMod.val_natCast]
  have v4 : (2 * (y : W)).val = 2 * y % fqMod := by
    have : 2 * (y : W) = ((2 * y : ℕ) : W) := by push_cast; rfl
    rw [this, ZMod.val_natCast]
  right
  rw [e3, v1, v2, v3, v4]
  exact ⟨⟨h1, h2⟩, h3, h4⟩

/-- Twice the generator. -/
def g2x : ℕ := 1368015179489954701390400359078579693043519447331113978918064868415326638035
def g2y : ℕ := 9918110051302171585080402603319702774565515993150576347155970296011118125764

theorem g2_eqn : ((g2y : ℕ) : Fq) ^ 2 = ((g2x : ℕ) : Fq) ^ 3 + 3 := by
  have := cast_of_mod (a := g2y ^ 2) (b := g2x ^ 3 + 3) (by decide +kernel)
  push_cast at this
  exact this

/-- A point whose tangent the chip can compute. -/
def g2 : Pt := pt g2x g2y g2_eqn

theorem g2_safe : TangentSafe (g2x : W) (g2y : W) :=
  tangentSafe_nat (t := 21142052773935663566942551003941686165218027822389943310551911602782320769636)
    (by decide +kernel) (by decide +kernel) (by decide +kernel) (by decide +kernel) (by decide +kernel)
    (by decide +kernel) (by decide +kernel) (by decide +kernel) (by decide +kernel)

/-- A point whose tangent it cannot compute: `x^3 = 13`, `y = 4`. -/
def badX : ℕ := 3138133716356705206450556195702887044552040336239100162073878396722620947019
def badSlope : ℕ := 1695120097075284588522442871954349171481081602505141883318935455774486437126

theorem bad_eqn : ((4 : ℕ) : Fq) ^ 2 = ((badX : ℕ) : Fq) ^ 3 + 3 := by
  have := cast_of_mod (a := 4 ^ 2) (b := badX ^ 3 + 3) (by decide +kernel)
  push_cast at this ⊢
  exact this

/-- The point `(badX, 4)`. -/
def badPt : Pt := pt badX (4 : ℕ) bad_eqn

theorem bind_none {F α β : Type} {m : M F α} {k : α → M F β} {ctx : Ctx F} (h : m ctx = none) : (m >>= k) ctx = none := by
  simp only [Bind.bind, StateT.bind, h, Option.bind_none]

theorem assign_ok (P : Pt) : coordY P ^ 2 = coordX P ^ 3 + 3 ∨ flagOf P = 1 := by
  by_cases h0 : P = 0
  · exact .inr (flagOf_zero h0)
  · exact .inl (coords_aff h0).eqn

/-! ### C18: assigned points -/

/-- `assign_point`: in every satisfying assignment the coordinates are honest integers, and they satisfy the
curve equation unless the flag is set. When moreover the flag is a bit, the result is a group element.
Missing from C18: that the flag is a bit; it need not be (`C18_flag_forgeable`). -/
theorem C18_assign_point_partial {c : Pt} {ctx ctx' : Ctx N} {r : APt} (h : assignPoint c ctx = some (r, ctx'))
    {adv : Advice N} (hs : Sat tables ctx' adv) :
    (residue adv r.y ^ 2 = residue adv r.x ^ 3 + 3 ∨ r.z.val adv = 1) ∧
    (r.z.val adv = 0 ∨ r.z.val adv = 1 → ∃ P, Represents adv r P) := by
  obtain ⟨h1, h2, h3, h4⟩ := ((Spec.assignPoint c).run _ _ _ h adv hs).2
  exact ⟨h4, fun hz => represents_assign h1 h2 h3 hz h4⟩

/-- `assign_point` accepts every curve point and every identity flag a prover may choose, with a
satisfying assignment; in particular honest points. -/
theorem assignPoint_run (c : Pt) : ∃ r ctx', assignPoint c Ctx.empty = some (r, ctx') ∧ Sat tables ctx' ctx'.wit ∧
    HPt ctx' r (coordX c) (coordY c) (flagOf c) := by
  have h := assign_ok c
  obtain ⟨r, ctx', h1, g1, -, h2, -⟩ := (CSpec.assignPointRaw _ _ _ h).run Ctx.empty good_empty trivial
  exact ⟨r, ctx', h1, g1.sat, h2⟩

/-- C18 as stated is false: whatever point was assigned and whatever field element `v`, the circuit of `assign_point`
has a satisfying assignment in which the identity flag is `v`. -/
theorem C18_flag_forgeable (c : Pt) (v : N) : ∃ r ctx', assignPoint c Ctx.empty = some (r, ctx') ∧
    ∃ adv, Sat tables ctx' adv ∧ r.z.val adv = v ∧ residue adv r.x = 1 ∧ residue adv r.y = 2 := by
  obtain ⟨r, ctx', h1, -, -⟩ := assignPoint_run c
  obtain ⟨q, d, h2, g2, -, hq, -⟩ := (CSpec.assignPointRaw 1 2 v (.inl (by norm_num))).run Ctx.empty good_empty trivial
  have h1' : assignPointRaw (coordX c) (coordY c) (flagOf c) Ctx.empty = some (r, ctx') := h1
  obtain ⟨hsame, hp⟩ := (Rel.assignPointRaw _ _ _ _ _ _).run _ _ (SameCircuit.refl _) _ _ _ _ h1' h2
  have hx : residue d.wit r.x = residue d.wit q.x := by
    have : ∀ i, lv d.wit (r.x.limbs i) = lv d.wit (q.x.limbs i) := fun i => by
      unfold lv
      rw [val_sameCell (hp.x.limbs i)]
    unfold residue
    rw [limbsVal_congr this]
  have hy : residue d.wit r.y = residue d.wit q.y := by
    have : ∀ i, lv d.wit (r.y.limbs i) = lv d.wit (q.y.limbs i) := fun i => by
      unfold lv
      rw [val_sameCell (hp.y.limbs i)]
    unfold residue
    rw [limbsVal_congr this]
  obtain ⟨s1, s2⟩ := g2.sat
  refine ⟨r, ctx', h1, d.wit, ⟨by rw [hsame.rows]; exact s1, by rw [hsame.copies]; exact s2⟩, ?_, ?_, ?_⟩
  · rw [val_sameCell hp.z, val_wit hq.z, hq.zv]
  · rw [hx, hq.x.val]
  · rw [hy, hq.y.val]

/-- In particular neither a bit nor, hence, any group element. -/
theorem C18_not_a_point (c : Pt) : ∃ r ctx', assignPoint c Ctx.empty = some (r, ctx') ∧
    ∃ adv, Sat tables ctx' adv ∧ ∀ P, ¬ Represents adv r P := by
  obtain ⟨r, ctx', h1, adv, h2, h3, -⟩ := C18_flag_forgeable c 2
  refine ⟨r, ctx', h1, adv, h2, fun P hP => ?_⟩
  have h20 : (2 : N) ≠ 0 := by
    intro h
    have : ((2 : ℕ) : N) = 0 := by exact_mod_cast h
    rw [ZMod.natCast_eq_zero_iff] at this
    revert this
    decide +kernel
  have h21 : (2 : N) ≠ 1 := by
    intro h
    have : (1 : N) = 0 := by linear_combination h
    exact one_ne_zero this
  by_cases h0 : P = 0
  · exact h21 (by rw [← h3, hP.1.ident h0])
  · exact h20 (by rw [← h3, (hP.1.affine h0).1])

example : ∃ r ctx', assignPoint gen Ctx.empty = some (r, ctx') ∧ Sat tables ctx' ctx'.wit := by
  obtain ⟨r, c, h1, h2, -⟩ := assignPoint_run gen
  exact ⟨r, c, h1, h2⟩

/-! ### C19: the group law -/

theorem C19_add {a b : APt} {ctx ctx' : Ctx N} {r : APt × APt} (h : pAdd a b ctx = some (r, ctx')) {adv : Advice N}
    (hs : Sat tables ctx' adv) {P Q : Pt} (hP : Represents adv a P) (hQ : Represents adv b Q) :
    Represents adv r.1 (P + Q) ∧ Represents adv r.2 P := by
  obtain ⟨k1, k2, k3⟩ := ((Spec.pAdd a b).run _ _ _ h adv hs).2 P Q hP.1 hQ.1 fun _ => hP.2
  exact ⟨k1, k2, k3 hP.2⟩

theorem C19_double {a : APt} {ctx ctx' : Ctx N} {r : APt × APt} (h : pDouble a ctx = some (r, ctx')) {adv : Advice N}
    (hs : Sat tables ctx' adv) {P : Pt} (hP : Represents adv a P) :
    Represents adv r.1 (P + P) ∧ Represents adv r.2 P :=
  ((Spec.pDouble a).run _ _ _ h adv hs).2 P hP

theorem C19_neg {a r : APt} {ctx ctx' : Ctx N} (h : pNeg a ctx = some (r, ctx')) {adv : Advice N}
    (hs : Sat tables ctx' adv) {P : Pt} (hP : Represents adv a P) : Represents adv r (-P) :=
  ((Spec.pNeg a).run _ _ _ h adv hs).2 P hP.1

theorem C19_sub {a b : APt} {ctx ctx' : Ctx N} {r : APt × APt} (h : pSub a b ctx = some (r, ctx')) {adv : Advice N}
    (hs : Sat tables ctx' adv) {P Q : Pt} (hP : Represents adv a P) (hQ : Represents adv b Q) :
    Represents adv r.1 (P - Q) ∧ Represents adv r.2 P :=
  ((Spec.pSub a b).run _ _ _ h adv hs).2 P Q hP hQ.1

/-- `reduce` keeps the point; for the identity the reduced coordinates are zero. -/
theorem C19_reduce {a : APt} {ctx ctx' : Ctx N} {r : APt × APt} (h : pReduce a ctx = some (r, ctx')) {adv : Advice N}
    (hs : Sat tables ctx' adv) {P : Pt} (hP : Represents adv a P) :
    Represents adv r.1 P ∧ Represents adv r.2 P ∧ (P = 0 → residue adv r.1.x = 0 ∧ residue adv r.1.y = 0) := by
  obtain ⟨k1, k2, k3, k4⟩ := ((Spec.pReduce a).run _ _ _ h adv hs).2 P hP.1
  exact ⟨k1, ⟨k2, k3 hP.2⟩, k4⟩

/-! ### C20: scalar multiplication -/

theorem C20_mul {a r : APt} {s : AV N} {ctx ctx' : Ctx N} (h : pMul a s ctx = some (r, ctx')) {adv : Advice N}
    (hs : Sat tables ctx' adv) {P : Pt} (hP : Represents adv a P) : Represents adv r ((s.val adv).val • P) :=
  ((Spec.pMul a s).run _ _ _ h adv hs).2 P hP

theorem C20_shamir {as : List APt} {ss : List (AV N)} {r : APt} {ctx ctx' : Ctx N}
    (h : shamir as ss ctx = some (r, ctx')) {adv : Advice N} (hs : Sat tables ctx' adv) {Ps : List Pt}
    (hP : List.Forall₂ (Represents adv) as Ps) : as.length = ss.length ∧
      Represents adv r (List.zipWith (fun (P : Pt) (s : AV N) => (s.val adv).val • P) Ps ss).sum := by
  obtain ⟨h1, h2⟩ := ((Spec.shamir as ss).run _ _ _ h adv hs).2
  exact ⟨h1, h2 Ps hP⟩

theorem C20_constant_mul {P : Pt} {s : AV N} {r : APt} {ctx ctx' : Ctx N} (h : constantMul P s ctx = some (r, ctx'))
    {adv : Advice N} (hs : Sat tables ctx' adv) : Represents adv r ((s.val adv).val • P) :=
  ((Spec.constantMul P s).run _ _ _ h adv hs).2

/-- Scalars congruent modulo the scalar-field prime give the same multiple, so "the scalar modulo the group
order" is well defined. -/
theorem C20_modulo_order (P : Pt) {a b : ℕ} (h : a % frMod = b % frMod) : a • P = b • P := nsmul_congr P h

/-! ### C21: point equality -/

/-- What `assert_equal` guarantees: points that are both the identity or both affine are equal. Missing from C21: that
the identity differs from an affine point (`C21_identity_equals_affine`). -/
theorem C21_assert_equal_partial {a b : APt} {ctx ctx' : Ctx N} {u : Unit} (h : pAssertEqual a b ctx = some (u, ctx'))
    {adv : Advice N} (hs : Sat tables ctx' adv) {P Q : Pt} (hP : Represents adv a P) (hQ : Represents adv b Q)
    (hi : P = 0 ↔ Q = 0) : P = Q :=
  assertEqual_sem hP hQ (((Spec.pAssertEqual a b).run _ _ _ h adv hs).2 hP.1.x hP.1.y hQ.1.x hQ.1.y) hi

/-- Assign a point and compare it with the constant `gen`. -/
def compareGen (c : Pt) : M N (APt × APt) := do
  let a ← assignPoint c
  let b ← assignConstantPoint gen
  pAssertEqual a b
  return (a, b)

/-- The same with the three witnesses given. -/
def compareGenRaw (x y : W) (z : N) : M N (APt × APt) := do
  let a ← assignPointRaw x y z
  let b ← assignConstantPoint gen
  pAssertEqual a b
  return (a, b)

theorem coordX_gen : coordX gen = 1 := rfl
theorem coordY_gen : coordY gen = 2 := rfl

theorem compareGenRaw_run {z : N} (hz : z = 0 ∨ z = 1) : ∃ p ctx, compareGenRaw 1 2 z Ctx.empty = some (p, ctx) ∧ Good tables ctx ∧
    p.1.z.val ctx.wit = z := by
  obtain ⟨a, c1, f1, g1, e1, h1, ox, oy, -⟩ := (CSpec.assignPointRaw 1 2 z (.inl (by norm_num))).run Ctx.empty good_empty trivial
  obtain ⟨b, c2, f2, g2, e2, h2, ox', oy', -⟩ := (CSpec.assignConstantPoint gen).run c1 g1 trivial
  obtain ⟨_, c3, f3, g3, e3, -⟩ := (CSpec.pAssertEqual a b (by omega) (by omega) (.inl ⟨coordX_gen.symm, coordY_gen.symm⟩)).run c2 g2
    ⟨h1.ext e2, h2⟩
  refine ⟨(a, b), c3, ?_, g3, ?_⟩
  · unfold compareGenRaw
    rw [bind_some f1, bind_some f2, bind_some f3]
    rfl
  · have := h1.ext (e2.trans e3)
    rw [val_wit this.z, this.zv]

/-- C21 as stated is false: the circuit asserting that an assigned point equals the generator has a satisfying
assignment in which the assigned point is the identity. -/
theorem C21_identity_equals_affine : ∃ p ctx, compareGen gen Ctx.empty = some (p, ctx) ∧
    ∃ adv, Sat tables ctx adv ∧ Represents adv p.1 0 ∧ Represents adv p.2 gen ∧ (0 : Pt) ≠ gen := by
  obtain ⟨p, ctx, h1, g1, -⟩ := compareGenRaw_run (z := 0) (.inl rfl)
  obtain ⟨q, d, h2, g2, hz⟩ := compareGenRaw_run (z := 1) (.inr rfl)
  have hrel : Rel (compareGenRaw 1 2 0) (compareGenRaw 1 2 1) (fun p q => SamePt p.1 q.1 ∧ SamePt p.2 q.2) :=
    (Rel.assignPointRaw _ _ _ _ _ _).bind fun _ _ q1 => (Rel.assignConstantPoint _).bind fun _ _ q2 =>
      (Rel.pAssertEqual q1 q2).bind fun _ _ _ => Rel.pure ⟨q1, q2⟩
  obtain ⟨hsame, hp, -⟩ := hrel.run _ _ (SameCircuit.refl _) _ _ _ _ h1 h2
  obtain ⟨s1, s2⟩ := g2.sat
  have hs : Sat tables ctx d.wit := ⟨by rw [hsame.rows]; exact s1, by rw [hsame.copies]; exact s2⟩
  have h1' : compareGen gen Ctx.empty = some (p, ctx) := by
    have : compareGen gen = compareGenRaw 1 2 0 := by
      unfold compareGen compareGenRaw assignPoint
      rw [coordX_gen, coordY_gen, flagOf_ne gen_ne_zero]
    rw [this, h1]
  refine ⟨p, ctx, h1', d.wit, hs, ?_⟩
  unfold compareGen at h1'
  simp only [bind_run, pure_run] at h1'
  obtain ⟨a, c1, f1, b, c2, f2, _, c3, f3, rfl, rfl⟩ := h1'
  obtain ⟨t2, -⟩ := (Spec.pAssertEqual a b).run _ _ _ f3 _ hs
  obtain ⟨t1, k2⟩ := (Spec.assignConstantPoint gen).run _ _ _ f2 _ t2
  obtain ⟨-, k3, k4, k5, k6⟩ := (Spec.assignPoint gen).run _ _ _ f1 _ t1
  have hz1 : a.z.val d.wit = 1 := by rw [val_sameCell hp.z, hz]
  exact ⟨⟨⟨k3, k4, fun _ => hz1, fun h => absurd rfl h, by rw [k5]; rintro _ ⟨⟩⟩, by unfold TangentOk; rw [k5]; rintro _ ⟨⟩⟩,
    k2, gen_ne_zero.symm⟩

/-! ### C22: bit decomposition -/

theorem C22_decompose_scalar {w : ℕ} (hw : 0 < w) {s : AV N} {ctx ctx' : Ctx N} {r : List (List (AV N))}
    (h : decomposeScalar w s ctx = some (r, ctx')) {adv : Advice N} (hs : Sat tables ctx' adv) :
    (∀ b ∈ r, b.length = w ∧ ∀ c ∈ b, c.val adv = 0 ∨ c.val adv = 1) ∧
      ((windowsVal adv w r.reverse : ℕ) : N) = s.val adv := by
  obtain ⟨-, -, h2, h3⟩ := ((Spec.decomposeScalar w hw s).run _ _ _ h adv hs).2
  exact ⟨h2, h3⟩

/-- The hypotheses are met for every scalar and window size 1 to 4. -/
theorem C22_complete (v : N) {w : ℕ} (hw : 0 < w) (hw5 : w < 5) : ∃ s ctx r ctx', assign v Ctx.empty = some (s, ctx) ∧
    decomposeScalar w s ctx = some (r, ctx') ∧ Sat tables ctx' ctx'.wit := by
  obtain ⟨s, c1, f1, g1, e1, h1, -⟩ := (CSpec.assign (t := tables) v).run Ctx.empty good_empty trivial
  obtain ⟨r, c2, f2, g2, -, -⟩ := (CSpec.decomposeScalar w hw hw5 s).run c1 g1 h1
  exact ⟨s, c1, r, c2, f1, f2, g2.sat⟩

/-! ### C56: all call sequences -/

/-- Every program over the ECC chip, in every satisfying assignment in which the flags of the assigned points are bits,
computes what it means in the group. (The hypothesis on the flags is needed: C18.) -/
theorem C56_programs_sound {ops : List EOp} {ctx ctx' : Ctx N} {s : EState}
    (h : runEProg ops ⟨[], [], []⟩ ctx = some (s, ctx')) {adv : Advice N} (hs : Sat tables ctx' adv)
    (hz : ∀ z ∈ s.inputs, z.val adv = 0 ∨ z.val adv = 1) :
    ∃ e, EProgSem ops ⟨[], []⟩ e ∧ EStands adv s e :=
  ((Spec.eprog ops ⟨[], [], []⟩).run _ _ _ h adv hs).2.2 ⟨[], []⟩ ⟨.nil, .nil⟩ hz

/-! ### C57: witness independence -/

/-- Two programs that differ only in assigned points and scalars build the same rows and copy constraints and return the
same cells and counters. -/
theorem C57_same_circuit {ps ps' : List EOp} {c d d' : Ctx N} {s s' : EState}
    (h : ps.map EOp.forget = ps'.map EOp.forget)
    (hr : runEProg ps ⟨[], [], []⟩ c = some (s, d)) (hr' : runEProg ps' ⟨[], [], []⟩ c = some (s', d')) :
    d.offset = d'.offset ∧ d.rows = d'.rows ∧ d.copies = d'.copies ∧
      s.pts.map (fun p => p.z.cell) = s'.pts.map (fun p => p.z.cell) ∧
      s.pts.map (fun p => (p.x.overflows, p.y.overflows)) = s'.pts.map (fun p => (p.x.overflows, p.y.overflows)) ∧
      s.scs.map AV.cell = s'.scs.map AV.cell := by
  obtain ⟨h1, h2⟩ := (Rel.eprog h ⟨.nil, .nil, .nil⟩).run _ _ (SameCircuit.refl _) _ _ _ _ hr hr'
  refine ⟨h1.offset, h1.rows, h1.copies, ?_, ?_, ?_⟩
  · rw [← List.forall₂_eq_eq_eq, List.forall₂_map_left_iff, List.forall₂_map_right_iff]
    exact h2.pts.imp fun _ _ h => h.z
  · rw [← List.forall₂_eq_eq_eq, List.forall₂_map_left_iff, List.forall₂_map_right_iff]
    exact h2.pts.imp fun _ _ h => by rw [h.x.overflows, h.y.overflows]
  · rw [← List.forall₂_eq_eq_eq, List.forall₂_map_left_iff, List.forall₂_map_right_iff]
    exact h2.scs

/-! ### C58: the honest prover and the group law -/

theorem runEProg_one {op : EOp} {ops : List EOp} {s s' : EState} {c c' : Ctx N} (h : op.run s c = some (s', c')) :
    runEProg (op :: ops) s c = runEProg ops s' c' := by
  simp only [runEProg]
  exact bind_some h

/-- C58 as stated ("doubling succeeds for an honest prover") is false: the chip accepts the curve point `(badX, 4)` and
panics when that point is doubled or added to itself. -/
theorem C58_double_panics : ∃ s ctx, runEProg [.assign badPt] ⟨[], [], []⟩ Ctx.empty = some (s, ctx) ∧
    Sat tables ctx ctx.wit ∧ runEProg [.assign badPt, .double 0] ⟨[], [], []⟩ Ctx.empty = none := by
  have hx : coordX badPt = ((badX : ℕ) : W) := rfl
  have hy : coordY badPt = ((4 : ℕ) : W) := rfl
  have hz : flagOf badPt = 0 := flagOf_ne (aff_pt bad_eqn).ne_zero
  obtain ⟨p, c, f, g, -, hp, ox, oy, hc⟩ := (CSpec.assignPointRaw ((badX : ℕ) : W) ((4 : ℕ) : W) 0 (.inl bad_eqn)).run Ctx.empty
    good_empty trivial
  have f' : assignPoint badPt Ctx.empty = some (p, c) := by
    unfold assignPoint
    rw [hx, hy, hz, f]
  have hrun : (EOp.assign badPt).run ⟨[], [], []⟩ Ctx.empty = some (⟨[p], [], [p.z]⟩, c) := by
    unfold EOp.run
    dsimp only
    rw [bind_some f']
    rfl
  have v4 : (((4 : ℕ) : W)).val = 4 := ZMod.val_cast_of_lt (by decide +kernel)
  have vs : (((badSlope : ℕ) : W)).val = badSlope := ZMod.val_cast_of_lt (by decide +kernel)
  have vx : (((badX : ℕ) : W) ^ 2).val = badX ^ 2 % fqMod := by
    rw [← Nat.cast_pow, ZMod.val_natCast]
  have h4 : ((4 : ℕ) : W) ≠ 0 := by
    intro h
    have := congrArg ZMod.val h
    rw [v4, ZMod.val_zero] at this
    omega
  have hpan : curvature p c = none := by
    refine curvature_panics g hp ox oy hc h4 (s := ((badSlope : ℕ) : W)) ?_ ?_
    · have := cast_of_mod (a := badSlope * (2 * 4)) (b := 3 * badX ^ 2) (by decide +kernel)
      push_cast at this ⊢
      exact this
    · rw [vs, v4, vx]
      decide +kernel
  refine ⟨⟨[p], [], [p.z]⟩, c, ?_, g.sat, ?_⟩
  · rw [runEProg_one hrun]
    rfl
  · rw [runEProg_one hrun]
    have hd : pDouble p c = none := by
      unfold pDouble
      exact bind_none hpan
    have hr : (EOp.double 0).run ⟨[p], [], [p.z]⟩ c = none := by
      unfold EOp.run
      dsimp only
      have : EState.pt ⟨[p], [], [p.z]⟩ 0 c = some (p, c) := rfl
      rw [bind_some this]
      exact bind_none hd
    simp only [runEProg]
    exact bind_none hr

/-- An honestly assigned point stands for the point that was assigned. -/
theorem HPt.represents {c : Ctx N} {p : APt} {P : Pt} (h : HPt c p (coordX P) (coordY P) (flagOf P)) (hn : p.curv = none) :
    Represents c.wit p P := by
  have hz : p.z.val c.wit = flagOf P := by rw [val_wit h.z, h.zv]
  refine ⟨⟨h.x.ok.good, h.y.ok.good, fun h0 => by rw [hz, flagOf_zero h0], fun h0 => ⟨by rw [hz, flagOf_ne h0], ?_⟩,
    by rw [hn]; rintro _ ⟨⟩⟩, by unfold TangentOk; rw [hn]; rintro _ ⟨⟩⟩
  rw [h.x.val, h.y.val]
  exact coords_aff h0

/-- Where the slope of the tangent at `P` can be computed (`TangentSafe`), assigning `P` and adding any constant point to
it succeeds with satisfied constraints. Missing from C58: points that are not `TangentSafe`, for some of
which the chip panics. -/
theorem C58_add_partial {P : Pt} (Q : Pt) (h : TangentSafe (coordX P) (coordY P)) :
    ∃ s ctx, runEProg [.assign P, .constant Q, .add 0 1] ⟨[], [], []⟩ Ctx.empty = some (s, ctx) ∧
      Sat tables ctx ctx.wit ∧ EStands ctx.wit s ⟨[P, Q, P + Q], []⟩ := by
  obtain ⟨a, c1, f1, g1, e1, h1, ox, oy, hn⟩ := (CSpec.assignPointRaw _ _ _ (assign_ok P)).run Ctx.empty good_empty trivial
  have f1' : assignPoint P Ctx.empty = some (a, c1) := f1
  obtain ⟨b, c2, f2, g2, e2, h2, ox', oy', hn'⟩ := (CSpec.assignConstantPoint Q).run c1 g1 trivial
  have ha := (h1.hp ox oy (flagOf_bit P) hn).ext e2
  have hb := h2.hp ox' oy' (flagOf_bit Q) hn'
  obtain ⟨⟨r, a'⟩, c3, f3, g3, e3, h3, h3'⟩ := (CSpec.pAdd a b).run c2 g2 ⟨ha, hb, fun _ => by
    rw [(h1.ext e2).x.val, (h1.ext e2).y.val]; exact h⟩
  have rP := (h1.ext (e2.trans e3)).represents hn
  have rQ := (h2.ext e3).represents hn'
  obtain ⟨k1, k2⟩ := C19_add f3 g3.sat rP rQ
  refine ⟨⟨[a', b, r], [], [a.z]⟩, c3, ?_, g3.sat, ⟨.cons k2 (.cons rQ (.cons k1 .nil)), .nil⟩⟩
  have r1 : (EOp.assign P).run ⟨[], [], []⟩ Ctx.empty = some (⟨[a], [], [a.z]⟩, c1) := by
    unfold EOp.run; dsimp only; rw [bind_some f1']; rfl
  have r2 : (EOp.constant Q).run ⟨[a], [], [a.z]⟩ c1 = some (⟨[a, b], [], [a.z]⟩, c2) := by
    unfold EOp.run; dsimp only; rw [bind_some f2]; rfl
  have r3 : (EOp.add 0 1).run ⟨[a, b], [], [a.z]⟩ c2 = some (⟨[a', b, r], [], [a.z]⟩, c3) := by
    unfold EOp.run; dsimp only
    have q1 : EState.pt ⟨[a, b], [], [a.z]⟩ 0 c2 = some (a, c2) := rfl
    have q2 : EState.pt ⟨[a, b], [], [a.z]⟩ 1 c2 = some (b, c2) := rfl
    rw [bind_some q1, bind_some q2, bind_some f3]
    rfl
  rw [runEProg_one r1, runEProg_one r2, runEProg_one r3]
  rfl

/-- The same for doubling. -/
theorem C58_double_partial {P : Pt} (h : TangentSafe (coordX P) (coordY P)) :
    ∃ s ctx, runEProg [.assign P, .double 0] ⟨[], [], []⟩ Ctx.empty = some (s, ctx) ∧
      Sat tables ctx ctx.wit ∧ EStands ctx.wit s ⟨[P, P + P], []⟩ := by
  obtain ⟨a, c1, f1, g1, e1, h1, ox, oy, hn⟩ := (CSpec.assignPointRaw _ _ _ (assign_ok P)).run Ctx.empty good_empty trivial
  have f1' : assignPoint P Ctx.empty = some (a, c1) := f1
  have ha := h1.hp ox oy (flagOf_bit P) hn
  obtain ⟨⟨r, a'⟩, c3, f3, g3, e3, h3, h3'⟩ := (CSpec.pDouble a).run c1 g1 ⟨ha, fun _ => by
    rw [h1.x.val, h1.y.val]; exact h⟩
  obtain ⟨k1, k2⟩ := C19_double f3 g3.sat ((h1.ext e3).represents hn)
  refine ⟨⟨[a', r], [], [a.z]⟩, c3, ?_, g3.sat, ⟨.cons k2 (.cons k1 .nil), .nil⟩⟩
  have r1 : (EOp.assign P).run ⟨[], [], []⟩ Ctx.empty = some (⟨[a], [], [a.z]⟩, c1) := by
    unfold EOp.run; dsimp only; rw [bind_some f1']; rfl
  have r3 : (EOp.double 0).run ⟨[a], [], [a.z]⟩ c1 = some (⟨[a', r], [], [a.z]⟩, c3) := by
    unfold EOp.run; dsimp only
    have q1 : EState.pt ⟨[a], [], [a.z]⟩ 0 c1 = some (a, c1) := rfl
    rw [bind_some q1, bind_some f3]
    rfl
  rw [runEProg_one r1, runEProg_one r3]
  rfl

/-- The hypothesis holds for twice the generator; this also meets the hypotheses of C19, C56 and C57. -/
example : ∃ s ctx, runEProg [.assign g2, .constant gen, .add 0 1] ⟨[], [], []⟩ Ctx.empty = some (s, ctx) ∧
      Sat tables ctx ctx.wit ∧ EStands ctx.wit s ⟨[g2, gen, g2 + gen], []⟩ :=
  C58_add_partial gen g2_safe

/-! ### C59: `constant_mul` and the honest prover -/

/-- `constant_mul` succeeds with satisfied constraints for every point and every scalar. -/
theorem C59_constant_mul_complete (P : Pt) (v : N) :
    ∃ s ctx, runEProg [.scalar v, .constantMul P 0] ⟨[], [], []⟩ Ctx.empty = some (s, ctx) ∧
      Sat tables ctx ctx.wit ∧ EStands ctx.wit s ⟨[v.val • P], [v]⟩ := by
  obtain ⟨k, c1, f1, g1, e1, h1, v1⟩ := (CSpec.assign (t := tables) v).run Ctx.empty good_empty trivial
  obtain ⟨r, c2, f2, g2, e2, h2⟩ := (CSpec.constantMul P k).run c1 g1 h1
  have hk : k.val c2.wit = v := by rw [val_wit (h1.ext e2), v1]
  have hr := C20_constant_mul f2 g2.sat
  rw [hk] at hr
  refine ⟨⟨[r], [k], []⟩, c2, ?_, g2.sat, ⟨.cons hr .nil, .cons hk .nil⟩⟩
  have r1 : (EOp.scalar v).run ⟨[], [], []⟩ Ctx.empty = some (⟨[], [k], []⟩, c1) := by
    unfold EOp.run; dsimp only; rw [bind_some f1]; rfl
  have r2 : (EOp.constantMul P 0).run ⟨[], [k], []⟩ c1 = some (⟨[r], [k], []⟩, c2) := by
    unfold EOp.run; dsimp only
    have q1 : EState.sc ⟨[], [k], []⟩ 0 c1 = some (k, c1) := rfl
    rw [bind_some q1, bind_some f2]
    rfl
  rw [runEProg_one r1, runEProg_one r2]
  rfl

/-! ### C60: the group order -/

/-- The group of the curve the chip works in has as many elements as the scalar field. -/
theorem C60_group_order : Nat.card Pt = frMod := card_eq

/-- Every point is a multiple of the generator, by exactly one scalar of the native field. -/
theorem C60_scalars (P : Pt) : ∃! v : N, v.val • gen = P := by
  have hcard : Nat.card Pt = frMod := card_eq
  have hfin : Finite Pt := Nat.finite_of_card_ne_zero (by rw [hcard]; exact (Fact.out : frMod.Prime).ne_zero)
  have hinj : Function.Injective (fun v : N => v.val • gen) := by
    intro v u h
    have := (nsmul_eq_nsmul_iff_modEq (x := gen) (m := u.val) (n := v.val)).1 h
    rw [addOrderOf_gen] at this
    have h2 := Nat.ModEq.eq_of_lt_of_lt this (ZMod.val_lt v) (ZMod.val_lt u)
    exact ZMod.val_injective _ h2
  have hbij : Function.Bijective (fun v : N => v.val • gen) :=
    (Nat.bijective_iff_injective_and_card _).2 ⟨hinj, by rw [hcard, Nat.card_zmod]⟩
  exact hbij.existsUnique P

end Verif.Circuit
