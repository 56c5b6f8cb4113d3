import Verif.Api.ForgeChip
import Verif.Top.SynthShape

/-!
# The sign of the right side can be forged in the whole verifier circuit

The right side of the pair is the result of a subtraction of points (multiopen.rs:103-119). Its second coordinate is reduced twice, in the
subtraction and before it is exposed, and both reductions accept a remainder that is greater by the modulus. The last bit that is exposed is then
the one of the opposite point.
-/

namespace Verif.Top
open Verif.Circuit Verif.Ecc Verif.Api

/-! ### Exposing another form of the second coordinate -/

/-- `exposePair` with `reduceForged` for the last coordinate. -/
def exposePairForged (p q : APt) : M N (List (AV N)) := do
  let x0 ← reduce p.x
  let y0 ← reduce p.y
  let x1 ← reduce q.x
  let y1 ← reduceForged q.y
  assertM (fqMod % 2 = 1)
  let b0 ← getLastBit y0
  let b1 ← getLastBit y1
  let (l0, h0) ← exposePoint x0 b0
  let (l1, h1) ← exposePoint x1 b1
  return [l0, h0, l1, h1]

theorem Rel.exposePairForged {p p' q q' : APt} (hp : SamePt p p') (hq : SamePt q q') :
    Rel (Top.exposePair p q) (Top.exposePairForged p' q') (List.Forall₂ SameCell) :=
  (Rel.reduce hp.x).bind fun _ _ h1 => (Rel.reduce hp.y).bind fun _ _ h2 => (Rel.reduce hq.x).bind fun _ _ h3 =>
    (Rel.reduceForged hq.y).bind fun _ _ h4 => Rel.assertM.bind fun _ _ _ => (Rel.getLastBit h2).bind fun _ _ h5 =>
    (Rel.getLastBit h4).bind fun _ _ h6 => (Rel.exposePoint h1 h5).bind fun _ _ h7 => (Rel.exposePoint h3 h6).bind fun _ _ h8 =>
    Rel.pure (.cons h7.1 (.cons h7.2 (.cons h8.1 (.cons h8.2 .nil))))

theorem CSpec.exposePairForged (p q : APt) (x y x' y' : ℕ) (hy : y' + fqMod < 2 ^ 254) : CSpec tables (Top.exposePairForged p q)
    (fun c => Reads c p.x x ∧ Reads c p.y y ∧ Reads c q.x x' ∧ Forgeable c q.y y')
    (fun c r => r.map (fun a => a.val c.wit) =
      [((pack x y).1 : N), ((pack x y).2 : N), ((pack x' (y' + fqMod)).1 : N), ((pack x' (y' + fqMod)).2 : N)]) := by
  constructor
  rintro ctx hg ⟨h1, h2, h3, h4⟩
  obtain ⟨r1, c1, e1, g1, x1, k1⟩ := (CSpec.reduce_reads p.x x).run ctx hg h1
  obtain ⟨r2, c2, e2, g2, x2, k2⟩ := (CSpec.reduce_reads p.y y).run c1 g1 (h2.ext x1)
  obtain ⟨r3, c3, e3, g3, x3, k3⟩ := (CSpec.reduce_reads q.x x').run c2 g2 (h3.ext (x1.trans x2))
  obtain ⟨r4, c4, e4, g4, x4, k4⟩ := (CSpec.reduceForged q.y y' hy).run c3 g3 (h4.ext (x1.trans (x2.trans x3)))
  obtain ⟨b1, c5, e5, g5, x5, k5, w5⟩ := (CSpec.getLastBit_holding r2 y).run c4 g4 (k2.ext (x3.trans x4))
  obtain ⟨b2, c6, e6, g6, x6, k6, w6⟩ := (CSpec.getLastBit_holding r4 (y' + fqMod)).run c5 g5 (k4.ext x5)
  obtain ⟨⟨l1, t1⟩, c7, e7, g7, x7, v7, v7', w7, w7'⟩ := (CSpec.exposePoint_holding r1 b1 x y).run c6 g6
    ⟨k1.ext (x2.trans (x3.trans (x4.trans (x5.trans x6)))), k5.ext x6, w5⟩
  obtain ⟨⟨l2, t2⟩, c8, e8, g8, x8, v8, v8', w8, w8'⟩ := (CSpec.exposePoint_holding r3 b2 x' (y' + fqMod)).run c7 g7
    ⟨k3.ext (x4.trans (x5.trans (x6.trans x7))), k6.ext x7, w6⟩
  refine ⟨[l1, t1, l2, t2], c8, ?_, g8, x1.trans (x2.trans (x3.trans (x4.trans (x5.trans (x6.trans (x7.trans x8)))))), ?_⟩
  · unfold Top.exposePairForged
    have hodd : (assertM (fqMod % 2 = 1) : M N Unit) c4 = some ((), c4) := if_pos fq_odd
    rw [bind_some e1, bind_some e2, bind_some e3, bind_some e4, bind_some hodd, bind_some e5, bind_some e6, bind_some e7]
    dsimp only
    rw [bind_some e8]
    rfl
  · dsimp only at v7 v7' v8 v8' w7 w7' w8 w8'
    rw [← w7, ← w7', ← w8, ← w8', ← val_wit (v7.ext x8), ← val_wit (v7'.ext x8), ← val_wit v8, ← val_wit v8']
    rfl

/-- The form of `y` that is greater by the modulus has the last bit of `-y`. -/
theorem pack_neg {P : Pt} (hP : P ≠ 0) : pack (coordX P).val ((coordY P).val + fqMod) = pack (coordX (-P)).val (coordY (-P)).val := by
  have a := coords_aff hP
  obtain ⟨h1, h2⟩ := (coords_aff (neg_ne_zero.2 hP)).unique a.neg
  rw [h1, h2, ZMod.neg_val, if_neg a.y_ne]
  have := ZMod.val_lt (coordY P)
  have := fq_odd
  simp only [pack, Prod.mk.injEq, true_and]
  congr 2
  omega

/-! ### The run -/

theorem build_inv {α β : Type} {x : Build α} {f : α → Build β} {c c2 : Ctx N} {b : β} (h : (x >>= f).1 c = some (b, c2)) :
    ∃ a c1, x.1 c = some (a, c1) ∧ (f a).1 c1 = some (b, c2) := by
  change (x.1 >>= fun a => (f a).1) c = _ at h
  simp only [Bind.bind, StateT.bind, Option.bind_eq_some_iff, Prod.exists] at h
  exact h

theorem same_residue {adv : Advice N} {a a' : AInt} (h : SameCells a a') : residue adv a = residue adv a' := by
  have e : limbsVal adv a.limbs = limbsVal adv a'.limbs := limbsVal_congr fun i => by
    unfold lv
    rw [val_sameCell (h.limbs i)]
  unfold residue
  rw [e]

/-- The assigned point has the coordinates of `P`, and is not marked as the identity. -/
def Shows (adv : Advice N) (p : APt) (P : Pt) : Prop := p.z.val adv = 0 ∧ Aff P (residue adv p.x) (residue adv p.y)

theorem Shows.eq_of {adv : Advice N} {p : APt} {P Q : Pt} (h : Shows adv p P) (h' : Represents adv p Q) : Q = P := by
  have h0 : Q ≠ 0 := fun h0 => by
    have := h'.1.ident h0
    rw [h.1] at this
    exact zero_ne_one this
  exact (h'.1.affine h0).2.ext h.2

open Guarded Forged in
theorem forged_pair {rate : ℕ} {ps : PoseidonSpec N rate} {d : Codec N Pt} {ts : List Target} {coherent : List ((ℕ × ℕ) × (ℕ × ℕ))}
    {l r : Pt} {is : List N} {commits : List (List Pt)}
    (h : aggregateTargets (guardedF false) ps (guardedFEncode false) d ts = some (l, r, is, commits))
    (h' : aggregateTargets (guardedF true) ps (guardedFEncode true) d ts = some (l, -r, is, commits))
    (hl : l ≠ 0) (hr : r ≠ 0) (hc : ∀ k ∈ coherent, Same commits k) {rows : List (AV N)} {ctx : Ctx N}
    (hrun : (synthesize ps d ts coherent).1 Ctx.empty = some (rows, ctx)) :
    ∃ adv, Sat tables ctx adv ∧ some (rows.map fun c => c.val adv) = pairToInstances l (-r) is ∧
      ∃ (p q : APt) (is' : List (AV N)) (cs : List (List APt)) (c1 : Ctx N),
        (aggregateTargets circuitChip ps circuitEncode d ts).1 Ctx.empty = some ((p, q, is', cs), c1) ∧ Shows adv p l ∧ Shows adv q r := by
  have hid : ts.map (TargetOf.map id) = ts := (List.map_congr_left fun t _ => target_map_id t).trans (List.map_id _)
  -- the forged run
  obtain ⟨⟨pa, qa, ia, cs⟩, w1, f1, e1, h2, h3, h4, h5⟩ := aggregateTargets_link (X := Forged.circuit false) (Forged.circuitBytes false ps d) (fun _ _ _ h => h)
    (fun _ => trivial) rfl (fun _ k => Run.of (Spec.assign k) (CSpec.assign k) trivial rfl fun _ _ hr => hr) (w := ⟨Ctx.empty, good_empty⟩) ts _ h
  obtain ⟨⟨p', q', is1', cs'⟩, w1', f1', e1', -, h3', -⟩ := aggregateTargets_link (X := Forged.circuit true) (Forged.circuitBytes true ps d) (fun _ _ _ h => h)
    (fun _ => trivial) rfl (fun _ k => Run.of (Spec.assign k) (CSpec.assign k) trivial rfl fun _ _ hr => hr) (w := ⟨Ctx.empty, good_empty⟩) ts _ h'
  rw [hid] at f1 f1'
  obtain ⟨q, rfl⟩ : ∃ q0 : APt, q0 = qa := ⟨qa, rfl⟩
  obtain ⟨p, rfl⟩ : ∃ p0 : APt, p0 = pa := ⟨pa, rfl⟩
  obtain ⟨is1, rfl⟩ : ∃ l : List (AV N), l = ia := ⟨ia, rfl⟩
  obtain ⟨hx, hw⟩ := Prod.mk.inj (Option.some.inj (f1.symm.trans f1'))
  have hq : q = q' := congrArg (fun x => x.2.1) hx
  have h2 : HQ w1.1 p l := h2
  have h3 : HEnd w1.1 q r ∨ Above w1.1 q r := h3
  have h3' : HEnd w1.1 q (-r) ∨ Above w1.1 q r := by
    have : HEnd w1'.1 q' (-r) ∨ Above w1'.1 q' (flip true (-r)) := h3'
    rw [← hw, ← hq, show flip true (-r) = r from neg_neg r] at this
    exact this
  have h4 : List.Forall₂ (Guarded.Cell w1) is is1 := h4
  have ha : Above w1.1 q r := by
    rcases h3 with h3 | h3
    · rcases h3' with h3' | h3'
      · exfalso
        have n := neg_ne_zero.2 hr
        obtain ⟨-, k1⟩ := h3.aff hr
        obtain ⟨-, k2⟩ := h3'.aff n
        have a := coords_aff hr
        have := ((coords_aff n).unique a.neg).2
        rw [← k2, k1] at this
        apply neg_parity a.y_ne
        rw [← this]
      · exact h3'
    · exact h3
  obtain ⟨w2, f2, e2⟩ := checkCoherent_run (h5.imp fun _ _ h => h.imp fun _ _ h => h.hq) coherent hc
  have k2 := h2.ext e2
  have k3 := ha.ext e2
  obtain ⟨u, c3, f3, g3, e3, -⟩ := (CSpec.assertConstant (t := tables) p.z 0 (by rw [k2.z, flagOf_ne hl])).run w2.1 w2.2 k2.hp.z
  obtain ⟨v, c4, f4, g4, e4, -⟩ := (CSpec.assertConstant (t := tables) q.z 0 k3.loose.zv).run c3 g3 (k3.loose.z.ext e3)
  have k2 := k2.ext (e3.trans e4)
  have k3 := k3.ext (e3.trans e4)
  obtain ⟨rows', c5, f5, g5, e5, h6⟩ := (CSpec.exposePairForged p q (coordX l).val (coordY l).val (coordX r).val (coordY r).val
    (by have := k3.small; have := small_lt.2; omega)).run c4 g4 ⟨.inr ⟨_, k2.pt.x, rfl⟩, .inr ⟨_, k2.pt.y, rfl⟩,
      .inr ⟨_, ⟨k3.loose.x, by have := k3.loose.xo.1; omega, k3.loose.xv⟩, rfl⟩, k3.loose.y.forgeable k3.pos⟩
  -- the circuit that is built
  obtain ⟨⟨Pa, Qa, Ia, CS⟩, C1, F1, hrun⟩ := build_inv hrun
  obtain ⟨P, rfl⟩ : ∃ p0 : APt, p0 = Pa := ⟨Pa, rfl⟩
  obtain ⟨Q, rfl⟩ : ∃ p0 : APt, p0 = Qa := ⟨Qa, rfl⟩
  obtain ⟨IS, rfl⟩ : ∃ l : List (AV N), l = Ia := ⟨Ia, rfl⟩
  obtain ⟨_, C2, F2, hrun⟩ := build_inv hrun
  obtain ⟨_, C3, F3, hrun⟩ := build_inv hrun
  obtain ⟨_, C4, F4, hrun⟩ := build_inv hrun
  obtain ⟨ROWS, C5, F5, hrun⟩ := build_inv hrun
  have hrows : rows = ROWS ++ IS ∧ ctx = C5 := by
    have : some (ROWS ++ IS, C5) = some (rows, ctx) := hrun
    simp only [Option.some.injEq, Prod.mk.injEq] at this
    exact ⟨this.1.symm, this.2.symm⟩
  obtain ⟨rfl, rfl⟩ := hrows
  have S1 := (aggregateTargets_link (X := Forged.shape) (Forged.bytes ps d) (fun _ _ _ h => h) (fun _ => trivial) rfl
    (fun _ k => Rel.assign k k) (w := ()) ts).run _ _ (SameCircuit.refl _) _ _ _ _ F1 (by rw [hid]; exact f1)
  obtain ⟨S1, rp, rq, ri, rc⟩ := S1
  have rp : SamePt P p := rp
  have rq : SamePt Q q := rq
  obtain ⟨S2, -⟩ := (checkCoherent_shape rc coherent).run _ _ S1 _ _ _ _ F2 f2
  obtain ⟨S3, -⟩ := (Rel.assertFalse rp.z).run _ _ S2 _ _ _ _ F3 f3
  obtain ⟨S4, -⟩ := (Rel.assertFalse rq.z).run _ _ S3 _ _ _ _ F4 f4
  obtain ⟨S5, rr⟩ := (Rel.exposePairForged rp rq).run _ _ S4 _ _ _ _ F5 f5
  obtain ⟨s1, s2⟩ := g5.sat
  have k2 := k2.ext e5
  have k3 := k3.ext e5
  refine ⟨c5.wit, ⟨by rw [S5.rows]; exact s1, by rw [S5.copies]; exact s2⟩, ?_, P, Q, IS, CS, C1, F1, ⟨?_, ?_⟩, ⟨?_, ?_⟩⟩
  · have hv : ∀ {l l' : List (AV N)}, List.Forall₂ SameCell l l' → (l.map fun c => c.val c5.wit) = l'.map fun c => c.val c5.wit := by
      intro l l' h
      induction h with
      | nil => rfl
      | cons h _ ih => rw [List.map_cons, List.map_cons, ih, val_sameCell h]
    rw [C48_native hl (neg_ne_zero.2 hr), List.map_append, hv rr, hv ri, h6, pack_neg hr]
    congr 2
    obtain ⟨h7, h8⟩ := cells h4
    rw [← h8]
    exact List.map_congr_left fun s hs => val_wit ((h7 s hs).ext (e2.trans (e3.trans (e4.trans e5))))
  · rw [val_sameCell rp.z, val_wit k2.hp.z, k2.z, flagOf_ne hl]
  · rw [same_residue rp.x, same_residue rp.y, k2.x, k2.y]
    exact coords_aff hl
  · rw [val_sameCell rq.z, val_wit k3.loose.z, k3.loose.zv]
  · rw [same_residue rq.x, same_residue rq.y, k3.loose.xv]
    refine (coords_aff hr).congr rfl ?_
    have hm := k3.loose.y.mod
    unfold residue
    rw [← Nat.div_add_mod (limbsVal c5.wit q.y.limbs) fqMod, hm, Nat.cast_add, Nat.cast_mul, ZMod.natCast_self, zero_mul, zero_add, ZMod.natCast_zmod_val]

/-! ### A case -/

namespace TinySynth
open TinyContract Checked Forged

/-- As `small`, for subtractions whose result is the generator. If `neg`, the result is taken with the opposite sign. -/
def smallF (neg : Bool) : Chip N N where
  m := Option
  monad := inferInstance
  S := N
  P := N
  panic := none
  add a b := some (a + b)
  sub a b := some (a - b)
  mul a b := some (a * b)
  div a b := if b * inv b = 1 then some (a * inv b) else none
  square a := some (a * a)
  sumWithCoeff l k := some (mockSum k l)
  mulAddConstant a b k := some (a * b + k)
  assignZero := some 0
  assignOne := some 1
  assignConst k := some k
  assignVar k := some k
  toValue v := some v
  pAdd a b := if a.val ≤ 64 ∧ (a + b = 0 → a = 0) then some (a + b) else none
  pSub a b := if a.val ≤ 64 ∧ a ≠ 0 ∧ b ≠ 0 ∧ a - b = 1 then some (if neg then -1 else 1) else none
  pAssignZero := some 0
  pAssignOne := some 1
  pAssignConst P := some P
  pAssignVar P := some P
  normalize a := some a
  scalarMul s a := if 15 * a.val ≤ 64 ∧ s.val * a.val ≤ 64 then some (s * a) else none
  scalarMulConstant s P := some (s * P)
  multiExp ps ss := if ps ≠ [] ∧ ps.length = ss.length ∧ (ps.all fun a => 15 * a.val ≤ 64) ∧ Small.total (ps.map ZMod.val) (ss.map ZMod.val) ≤ 64
    then mockMultiExp none ps ss else none

/-- As `smallEncode`. -/
def smallFEncode (neg : Bool) : Encode (smallF neg) where
  point := fun (k : N) => if 1 ≤ k.val ∧ k.val ≤ 64 then some [((Small.coords k.val).1 : N), ((Small.coords k.val).2 : N)] else none
  scalar := fun (s : N) => some [s]
  decode := fun (s : N) => some s

/-- As `targetsN`, with an evaluation in the second proof such that the right side is the generator. -/
def signTargetsN : List (TargetOf N) :=
  [⟨"first", vkN, [([[[4]]], [1, 2, 3, 5, 3, 4, 6, 1, 2])], 1⟩, ⟨"second", vkN, [([[[2]]], [1, 3, 2, 1, 1, 2, 3, 2, 1])], 1⟩]

noncomputable def signRun : Option (N × N × List N × List (List N)) := aggregateTargets small TinyPoseidon.deaf smallEncode codecN signTargetsN

noncomputable def signRunF (neg : Bool) : Option (N × N × List N × List (List N)) :=
  aggregateTargets (smallF neg) TinyPoseidon.deaf (smallFEncode neg) codecN signTargetsN

theorem signRun_check : (signRun == some (2, 1, [4, 2], [[1], [1]])) = true := by
  delta signRun aggregateTargets verifyAggregation verifyCircuit verifyProof verifyNoEval openParams queries proofQueries columnQuery xRotateOmega buildParams
    rotateOmega
  simp only [rotateBase_eq]
  decide +kernel

theorem signRun_eq : signRun = some (2, 1, [4, 2], [[1], [1]]) := eq_of_beq signRun_check

theorem signRunF_check : (signRunF false == some (2, 1, [4, 2], [[1], [1]])) = true ∧ (signRunF true == some (2, -1, [4, 2], [[1], [1]])) = true := by
  delta signRunF aggregateTargets verifyAggregation verifyCircuit verifyProof verifyNoEval openParams queries proofQueries columnQuery xRotateOmega buildParams
    rotateOmega
  simp only [rotateBase_eq]
  decide +kernel

theorem subF_of (neg : Bool) (a b : N) : R ((smallF neg).pSub a b) ((guardedF neg).pSub (toCurve a) (toCurve b)) fun (r : N) (r' : Pt) => r' = toCurve r := by
  intro r hr
  obtain ⟨⟨h1, h2, h3, h4⟩, h5⟩ := if_some hr
  have hs : Safe (toCurve a) := by
    rw [toCurve_nat]
    exact Small.safe h1
  have hd : toCurve a - toCurve b = gen := by rw [← map_sub, h4, toCurve_one]
  refine ⟨_, if_pos ⟨hs, toCurve_ne h2, toCurve_ne h3, by rw [hd]; exact gen_ne_zero, by rw [hd, coordY_gen]; decide +kernel⟩, ?_⟩
  rw [← Option.some.inj h5, hd]
  unfold Forged.flip
  cases neg
  · exact toCurve_one.symm
  · rw [if_pos rfl, if_pos rfl, map_neg, toCurve_one]

/-- As `link`. -/
noncomputable def linkF (neg : Bool) : Link (smallF neg) (guardedF neg) toCurve where
  W := Unit
  le _ _ := True
  refl _ := trivial
  trans _ _ := trivial
  R _ x x' Q := R x x' (Q ())
  s _ a a' := a' = a
  p _ a a' := a' = toCurve a
  n _ a a' := a' = toCurve a
  o _ a a' := a' = toCurve a
  known _ k a a' := a = k ∧ a' = k
  s_up _ h := h
  p_up _ h := h
  n_up _ h := h
  o_up _ h := h
  n_p h := h
  p_o h := h
  known_up _ h := h
  known_s h := h.2.trans h.1.symm
  pure h := R.some h
  bind hx h := R.bind hx fun a a' ha => h () a a' trivial ha
  mono hx h := fun a e => by
    obtain ⟨a', h1, h2⟩ := hx a e
    exact ⟨a', h1, h () a a' trivial h2⟩
  panic := fun a e => by cases e
  add := by rintro w a b a' b' rfl rfl; exact R.some rfl
  sub := by rintro w a b a' b' rfl rfl; exact R.some rfl
  mul := by rintro w a b a' b' rfl rfl; exact R.some rfl
  div := by
    rintro w a b (a' : N) (b' : N) ha hb
    obtain rfl : a = a' := ha.symm
    obtain rfl : b = b' := hb.symm
    exact div_of _ _
  square := by rintro w a a' rfl; exact R.some rfl
  sumWithCoeff h := by
    have := Checked.eq_of (h.imp fun (a b : N × N) h => (Prod.ext h.1 h.2.symm : b = a))
    subst this
    exact R.some rfl
  assignZero := R.some rfl
  assignOne := R.some rfl
  assignConst k := R.some ⟨rfl, rfl⟩
  toValue h := R.some (h.1.trans h.2.symm)
  pAdd := by
    intro w (a : N) (b : N) a' b' h1 h2
    subst h1
    subst h2
    exact add_of a b
  pSub := by
    intro w (a : N) (b : N) a' b' h1 h2
    subst h1
    subst h2
    exact subF_of neg a b
  pAssignOne := R.some toCurve_one.symm
  pAssignConst P := R.some rfl
  normalize h := R.some h
  scalarMul := by
    intro w (k : N) k' (a : N) a' h1 h2
    subst h1
    subst h2
    exact mul_of _ a
  scalarMulConstant := by
    intro w (k : N) k' (P : N) h1
    subst h1
    exact R.some (map_smul toCurve _ P).symm
  multiExp {w ps ps' ss ss'} hp hs := by
    have e1 := Checked.map_of hp
    have e2 := Checked.eq_of hs
    subst e1
    subst e2
    exact multiExp_of _ _

theorem wordsF (neg : Bool) : (linkF neg).SameWords (smallFEncode neg) (guardedFEncode neg) where
  point := by
    rintro w (p : N) (p' : Pt) h
    have h : p' = toCurve p := h
    subst h
    intro l hl
    obtain ⟨⟨h1, h2⟩, h3⟩ := if_some hl
    obtain ⟨cx, cy⟩ := Small.coords_eq h1 h2
    refine ⟨l, ?_, ?_⟩
    · change some [((coordX (toCurve p)).val : N), ((coordY (toCurve p)).val : N)] = some l
      rw [toCurve_nat, cx, cy]
      exact h3
    · exact (same_list (α := N) l).imp fun _ _ h => h.symm
  scalar := by
    rintro w (s : N) (s' : N) h
    exact R.some (.cons h .nil)
  decode := by
    rintro w (s : N) (s' : N) h
    exact R.some h

theorem mulAddF (neg : Bool) : (linkF neg).MulAdd := by
  rintro w (a : N) (a' : N) (b : N) (b' : N) k h h'
  have h : a' = a := h
  have h' : b' = b := h'
  subst h h'
  exact R.some rfl


noncomputable def bytesF (neg : Bool) : SameBytes (linkF neg) (poseidonTranscript (smallF neg) TinyPoseidon.deaf (smallFEncode neg))
    (poseidonTranscript (guardedF neg) TinyPoseidon.deaf (guardedFEncode neg)) codecN codec :=
  poseidonBytes (mulAddF neg) TinyPoseidon.deaf (wordsF neg) (fun _ => R.some rfl) (fun _ => R.some rfl) read_point fun _ => rfl

noncomputable def signTargets : List Target := signTargetsN.map (TargetOf.map toCurve)

theorem run_signF (neg : Bool) {k : N} (h : signRunF neg = some (2, k, [4, 2], [[1], [1]])) :
    aggregateTargets (guardedF neg) TinyPoseidon.deaf (guardedFEncode neg) codec signTargets = some (toCurve 2, toCurve k, [(4 : N), 2], [[gen], [gen]]) := by
  obtain ⟨⟨l, r, is, cs⟩, h1, h2, h3, h4, h5⟩ := aggregateTargets_link (X := linkF neg) (bytesF neg) (fun _ _ _ h => h) (fun _ => trivial) (map_zero toCurve)
    (fun _ _ => R.some rfl) (w := ()) signTargetsN _ h
  have h2 : l = toCurve 2 := h2
  have h3 : r = toCurve k := h3
  have h4 : List.Forall₂ (fun a a' : N => a' = a) [4, 2] is := h4
  have h5 : List.Forall₂ (List.Forall₂ fun (a : N) (a' : Pt) => a' = toCurve a) [[1], [1]] cs := h5
  have e4 : is = [(4 : N), 2] := Checked.eq_of h4
  have e5 : cs = [[toCurve 1], [toCurve 1]] := Checked.map_of (f := List.map toCurve) (h5.imp fun _ _ h => Checked.map_of h)
  refine h1.trans ?_
  rw [e4, e5, toCurve_one, h2, h3]
  rfl

theorem run_sign : aggregateTargets guarded TinyPoseidon.deaf guardedEncode codec signTargets = some (toCurve 2, gen, [(4 : N), 2], [[gen], [gen]]) := by
  obtain ⟨⟨l, r, is, cs⟩, h1, h2, h3, h4, h5⟩ := aggregateTargets_link (X := link) bytes (fun _ _ _ h => h) (fun _ => trivial) (map_zero toCurve)
    (fun _ _ => R.some rfl) (w := ()) signTargetsN _ signRun_eq
  have h2 : l = toCurve 2 := h2
  have h3 : r = toCurve 1 := h3
  have h4 : List.Forall₂ (fun a a' : N => a' = a) [4, 2] is := h4
  have h5 : List.Forall₂ (List.Forall₂ fun (a : N) (a' : Pt) => a' = toCurve a) [[1], [1]] cs := h5
  have e4 : is = [(4 : N), 2] := Checked.eq_of h4
  have e5 : cs = [[toCurve 1], [toCurve 1]] := Checked.map_of (f := List.map toCurve) (h5.imp fun _ _ h => Checked.map_of h)
  refine h1.trans ?_
  rw [e4, e5, h2, h3, toCurve_one]
  rfl

end TinySynth

open TinySynth TinyContract in
/-- C72 as stated is false: there are two proofs whose native verification returns the pair `(l, r)`; the circuit that verifies them is built, and it
has a satisfying assignment in which the points it computes are `l` and `r` but its public inputs are the ones of `l` and `-r`. -/
theorem C72_false : ∃ (rate : ℕ) (ps : PoseidonSpec N rate) (d : Codec N Pt) (ts : List Target) (l r : Pt) (is : List N) (commits : List (List Pt))
    (rows : List (AV N)) (ctx : Ctx N) (adv : Advice N),
    aggregateTargets (mock N gen) ps mockEncode d ts = some (l, r, is, commits) ∧
    (synthesize ps d ts []).1 Ctx.empty = some (rows, ctx) ∧ Sat tables ctx adv ∧
    some (rows.map fun c => c.val adv) = pairToInstances l (-r) is ∧ some (rows.map fun c => c.val adv) ≠ pairToInstances l r is ∧
    (∃ (p q : APt) (is' : List (AV N)) (cs : List (List APt)) (c1 : Ctx N),
      (aggregateTargets circuitChip ps circuitEncode d ts).1 Ctx.empty = some ((p, q, is', cs), c1) ∧ Shows adv p l ∧ Shows adv q r) := by
  have n2 : toCurve 2 ≠ 0 := toCurve_ne (by decide +kernel)
  obtain ⟨h1, rows, ctx, h2, -, -⟩ := C79_circuit_partial run_sign n2 gen_ne_zero (coherent := []) (by simp)
  have hF := run_signF false (eq_of_beq signRunF_check.1)
  have hT := run_signF true (eq_of_beq signRunF_check.2)
  rw [toCurve_one] at hF
  rw [map_neg, toCurve_one] at hT
  obtain ⟨adv, h3, h4, h5⟩ := forged_pair hF hT n2 gen_ne_zero (coherent := []) (by simp) h2
  refine ⟨_, _, _, _, _, _, _, _, rows, ctx, adv, h1, h2, h3, h4, fun h => ?_, h5⟩
  have := (C48_injective n2 (neg_ne_zero.2 gen_ne_zero) n2 gen_ne_zero (h4.symm.trans h)).2.1
  have a := coords_aff gen_ne_zero
  have b : Aff (-gen) (coordX gen) (coordY gen) := by
    rw [this]
    exact a
  have e := (a.neg.unique b).2
  rw [coordY_gen] at e
  exact absurd e (by decide +kernel)

end Verif.Top
