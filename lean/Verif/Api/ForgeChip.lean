import Verif.Api.GuardedCircuit
import Verif.Api.LinkShape
import Verif.Api.PoseidonProps
import Verif.Ecc.Forge

/-!
# The verifier with another witness for the last subtraction

`forgedChip` builds the circuits of `circuitChip`, and assigns the values of `pSubForged` in subtractions of points. It is not a definition of the code;
the witness of `C72_false` is made of it.
-/

namespace Verif.Api
open Verif.Circuit Verif.Ecc

section Ops
open Circuit

theorem assignLimbs_spec (x : ℕ) : Spec tables (assignLimbs x) fun _ _ => True :=
  (Spec.assignWCeilLeadingLimb _).seq fun _ => (Spec.assignNonleadingLimb _).seq fun _ => (Spec.assignNonleadingLimb _).seq fun _ =>
    (Spec.assignNonleadingLimb _).seq fun _ => (Spec.pure _).mono fun _ _ _ => trivial

theorem oneLineAdd_spec (ps : List (Circuit.Schema N × N)) (k : N) : Spec tables (oneLineAdd ps k) fun _ _ => True := by
  unfold oneLineAdd
  exact (Spec.oneLine _ _ _ _ _).mono fun _ _ _ => trivial

theorem reduceForged_spec (a : AInt) : Spec tables (reduceForged a) fun _ _ => True := by
  unfold reduceForged
  split
  · exact (Spec.pure _).mono fun _ _ _ => trivial
  · exact (Spec.assertM _).seq fun _ => (Spec.unwrapM _).seq fun _ => (assignLimbs_spec _).seq fun _ => (Spec.oneLineSel _ _ _ _ _ _).seq fun _ =>
      (Spec.native _).seq fun _ => (Spec.native _).seq fun _ => (oneLineAdd_spec _ _).seq fun _ => (oneLineAdd_spec _ _).seq fun _ =>
      (Spec.pure _).mono fun _ _ _ => trivial

theorem isubForged_spec (a b : AInt) : Spec tables (isubForged a b) fun _ _ => True := by
  refine (Spec.unwrapM _).seq fun up => (Spec.sumWithConstant _ _).seq fun l0 => (Spec.sumWithConstant _ _).seq fun l1 => (Spec.sumWithConstant _ _).seq fun l2 =>
    (Spec.sumWithConstant _ _).seq fun l3 => ?_
  dsimp only
  split
  · exact reduceForged_spec _
  · exact (Spec.pure _).mono fun _ _ _ => trivial

theorem pSubForged_spec (a b : APt) : Spec tables (pSubForged a b) fun _ _ => True :=
  (Spec.pNeg _).seq fun _ => (Spec.isub _ _).seq fun _ => (Spec.isub _ _).seq fun _ => (Spec.idiv _ _).seq fun _ => (Spec.iisZero _).seq fun _ =>
    (Spec.and _ _).seq fun _ => (Spec.curvature _).seq fun _ => (Spec.bisecCurv _ _ _).seq fun _ =>
    ((Spec.isquare _).seq fun _ => (Spec.isub _ _).seq fun _ => (Spec.isub _ _).seq fun _ => (Spec.isub _ _).seq fun _ =>
      (Spec.imul _ _).seq fun _ => (isubForged_spec _ _).seq fun _ => (Spec.pure _).mono fun _ _ _ => trivial).seq fun _ =>
    (Spec.bisecPoint _ _ _).seq fun _ => (Spec.bisecPoint _ _ _).seq fun _ => (Spec.pure _).mono fun _ _ _ => trivial

instance growsReduceForged (a : AInt) : Grows (reduceForged a) := by
  unfold reduceForged
  grows

instance growsIsubForged (a b : AInt) : Grows (isubForged a b) := by
  unfold isubForged
  grows

instance growsLambdaForged (l : ACurv) (a b : APt) : Grows (lambdaToPointForged l a b) := by
  unfold lambdaToPointForged
  grows

instance growsAddForged (a b : APt) : Grows (pAddForged a b) := by
  unfold pAddForged
  grows

instance growsSubForged (a b : APt) : Grows (pSubForged a b) := by
  unfold pSubForged
  grows

end Ops

/-- `sub` with `pSubForged`. -/
noncomputable def subForged (a b : APt) : Build APt := Prod.fst <$> Build.of (Circuit.pSubForged a b) (pSubForged_spec a b)

/-- The circuit chip, with other values in subtractions. -/
noncomputable def forgedChip : Chip N Pt where
  m := Build
  monad := inferInstance
  S := AV N
  P := APt
  panic := Build.of (fun _ => none) (Spec.fail fun _ _ => True)
  add a b := .of (Circuit.add a b) (Spec.add a b)
  sub a b := .of (Circuit.sub a b) (Spec.sub a b)
  mul a b := .of (Circuit.mul a b) (Spec.mul a b)
  div a b := .of (Circuit.divUnsafe a b) (Spec.divUnsafe a b)
  square a := .of (Circuit.mul a a) (Spec.mul a a)
  sumWithCoeff l k := .of (Circuit.sumWithConstant l k) (Spec.sumWithConstant l k)
  mulAddConstant a b k := .of (Circuit.mulAddConstant a b k) (Spec.mulAddConstant a b k)
  assignZero := .of (Circuit.assignConstant 0) (Spec.assignConstant 0)
  assignOne := .of (Circuit.assignConstant 1) (Spec.assignConstant 1)
  assignConst k := .of (Circuit.assignConstant k) (Spec.assignConstant k)
  assignVar k := .of (Circuit.assign k) (Spec.assign k)
  toValue v := pure v.value
  pAdd a b := Prod.fst <$> Build.of (Circuit.pAdd a b) (Spec.pAdd a b)
  pSub a b := subForged a b
  pAssignZero := .of Circuit.assignIdentity Spec.assignIdentity
  pAssignOne := .of (Circuit.assignConstantPointFromScalar 1) (Spec.assignConstantPoint _)
  pAssignConst P := .of (Circuit.assignConstantPoint P) (Spec.assignConstantPoint P)
  pAssignVar P := .of (Circuit.assignPoint P) (Spec.assignPoint P)
  normalize a := Prod.fst <$> Build.of (Circuit.pReduce a) (Spec.pReduce a)
  scalarMul s a := .of (Circuit.pMul a s) (Spec.pMul a s)
  scalarMulConstant s P := .of (Circuit.constantMul P s) (Spec.constantMul P s)
  multiExp ps ss := .of (Circuit.shamir ps ss) (Spec.shamir ps ss)

/-- As `circuitEncode`. -/
noncomputable def forgedEncode : Encode forgedChip where
  point p := do
    let x ← Build.of (Circuit.native p.x) (Spec.native p.x)
    let y ← Build.of (Circuit.native p.y) (Spec.native p.y)
    return [x.1, y.1]
  scalar s := return [s]
  decode s := return s

namespace Forged

/-! ### The same circuit -/

section Shape
open Shape

noncomputable def shape : Link circuitChip forgedChip (id : Pt → Pt) where
  W := Unit
  le _ _ := True
  refl _ := trivial
  trans _ _ := trivial
  R _ x x' Q := Both x x' (Q ())
  s _ := SameCell
  p _ := SamePt
  n _ := SamePt
  o _ := SamePt
  known _ k a a' := SameCell (F := N) a a' ∧ AV.value a = k ∧ AV.value a' = k
  s_up _ h := h
  p_up _ h := h
  n_up _ h := h
  o_up _ h := h
  n_p h := h
  p_o h := h
  known_up _ h := h
  known_s h := h.1
  pure h := Both.pure h
  bind hx h := Both.bind hx fun a a' ha => h () a a' trivial ha
  mono hx h := Both.mono hx fun a a' ha => h () a a' trivial ha
  panic := Both.panic
  add ha hb := Rel.add ha hb
  sub ha hb := Rel.sub ha hb
  mul ha hb := Rel.mul ha hb
  div ha hb := Rel.divUnsafe ha hb
  square ha := Rel.mul ha ha
  sumWithCoeff h := Rel.sumWithConstant h _
  assignZero := Rel.assignConstant 0
  assignOne := Rel.assignConstant 1
  assignConst k := Rel.assignConstant_known k
  toValue h := Both.pure (h.2.1.trans h.2.2.symm)
  pAdd ha hb := Both.fst (Both.of' (Rel.pAdd ha hb))
  pSub ha hb := Both.fst (Both.of' (Rel.pSubForged ha hb))
  pAssignOne := Rel.assignConstantPoint _
  pAssignConst P := Rel.assignConstantPoint P
  normalize ha := Both.fst (Both.of' (Rel.pReduce ha))
  scalarMul hk ha := Rel.pMul ha hk
  scalarMulConstant P hk := Rel.constantMul P hk
  multiExp hp hs := Rel.shamir hp hs

theorem words : shape.SameWords circuitEncode forgedEncode where
  point := fun {w p p'} h => by
    have h : SamePt p p' := h
    exact Both.bind (Both.of (Rel.native h.x)) fun x x' hx => Both.bind (Both.of (Rel.native h.y)) fun y y' hy => Both.pure (.cons hx.1 (.cons hy.1 .nil))
  scalar h := Both.pure (.cons h .nil)
  decode h := Both.pure h

theorem mulAdd : shape.MulAdd := fun k ha hb => Rel.mulAddConstant ha hb k

/-- The Poseidon transcripts. -/
noncomputable def bytes {rate : ℕ} (ps : PoseidonSpec N rate) (d : Codec N Pt) :
    SameBytes shape (poseidonTranscript circuitChip ps circuitEncode) (poseidonTranscript forgedChip ps forgedEncode) d d :=
  poseidonBytes mulAdd ps words (fun k => Rel.assign k k) (fun P => Rel.assignPointRaw _ _ _ _ _ _) (Guarded.id_point d) fun _ => rfl

end Shape

/-! ### It is satisfied -/

/-- The point or its negation. -/
def flip (neg : Bool) (P : Pt) : Pt := if neg then -P else P

theorem flip_flip (neg : Bool) (P : Pt) : flip neg (flip neg P) = P := by
  unfold flip
  split
  · exact neg_neg P
  · rfl

open Classical in
/-- The guarded native chip, for subtractions that are done with `pSubForged`. If `neg`, their results are taken with the opposite sign. -/
noncomputable def guardedF (neg : Bool) : Chip N Pt where
  m := Option
  monad := inferInstance
  S := N
  P := Pt
  panic := none
  add a b := some (a + b)
  sub a b := some (a - b)
  mul a b := some (a * b)
  div a b := if b = 0 then none else some (a * b⁻¹)
  square a := some (a * a)
  sumWithCoeff l k := some (mockSum k l)
  mulAddConstant a b k := some (a * b + k)
  assignZero := some 0
  assignOne := some 1
  assignConst k := some k
  assignVar k := some k
  toValue v := some v
  pAdd a b := if Safe a ∧ (a + b = 0 → a = 0) then some (a + b) else none
  pSub a b := if Safe a ∧ a ≠ 0 ∧ b ≠ 0 ∧ a - b ≠ 0 ∧ (coordY (a - b)).val < 2 ^ 68 then some (flip neg (a - b)) else none
  pAssignZero := some 0
  pAssignOne := some gen
  pAssignConst P := some P
  pAssignVar P := some P
  normalize a := some a
  scalarMul s a := if MulSafe a s.val then some (s • a) else none
  scalarMulConstant s P := some (s • P)
  multiExp ps ss := if ps ≠ [] ∧ ps.length = ss.length ∧ ShamirSafe ps (ss.map ZMod.val) then mockMultiExp none ps ss else none

/-- As `guardedEncode`. -/
noncomputable def guardedFEncode (neg : Bool) : Encode (guardedF neg) where
  point := fun (P : Pt) => some [((coordX P).val : N), ((coordY P).val : N)]
  scalar := fun (s : N) => some [s]
  decode := fun (s : N) => some s

/-- The coordinates of `P`, the second one greater by the modulus or more, and not reduced. -/
structure Above (c : Ctx N) (p : APt) (P : Pt) : Prop where
  ne : P ≠ 0
  small : (coordY P).val < 2 ^ 68
  loose : LoosePt c p (coordX P) (coordY P).val
  pos : p.y.overflows ≠ 0

theorem Above.ext {c c' : Ctx N} {p : APt} {P : Pt} (h : Above c p P) (he : Ext c c') : Above c' p P :=
  ⟨h.ne, h.small, ⟨h.loose.x.ext he, h.loose.xo, by rw [residue_ext h.loose.x he]; exact h.loose.xv, h.loose.y.ext he, h.loose.z.ext he, h.loose.zv⟩, h.pos⟩

open Guarded

/-- The circuit chip with other values in subtractions. -/
noncomputable def circuit (neg : Bool) : Link (guardedF neg) forgedChip (id : Pt → Pt) where
  W := Stage
  le w w' := Ext w.1 w'.1
  refl w := Ext.refl _
  trans h h' := h.trans h'
  R w x x' Q := Run w x x' Q
  s := Guarded.Cell
  p w P p := HQ w.1 p P
  n w P p := HNorm w.1 p P
  o w P p := HEnd w.1 p P ∨ Above w.1 p (flip neg P)
  known w k a a' := a = k ∧ Guarded.Cell w k a'
  s_up h e := ⟨e.1.ext h, e.2⟩
  p_up h e := e.ext h
  n_up h e := e.ext h
  o_up h e := e.imp (HEnd.ext · h) (Above.ext · h)
  n_p h := h.hq
  p_o h := .inl h.end
  known_up h e := ⟨e.1, e.2.1.ext h, e.2.2⟩
  known_s h := h.1 ▸ h.2
  pure h := Run.pure h
  bind hx h := Run.bind hx fun w' a a' hw ha => h w' a a' hw ha
  mono hx h := fun a e => by
    obtain ⟨a', w', h1, h2, h3⟩ := hx a e
    exact ⟨a', w', h1, h2, h w' a a' h2 h3⟩
  panic := fun a e => by cases e
  add := fun {w} {a b : N} {a' b' : AV N} ha hb => Run.of (Spec.add a' b') (CSpec.sumWithConstant _ _) (by simpa using ⟨ha.1, hb.1⟩) rfl
    fun w' r hr => ⟨hr.1, by rw [hr.2]; exact sum_add ha hb⟩
  sub := fun {w} {a b : N} {a' b' : AV N} ha hb => Run.of (Spec.sub a' b') (CSpec.sumWithConstant _ _) (by simpa using ⟨ha.1, hb.1⟩) rfl
    fun w' r hr => ⟨hr.1, by rw [hr.2]; exact sum_sub ha hb⟩
  mul := fun {w} {a b : N} {a' b' : AV N} ha hb => Run.of (Spec.mul a' b') (CSpec.mul _ _) ⟨ha.1, hb.1⟩ rfl fun w' r hr => ⟨hr.1, by rw [hr.2, ha.2, hb.2]⟩
  div := fun {w} (a : N) (b : N) (a' : AV N) (b' : AV N) ha hb => by
    intro r hr
    change (if b = 0 then none else some (a * b⁻¹)) = some r at hr
    by_cases h0 : b = 0
    · rw [if_pos h0] at hr
      cases hr
    · rw [if_neg h0] at hr
      refine Run.of (Spec.divUnsafe a' b') (CSpec.divUnsafe _ _ (by rw [hb.2]; exact h0)) ⟨ha.1, hb.1⟩ rfl (fun w' r hr => ⟨hr.1, ?_⟩) r hr
      rw [hr.2, ha.2, hb.2, div_eq_mul_inv]
  square := fun {w} {a : N} {a' : AV N} ha => Run.of (Spec.mul a' a') (CSpec.mul _ _) ⟨ha.1, ha.1⟩ rfl fun w' r hr => ⟨hr.1, by rw [hr.2, ha.2]⟩
  sumWithCoeff := fun {w} {k : N} {l : List (N × N)} {l' : List (AV N × N)} h => by
    obtain ⟨h1, h2⟩ := terms h
    exact Run.of (Spec.sumWithConstant l' k) (CSpec.sumWithConstant _ _) h1 rfl fun w' r hr => ⟨hr.1, by rw [hr.2, h2]; exact (mockSum_eq _ _).symm⟩
  assignZero := Run.of (Spec.assignConstant 0) (CSpec.assignConstant _) trivial rfl fun w' r hr => ⟨hr.1, hr.2⟩
  assignOne := Run.of (Spec.assignConstant 1) (CSpec.assignConstant _) trivial rfl fun w' r hr => ⟨hr.1, hr.2⟩
  assignConst k := Run.of (Spec.assignConstant k) (CSpec.assignConstant _) trivial rfl fun w' r hr => ⟨rfl, hr.1, hr.2⟩
  toValue h := Run.pure (h.1.trans h.2.2.symm)
  pAdd := fun {w} {a b : Pt} {a' b' : APt} ha hb => Run.ite fun hs => Run.fst (Run.of (Spec.pAdd a' b') (CSpec.pAdd_q a' b' a b hs.2) ⟨ha, hb, fun _ => hs.1⟩ rfl
    fun w' r hr => hr.1)
  pSub := fun {w} {a b : Pt} {a' b' : APt} ha hb => Run.ite fun hs => Run.fst (Run.of (pSubForged_spec a' b')
    (CSpec.pSubForged a' b' a b (coordY (a - b)).val hs.2.2.2.2 hs.2.1 hs.2.2.1 hs.2.2.2.1 (ZMod.natCast_zmod_val _).symm) ⟨ha, hb, fun _ => hs.1⟩ rfl
    fun w' r hr => .inr ((flip_flip neg (a - b)).symm ▸ ⟨hs.2.2.2.1, hs.2.2.2.2, hr.1, hr.2⟩))
  pAssignOne := Run.of (Spec.assignConstantPoint _) (CSpec.assignConstantPoint_n _) trivial rfl fun w' r hr => hr.hq
  pAssignConst P := Run.of (Spec.assignConstantPoint P) (CSpec.assignConstantPoint_n P) trivial rfl fun w' r hr => hr
  normalize := fun {w} {a : Pt} {a' : APt} ha => Run.fst (Run.of (Spec.pReduce a') (CSpec.pReduce_n a' a) ha rfl fun w' r hr => hr)
  scalarMul := fun {w} (k : N) (k' : AV N) (a : Pt) (a' : APt) hk ha => Run.ite fun hs => Run.of (Spec.pMul a' k') (CSpec.pMul_q a' k' a (by rw [hk.2]; exact hs))
    ⟨ha, hk.1⟩ rfl fun w' r hr => by
      rw [hk.2, ← smul_eq_val] at hr
      exact hr
  scalarMulConstant := fun {w} (k : N) (k' : AV N) (P : Pt) hk => Run.of (Spec.constantMul P k') (CSpec.constantMul_q P k') hk.1 rfl fun w' r hr => by
    rw [hk.2, ← smul_eq_val] at hr
    exact hr.1
  multiExp := fun {w} (ps : List Pt) (ps' : List APt) (ss : List N) (ss' : List (AV N)) hp hs => Run.ite fun hg => by
    obtain ⟨h1, h2⟩ := cells hs
    have hv : ss'.map (fun s => s.value.val) = ss.map ZMod.val := by rw [← h2, List.map_map]; rfl
    refine Run.of (Spec.shamir ps' ss') (CSpec.shamir_q ps' ss' ps (by rw [hv]; exact hg.2.2) ?_ ?_) ⟨hp.flip.imp fun _ _ h => h.hq, h1⟩
      (Guarded.mockMultiExp_none hg.1 hg.2.1) fun w' r hr => ?_
    · exact (hp.length_eq.symm.trans hg.2.1).trans hs.length_eq
    · rintro rfl
      cases hp
      exact hg.1 rfl
    · rw [hv] at hr
      exact hr

theorem circuit_mulAdd (neg : Bool) : (circuit neg).MulAdd := fun {w} {a : N} {a' : AV N} {b : N} {b' : AV N} k ha hb =>
  Run.of (Spec.mulAddConstant a' b' k) (CSpec.mulAddConstant _ _ _) ⟨ha.1, hb.1⟩ rfl fun w' r hr => ⟨hr.1, by rw [hr.2, ha.2, hb.2]⟩

theorem circuit_words (neg : Bool) : (circuit neg).SameWords (guardedFEncode neg) forgedEncode where
  point := by
    rintro w (P : Pt) (p : APt) h
    have h : HNorm w.1 p P := h
    intro l hl
    obtain ⟨x, c1, f1, g1, e1, v1, k1, -⟩ := (CSpec.native p.x).run w.1 w.2 h.hq.hp.x.vint
    obtain ⟨y, c2, f2, g2, e2, v2, k2, -⟩ := (CSpec.native p.y).run c1 g1 (h.hq.hp.y.vint.ext e1)
    have h' := h.ext e1
    have h'' := h'.ext e2
    refine ⟨[x.1, y.1], ⟨c2, g2⟩, build_run f1 (build_run f2 rfl), e1.trans e2, ?_⟩
    obtain rfl := (Option.some.inj hl).symm
    exact .cons ⟨v1.ext e2, by rw [k1, h'.words.1]⟩ (.cons ⟨v2, by rw [k2, h''.words.2]⟩ .nil)
  scalar h := Run.pure (.cons h .nil)
  decode h := Run.pure h

/-- The Poseidon transcripts. -/
noncomputable def circuitBytes (neg : Bool) {rate : ℕ} (ps : PoseidonSpec N rate) (d : Codec N Pt) :
    SameBytes (circuit neg) (poseidonTranscript (guardedF neg) ps (guardedFEncode neg)) (poseidonTranscript forgedChip ps forgedEncode) d d :=
  poseidonBytes (circuit_mulAdd neg) ps (circuit_words neg)
    (fun k => Run.of (Spec.assign k) (CSpec.assign k) trivial rfl fun w' r hr => hr)
    (fun P => Run.of (Spec.assignPoint P) (CSpec.assignPoint_n P) trivial rfl fun w' r hr => hr) (id_point d) fun _ => rfl

end Forged
end Verif.Api
