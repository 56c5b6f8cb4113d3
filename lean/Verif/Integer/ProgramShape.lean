import Verif.Integer.Program
import Verif.Integer.Shape

/-!
# The circuit does not depend on the witness: integer programs (helper lemmas)
-/

namespace Verif.Circuit

/-- Forget the witness value of an `assign`; every other argument of a call is part of the circuit. -/
def IOp.forget : IOp → IOp
  | .assign _ => .assign 0
  | op => op

/-- Same cells and counters; the honest values may differ. -/
structure SameState (s s' : IState) : Prop where
  ints : List.Forall₂ SameCells s.ints s'.ints
  bits : List.Forall₂ SameCell s.bits s'.bits

theorem forall2_set_set {α : Type} {R : α → α → Prop} {l l' : List α} (h : List.Forall₂ R l l') {a a' : α}
    (ha : R a a') : ∀ i, List.Forall₂ R (l.set i a) (l'.set i a') := by
  induction h with
  | nil => intro i; exact .nil
  | cons hx hl ih =>
    intro i
    cases i with
    | zero => exact .cons ha hl
    | succ i => exact .cons hx (ih i)

theorem SameState.int {s s' : IState} (h : SameState s s') (i : ℕ) : SameCells (s.int i) (s'.int i) :=
  forall2_getD (R := SameCells) ⟨fun _ => rfl, .none, rfl⟩ h.ints i

theorem SameState.bit {s s' : IState} (h : SameState s s') (i : ℕ) : SameCell (s.bit i) (s'.bit i) :=
  forall2_getD (R := SameCell) rfl h.bits i

theorem Rel.iop {s s' : IState} (h : SameState s s') {op op' : IOp} (ho : op.forget = op'.forget) :
    Rel (op.run s) (op'.run s') SameState := by
  have snoc : ∀ {l l' : List AInt}, List.Forall₂ SameCells l l' → ∀ {a a' : AInt}, SameCells a a' →
    List.Forall₂ SameCells (l ++ [a]) (l' ++ [a']) := fun hl _ _ ha => List.rel_append hl (.cons ha .nil)
  have bsnoc : ∀ {a a' : AV N}, SameCell a a' → List.Forall₂ SameCell (s.bits ++ [a]) (s'.bits ++ [a']) :=
    fun ha => List.rel_append h.bits (.cons ha .nil)
  cases op <;> cases op' <;> simp only [IOp.forget, IOp.assign.injEq, IOp.constant.injEq, IOp.reduce.injEq,
    IOp.add.injEq, IOp.sub.injEq, IOp.neg.injEq, IOp.mul.injEq, IOp.square.injEq, IOp.div.injEq,
    IOp.isZero.injEq, IOp.isEqual.injEq, IOp.assertEqual.injEq, IOp.bisec.injEq, reduceCtorEq] at ho
  case assign.assign => exact (Rel.assignW _ _).bind fun _ _ hr => Rel.pure ⟨snoc h.ints hr, h.bits⟩
  case constant.constant =>
    subst ho; exact (Rel.iassignConstant _).bind fun _ _ hr => Rel.pure ⟨snoc h.ints hr, h.bits⟩
  case reduce.reduce =>
    subst ho
    exact Rel.assertM.bind fun _ _ _ => (Rel.reduce (h.int _)).bind fun _ _ hr =>
      Rel.pure ⟨forall2_set_set h.ints hr _, h.bits⟩
  case add.add =>
    obtain ⟨rfl, rfl⟩ := ho
    exact Rel.assertM.bind fun _ _ _ => (Rel.iadd (h.int _) (h.int _)).bind fun _ _ hr =>
      Rel.pure ⟨snoc h.ints hr, h.bits⟩
  case sub.sub =>
    obtain ⟨rfl, rfl⟩ := ho
    exact Rel.assertM.bind fun _ _ _ => (Rel.isub (h.int _) (h.int _)).bind fun _ _ hr =>
      Rel.pure ⟨snoc h.ints hr, h.bits⟩
  case neg.neg =>
    subst ho
    exact Rel.assertM.bind fun _ _ _ => (Rel.ineg (h.int _)).bind fun _ _ hr =>
      Rel.pure ⟨snoc h.ints hr, h.bits⟩
  case mul.mul =>
    obtain ⟨rfl, rfl⟩ := ho
    exact Rel.assertM.bind fun _ _ _ => (Rel.imul (h.int _) (h.int _)).bind fun _ _ hr =>
      Rel.pure ⟨snoc (forall2_set_set (forall2_set_set h.ints hr.2.1 _) hr.2.2 _) hr.1, h.bits⟩
  case square.square =>
    subst ho
    exact Rel.assertM.bind fun _ _ _ => (Rel.isquare (h.int _)).bind fun _ _ hr =>
      Rel.pure ⟨snoc (forall2_set_set h.ints hr.2 _) hr.1, h.bits⟩
  case div.div =>
    obtain ⟨rfl, rfl⟩ := ho
    exact Rel.assertM.bind fun _ _ _ => (Rel.idiv (h.int _) (h.int _)).bind fun _ _ hr =>
      Rel.pure ⟨snoc (forall2_set_set (forall2_set_set h.ints hr.2.2.1 _) hr.2.2.2 _) hr.2.1, bsnoc hr.1⟩
  case isZero.isZero =>
    subst ho
    exact Rel.assertM.bind fun _ _ _ => (Rel.iisZero (h.int _)).bind fun _ _ hr =>
      Rel.pure ⟨forall2_set_set h.ints hr.2 _, bsnoc hr.1⟩
  case isEqual.isEqual =>
    obtain ⟨rfl, rfl⟩ := ho
    exact Rel.assertM.bind fun _ _ _ => (Rel.iisEqual (h.int _) (h.int _)).bind fun _ _ hr =>
      Rel.pure ⟨h.ints, bsnoc hr⟩
  case assertEqual.assertEqual =>
    obtain ⟨rfl, rfl⟩ := ho
    exact Rel.assertM.bind fun _ _ _ => (Rel.iassertEqual (h.int _) (h.int _)).bind fun _ _ _ => Rel.pure h
  case bisec.bisec =>
    obtain ⟨rfl, rfl, rfl⟩ := ho
    exact Rel.assertM.bind fun _ _ _ => (Rel.ibisec (h.bit _) (h.int _) (h.int _)).bind fun _ _ hr =>
      Rel.pure ⟨snoc h.ints hr, h.bits⟩

theorem Rel.iprog : ∀ {ops ops' : List IOp} {s s' : IState},
    ops.map IOp.forget = ops'.map IOp.forget → SameState s s' →
    Rel (runIProg ops s) (runIProg ops' s') SameState
  | [], [], _, _, _, he => Rel.pure he
  | [], _ :: _, _, _, h, _ => by simp at h
  | _ :: _, [], _, _, h, _ => by simp at h
  | op :: ps, op' :: ps', s, s', h, he => by
    simp only [List.map_cons, List.cons.injEq] at h
    unfold runIProg
    exact (Rel.iop he h.1).bind fun _ _ hn => Rel.iprog h.2 hn

end Verif.Circuit
