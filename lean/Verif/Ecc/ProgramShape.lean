import Verif.Ecc.Program
import Verif.Ecc.Shape
import Verif.Integer.ProgramShape

/-!
# The circuit does not depend on the witness: ECC programs (helper lemmas)
-/

namespace Verif.Circuit

open Verif.Ecc

/-- Forget the witness of a call; every other argument is part of the circuit. -/
def EOp.forget : EOp → EOp
  | .scalar _ => .scalar 0
  | .assign _ => .assign 0
  | op => op

/-- Same cells and counters; the honest values may differ. -/
structure SameEState (s s' : EState) : Prop where
  pts : List.Forall₂ SamePt s.pts s'.pts
  scs : List.Forall₂ SameCell s.scs s'.scs
  inputs : List.Forall₂ SameCell s.inputs s'.inputs

theorem same_nth {α : Type} {R : α → α → Prop} {l l' : List α} (h : List.Forall₂ R l l') {i : ℕ} {x x' : α}
    (hx : l[i]? = some x) (hx' : l'[i]? = some x') : R x x' := by
  rw [List.getElem?_eq_some_iff] at hx hx'
  obtain ⟨i1, rfl⟩ := hx
  obtain ⟨i2, rfl⟩ := hx'
  exact (List.forall₂_iff_get.1 h).2 i i1 i2

theorem same_nths {α : Type} {R : α → α → Prop} {l l' : List α} (h : List.Forall₂ R l l') : ∀ {is : List ℕ}
    {xs xs' : List α}, is.mapM (fun i => l[i]?) = some xs → is.mapM (fun i => l'[i]?) = some xs' →
    List.Forall₂ R xs xs'
  | [], _, _, h1, h2 => by cases h1; cases h2; exact .nil
  | i :: is, _, _, h1, h2 => by
    simp only [List.mapM_cons, Option.bind_eq_bind, Option.bind_eq_some_iff, Option.pure_def,
      Option.some.injEq] at h1 h2
    obtain ⟨b, hb, t, ht, rfl⟩ := h1
    obtain ⟨b', hb', t', ht', rfl⟩ := h2
    exact .cons (same_nth h hb hb') (same_nths h ht ht')

theorem Rel.pt {s s' : EState} (h : SameEState s s') (i : ℕ) : Rel (s.pt i) (s'.pt i) SamePt :=
  (Rel.unwrapM _ _).mono fun _ _ q => same_nth h.pts q.1 q.2

theorem Rel.sc {s s' : EState} (h : SameEState s s') (i : ℕ) : Rel (s.sc i) (s'.sc i) SameCell :=
  (Rel.unwrapM _ _).mono fun _ _ q => same_nth h.scs q.1 q.2

theorem Rel.eop {s s' : EState} (h : SameEState s s') {op op' : EOp} (ho : op.forget = op'.forget) :
    Rel (op.run s) (op'.run s') SameEState := by
  have snoc : ∀ {l l' : List APt}, List.Forall₂ SamePt l l' → ∀ {a a' : APt}, SamePt a a' →
    List.Forall₂ SamePt (l ++ [a]) (l' ++ [a']) := fun hl _ _ ha => List.rel_append hl (.cons ha .nil)
  have csnoc : ∀ {l l' : List (AV N)}, List.Forall₂ SameCell l l' → ∀ {a a' : AV N}, SameCell a a' →
    List.Forall₂ SameCell (l ++ [a]) (l' ++ [a']) := fun hl _ _ ha => List.rel_append hl (.cons ha .nil)
  cases op <;> cases op' <;> simp only [EOp.forget, EOp.constant.injEq, EOp.reduce.injEq, EOp.double.injEq,
    EOp.add.injEq, EOp.sub.injEq, EOp.neg.injEq, EOp.mul.injEq, EOp.constantMul.injEq, EOp.shamir.injEq,
    EOp.assertEqual.injEq, reduceCtorEq] at ho
  case scalar.scalar =>
    exact (Rel.assign _ _).bind fun _ _ q => Rel.pure ⟨h.pts, csnoc h.scs q, h.inputs⟩
  case assign.assign =>
    exact (Rel.assignPointRaw _ _ _ _ _ _).bind fun _ _ q => Rel.pure ⟨snoc h.pts q, h.scs, csnoc h.inputs q.z⟩
  case constant.constant =>
    subst ho
    exact (Rel.assignConstantPoint _).bind fun _ _ q => Rel.pure ⟨snoc h.pts q, h.scs, h.inputs⟩
  case identity.identity =>
    exact Rel.assignIdentity.bind fun _ _ q => Rel.pure ⟨snoc h.pts q, h.scs, h.inputs⟩
  case add.add =>
    obtain ⟨rfl, rfl⟩ := ho
    exact (Rel.pt h _).bind fun _ _ q1 => (Rel.pt h _).bind fun _ _ q2 => (Rel.pAdd q1 q2).bind fun _ _ q =>
      Rel.pure ⟨snoc (forall2_set_set h.pts q.2 _) q.1, h.scs, h.inputs⟩
  case double.double =>
    subst ho
    exact (Rel.pt h _).bind fun _ _ q1 => (Rel.pDouble q1).bind fun _ _ q =>
      Rel.pure ⟨snoc (forall2_set_set h.pts q.2 _) q.1, h.scs, h.inputs⟩
  case neg.neg =>
    subst ho
    exact (Rel.pt h _).bind fun _ _ q1 => (Rel.pNeg q1).bind fun _ _ q =>
      Rel.pure ⟨snoc h.pts q, h.scs, h.inputs⟩
  case sub.sub =>
    obtain ⟨rfl, rfl⟩ := ho
    exact (Rel.pt h _).bind fun _ _ q1 => (Rel.pt h _).bind fun _ _ q2 => (Rel.pSub q1 q2).bind fun _ _ q =>
      Rel.pure ⟨snoc (forall2_set_set h.pts q.2 _) q.1, h.scs, h.inputs⟩
  case reduce.reduce =>
    subst ho
    exact (Rel.pt h _).bind fun _ _ q1 => (Rel.pReduce q1).bind fun _ _ q =>
      Rel.pure ⟨snoc (forall2_set_set h.pts q.2 _) q.1, h.scs, h.inputs⟩
  case mul.mul =>
    obtain ⟨rfl, rfl⟩ := ho
    exact (Rel.pt h _).bind fun _ _ q1 => (Rel.sc h _).bind fun _ _ q2 => (Rel.pMul q1 q2).bind fun _ _ q =>
      Rel.pure ⟨snoc h.pts q, h.scs, h.inputs⟩
  case constantMul.constantMul =>
    obtain ⟨rfl, rfl⟩ := ho
    exact (Rel.sc h _).bind fun _ _ q2 => (Rel.constantMul _ q2).bind fun _ _ q =>
      Rel.pure ⟨snoc h.pts q, h.scs, h.inputs⟩
  case shamir.shamir =>
    obtain ⟨rfl, rfl⟩ := ho
    exact (Rel.unwrapM _ _).bind fun _ _ q1 => (Rel.unwrapM _ _).bind fun _ _ q2 =>
      (Rel.shamir (same_nths h.pts q1.1 q1.2) (same_nths h.scs q2.1 q2.2)).bind fun _ _ q =>
      Rel.pure ⟨snoc h.pts q, h.scs, h.inputs⟩
  case assertEqual.assertEqual =>
    obtain ⟨rfl, rfl⟩ := ho
    exact (Rel.pt h _).bind fun _ _ q1 => (Rel.pt h _).bind fun _ _ q2 => (Rel.pAssertEqual q1 q2).bind fun _ _ _ =>
      Rel.pure h

theorem Rel.eprog : ∀ {ops ops' : List EOp} {s s' : EState},
    ops.map EOp.forget = ops'.map EOp.forget → SameEState s s' →
    Rel (runEProg ops s) (runEProg ops' s') SameEState
  | [], [], _, _, _, he => Rel.pure he
  | [], _ :: _, _, _, h, _ => by simp at h
  | _ :: _, [], _, _, h, _ => by simp at h
  | op :: ps, op' :: ps', s, s', h, he => by
    simp only [List.map_cons, List.cons.injEq] at h
    unfold runEProg
    exact (Rel.eop he h.1).bind fun _ _ hn => Rel.eprog h.2 hn

end Verif.Circuit
