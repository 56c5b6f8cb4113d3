import Verif.Api.Chip
import Verif.Ecc.Mul
import Verif.Ecc.Grows
import Verif.Ecc.ProgramLemmas
import Mathlib.Algebra.Module.ZMod

/-!
# The circuit chip

`halo2-snark-aggregator-circuit/src/chips/{scalar_chip,ecc_chip}.rs`: the adapters from the traits to the five column base gate and
the native ECC chip.
-/

namespace Verif.Api

open Verif.Circuit Verif.Ecc

/-- The scalar field acts on the curve group, whose order is the scalar-field prime. -/
noncomputable instance : Module N Pt := AddCommGroup.zmodModule order_nsmul

theorem smul_eq_val (s : N) (P : Pt) : s • P = s.val • P := by
  conv_lhs => rw [← ZMod.natCast_zmod_val s]
  exact (Nat.cast_smul_eq_nsmul N s.val P)

/-- Circuit-building computations that only add constraints: whoever satisfies the circuit afterwards satisfied it before. Every
operation of the chips is one (that is the first half of each soundness triple). Nor do they change witness values of earlier rows. -/
def Build (α : Type) : Type := { x : M N α // Spec tables x (fun _ _ => True) ∧ Grows x }

namespace Build

def of {α : Type} (x : M N α) {post : Advice N → α → Prop} (h : Spec tables x post) [g : Grows x] : Build α :=
  ⟨x, h.mono fun _ _ _ => trivial, g⟩

instance : Monad Build where
  pure a := of (Pure.pure a) (Spec.pure a)
  bind x f := of (x.1 >>= fun a => (f a).1) (x.2.1.bind fun a => (f a).2.1) (g := x.2.2.bind fun a => (f a).2.2)

end Build

theorem Spec.fail {α : Type} (post : Advice N → α → Prop) : Spec tables (fun _ => none : M N α) post :=
  ⟨fun _ _ _ h => absurd h (by simp)⟩

/-- chips/scalar_chip.rs lines 18-127, chips/ecc_chip.rs lines 28-133. The ECC chip's methods take `&mut` clones, so the second
component of the results (the caller's copy, with the cached curvature) is dropped. -/
noncomputable def circuitChip : Chip N Pt where
  m := Build
  monad := inferInstance
  S := AV N
  P := APt
  panic := Build.of (fun _ => none) (Spec.fail fun _ _ => True)
  add a b := .of (Circuit.add a b) (Spec.add a b)
  sub a b := .of (Circuit.sub a b) (Spec.sub a b)
  mul a b := .of (Circuit.mul a b) (Spec.mul a b)
  div a b := .of (Circuit.divUnsafe a b) (Spec.divUnsafe a b)
  square a := .of (Circuit.mul a a) (Spec.mul a a)
  sumWithCoeff l k := .of (Circuit.sumWithConstant l k) (Spec.sumWithConstant l k)
  mulAddConstant a b k := .of (Circuit.mulAddConstant a b k) (Spec.mulAddConstant a b k)
  assignZero := .of (Circuit.assignConstant 0) (Spec.assignConstant 0)
  assignOne := .of (Circuit.assignConstant 1) (Spec.assignConstant 1)
  assignConst k := .of (Circuit.assignConstant k) (Spec.assignConstant k)
  assignVar k := .of (Circuit.assign k) (Spec.assign k)
  toValue v := pure v.value
  pAdd a b := Prod.fst <$> Build.of (Circuit.pAdd a b) (Spec.pAdd a b)
  pSub a b := Prod.fst <$> Build.of (Circuit.pSub a b) (Spec.pSub a b)
  pAssignZero := .of Circuit.assignIdentity Spec.assignIdentity
  pAssignOne := .of (Circuit.assignConstantPointFromScalar 1) (Spec.assignConstantPoint _)
  pAssignConst P := .of (Circuit.assignConstantPoint P) (Spec.assignConstantPoint P)
  pAssignVar P := .of (Circuit.assignPoint P) (Spec.assignPoint P)
  normalize a := Prod.fst <$> Build.of (Circuit.pReduce a) (Spec.pReduce a)
  scalarMul s a := .of (Circuit.pMul a s) (Spec.pMul a s)
  scalarMulConstant s P := .of (Circuit.constantMul P s) (Spec.constantMul P s)
  multiExp ps ss := .of (Circuit.shamir ps ss) (Spec.shamir ps ss)

/-- Under the advice assignment `adv`: if the computation runs and the circuit after it is satisfied by `adv`, the result meets
the postcondition. -/
def Holds (adv : Advice N) {α : Type} (x : Build α) (post : α → Prop) : Prop :=
  ∀ ctx r ctx', x.1 ctx = some (r, ctx') → Sat tables ctx' adv → post r

theorem Holds.of {adv : Advice N} {α : Type} {x : M N α} {post : Advice N → α → Prop} [Grows x] (h : Spec tables x post) :
    Holds adv (Build.of x h) (post adv) :=
  fun ctx r ctx' h1 hs => (h.run ctx r ctx' h1 adv hs).2

theorem Holds.bind {adv : Advice N} {α β : Type} {x : Build α} {f : α → Build β} {Q : α → Prop} {R : β → Prop}
    (hx : Holds adv x Q) (hf : ∀ a, Q a → Holds adv (f a) R) : Holds adv (x >>= f) R := by
  intro ctx r ctx' h hs
  have h' : (x.1 >>= fun a => (f a).1) ctx = some (r, ctx') := h
  simp only [Bind.bind, StateT.bind, Option.bind_eq_some_iff] at h'
  obtain ⟨⟨a, c1⟩, h1, h2⟩ := h'
  have hs1 := ((f a).2.1.run c1 r ctx' h2 adv hs).1
  exact hf a (hx _ _ _ h1 hs1) _ _ _ h2 hs

theorem Holds.pure {adv : Advice N} {α : Type} {a : α} {Q : α → Prop} (h : Q a) : Holds adv (Pure.pure a : Build α) Q := by
  intro ctx r ctx' h1 _
  have h1' : (Pure.pure a : M N α) ctx = some (r, ctx') := h1
  simp only [Pure.pure, StateT.pure, Option.some.injEq, Prod.mk.injEq] at h1'
  rw [← h1'.1]
  exact h

theorem Holds.mono {adv : Advice N} {α : Type} {x : Build α} {Q R : α → Prop} (h : Holds adv x Q) (hqr : ∀ a, Q a → R a) :
    Holds adv x R := fun _ _ _ h1 hs => hqr _ (h _ _ _ h1 hs)

theorem Holds.fst {adv : Advice N} {α β : Type} {x : Build (α × β)} {Q : α → Prop} (h : Holds adv x fun r => Q r.1) :
    Holds adv (Prod.fst <$> x) Q :=
  Holds.bind (f := fun r => Pure.pure r.1) h fun _ h => Holds.pure h

/-- The value recorded with an assigned constant is the constant. -/
theorem assignConstant_value {k : N} {ctx ctx' : Ctx N} {r : AV N} (h : Circuit.assignConstant k ctx = some (r, ctx')) : r.value = k := by
  unfold Circuit.assignConstant Circuit.oneLineAdd Circuit.oneLine at h
  simp only [Bind.bind, StateT.bind, Option.bind_eq_some_iff] at h
  obtain ⟨⟨cells, c1⟩, h1, h2⟩ := h
  simp only [Pure.pure, StateT.pure, Option.some.injEq, Prod.mk.injEq] at h2
  rw [← h2.1]
  unfold Circuit.oneLineSel at h1
  split at h1
  · simp only [Option.some.injEq, Prod.mk.injEq] at h1
    rw [← h1.1]
    rfl
  · exact absurd h1 (by simp)

/-- What `assign_point` enforces, whatever point was passed: the coordinates are range checked and on the curve, or the flag is one.
The flag need not be a bit (C18). -/
def Fresh (adv : Advice N) (p : APt) : Prop :=
  IntGood adv p.x ∧ IntGood adv p.y ∧ p.curv = none ∧ (residue adv p.y ^ 2 = residue adv p.x ^ 3 + 3 ∨ p.z.val adv = 1)

/-- A fresh point whose flag is a bit is a point. -/
theorem Fresh.represents {adv : Advice N} {p : APt} (h : Fresh adv p) (hz : p.z.val adv = 0 ∨ p.z.val adv = 1) :
    ∃ P, Represents adv p P := represents_assign h.1 h.2.1 h.2.2.1 hz h.2.2.2

/-- In every satisfying assignment the circuit chip computes in the scalar field and the curve group. -/
noncomputable def circuitLogic (adv : Advice N) : Logic circuitChip gen where
  Ens := Holds adv
  sv s := s.val adv
  pv := Represents adv
  known s k := s.val adv = k ∧ s.value = k
  wit _ _ := True
  pwit p _ := Fresh adv p
  pure := Holds.pure
  bind := Holds.bind
  mono := Holds.mono
  all h := fun ctx r ctx' h1 hs i => h i ctx r ctx' h1 hs
  add := fun (a b : AV N) => Holds.of (Spec.add a b)
  sub := fun (a b : AV N) => Holds.of (Spec.sub a b)
  mul := fun (a b : AV N) => Holds.of (Spec.mul a b)
  div := fun (a b : AV N) hb => (Holds.of (Spec.divUnsafe a b)).mono fun r h => by
    field_simp
    linear_combination h
  square := fun (a : AV N) => Holds.of (Spec.mul a a)
  sumWithCoeff := fun (l : List (AV N × N)) k => Holds.of (Spec.sumWithConstant l k)
  mulAddConstant := fun (a b : AV N) k => Holds.of (Spec.mulAddConstant a b k)
  assignZero := Holds.of (Spec.assignConstant 0)
  assignOne := Holds.of (Spec.assignConstant 1)
  assignConst k := fun ctx r ctx' h hs => ⟨Holds.of (adv := adv) (Spec.assignConstant k) ctx r ctx' h hs, assignConstant_value h⟩
  known_sv h := h.1
  toValue h := Holds.pure h.2
  assignVar k := (Holds.of (Spec.assign k)).mono fun _ _ => trivial
  pAdd := fun {a b : APt} {P Q} hP hQ => Holds.fst ((Holds.of (Spec.pAdd a b)).mono fun r h => (h P Q hP.1 hQ.1 fun _ => hP.2).1)
  pSub := fun {a b : APt} {P Q} hP hQ => Holds.fst ((Holds.of (Spec.pSub a b)).mono fun r h => (h P Q hP hQ.1).1)
  pAssignZero := Holds.of Spec.assignIdentity
  pAssignOne := (Holds.of (Spec.assignConstantPoint _)).mono fun r h => by
    have : ((1 : N).val • gen : Pt) = gen := by
      rw [ZMod.val_one, one_nsmul]
    rwa [this] at h
  pAssignConst P := Holds.of (Spec.assignConstantPoint P)
  pAssignVar P := Holds.of (Spec.assignPoint P)
  normalize := fun {a : APt} {P} hP => Holds.fst ((Holds.of (Spec.pReduce a)).mono fun r h => (h P hP.1).1)
  scalarMul := fun (s : AV N) {a : APt} {P} hP => (Holds.of (Spec.pMul a s)).mono fun r h => by
    rw [smul_eq_val]
    exact h P hP
  scalarMulConstant := fun (s : AV N) P => (Holds.of (Spec.constantMul P s)).mono fun r h => by
    rw [smul_eq_val]
    exact h
  multiExp := fun {ps : List APt} {ss : List (AV N)} {Ps} hP _ _ => (Holds.of (Spec.shamir ps ss)).mono fun r h => by
    have e : dot (ss.map fun s => s.val adv) Ps =
        (List.zipWith (fun (P : Pt) (s : AV N) => (s.val adv).val • P) Ps ss).sum := by
      unfold dot
      rw [List.zipWith_map_left, List.zipWith_comm]
      simp only [smul_eq_val]
    have h2 := h.2 Ps hP
    rw [← e] at h2
    exact h2

end Verif.Api
