import Verif.Ecc.Model
import Verif.Circuit.Complete

/-!
# Assigning cells never changes what was assigned before

For every operation of the chips: the witness values of the rows before it stay as they are, and it writes the rows that follow, each once.
-/

namespace Verif.Circuit

/-- The rows that are written after those of `ctx` are the next ones, each once. -/
def NextRows {F : Type} (ctx ctx' : Ctx F) : Prop :=
  ∃ new, ctx'.rows = new ++ ctx.rows ∧ new.map Prod.fst = (List.range' ctx.offset (ctx'.offset - ctx.offset)).reverse

/-- The witness values of earlier rows stay as they are, and the rows that follow are written one by one. -/
class Grows {F α : Type} (m : M F α) : Prop where
  run : ∀ ctx r ctx', m ctx = some (r, ctx') → Ext ctx ctx'
  rows : ∀ ctx r ctx', m ctx = some (r, ctx') → NextRows ctx ctx'

section Base
variable {F : Type} {α β : Type}

theorem NextRows.refl (ctx : Ctx F) : NextRows ctx ctx := ⟨[], rfl, by simp⟩

theorem NextRows.trans {a b c : Ctx F} (h1 : NextRows a b) (h2 : NextRows b c) (hab : a.offset ≤ b.offset) (hbc : b.offset ≤ c.offset) : NextRows a c := by
  obtain ⟨n1, e1, k1⟩ := h1
  obtain ⟨n2, e2, k2⟩ := h2
  refine ⟨n2 ++ n1, by rw [e2, e1, List.append_assoc], ?_⟩
  rw [List.map_append, k1, k2, ← List.reverse_append]
  congr 1
  have := List.range'_append_1 (s := a.offset) (m := b.offset - a.offset) (n := c.offset - b.offset)
  rw [show a.offset + (b.offset - a.offset) = b.offset by omega] at this
  rw [this]
  congr 1
  omega

theorem Grows.bind {m : M F α} {k : α → M F β} (hm : Grows m) (hk : ∀ a, Grows (k a)) : Grows (m >>= k) := by
  have key : ∀ ctx r ctx', (m >>= k) ctx = some (r, ctx') → ∃ a c1, m ctx = some (a, c1) ∧ k a c1 = some (r, ctx') := by
    intro ctx r ctx' h
    simp only [Bind.bind, StateT.bind, Option.bind_eq_some_iff] at h
    obtain ⟨⟨a, c1⟩, h1, h2⟩ := h
    exact ⟨a, c1, h1, h2⟩
  constructor
  · intro ctx r ctx' h
    obtain ⟨a, c1, h1, h2⟩ := key _ _ _ h
    exact (hm.run _ _ _ h1).trans ((hk a).run _ _ _ h2)
  · intro ctx r ctx' h
    obtain ⟨a, c1, h1, h2⟩ := key _ _ _ h
    exact (hm.rows _ _ _ h1).trans ((hk a).rows _ _ _ h2) (hm.run _ _ _ h1).1 ((hk a).run _ _ _ h2).1

/-- An operation that writes nothing. -/
theorem Grows.idle {m : M F α} (h : ∀ ctx r ctx', m ctx = some (r, ctx') → ctx' = ctx) : Grows m := by
  constructor
  · intro ctx r ctx' e
    rw [h _ _ _ e]
    exact Ext.refl _
  · intro ctx r ctx' e
    rw [h _ _ _ e]
    exact NextRows.refl _

instance Grows.pure (a : α) : Grows (Pure.pure a : M F α) := Grows.idle fun ctx r ctx' h => by
  simp only [Pure.pure, StateT.pure, Option.some.injEq, Prod.mk.injEq] at h
  exact h.2.symm

instance Grows.none : Grows (fun _ => Option.none : M F α) := Grows.idle fun _ _ _ h => by cases h

instance Grows.assertM (c : Prop) [Decidable c] : Grows (assertM c : M F Unit) := Grows.idle fun ctx r ctx' h => by
  unfold Circuit.assertM at h
  split at h
  · simp only [Option.some.injEq, Prod.mk.injEq] at h
    exact h.2.symm
  · exact absurd h (by simp)

instance Grows.unwrapM (o : Option α) : Grows (unwrapM o : M F α) := Grows.idle fun ctx r ctx' h => by
  unfold Circuit.unwrapM at h
  cases o with
  | none => simp at h
  | some a =>
    simp only [Option.map_some, Option.some.injEq, Prod.mk.injEq] at h
    exact h.2.symm

/-- A computation that consists of known operations. -/
macro "grows" : tactic => `(tactic| repeat' (first | infer_instance | (with_reducible refine Grows.bind ?_ fun _ => ?_) | split | extract_lets))

variable [Field F]

instance Grows.oneLineSel (sel : Sel) (ps : List (Schema F × F)) (const : F) (mul : List F) (next : F) :
    Grows (oneLineSel sel ps const mul next) := by
  constructor
  · intro ctx r ctx' h
    unfold Circuit.oneLineSel at h
    split at h
    · simp only [Option.some.injEq, Prod.mk.injEq] at h
      rw [← h.2]
      exact ⟨Nat.le_succ _, fun i hi => Function.update_of_ne hi.ne _ _⟩
    · exact absurd h (by simp)
  · intro ctx r ctx' h
    unfold Circuit.oneLineSel at h
    split at h
    · simp only [Option.some.injEq, Prod.mk.injEq] at h
      rw [← h.2]
      exact ⟨[_], rfl, by simp⟩
    · exact absurd h (by simp)

instance Grows.oneLine (ps : List (Schema F × F)) (const : F) (mul : List F) (next : F) : Grows (Circuit.oneLine ps const mul next) := by
  unfold Circuit.oneLine
  grows

instance Grows.oneLineAdd (ps : List (Schema F × F)) (const : F) : Grows (Circuit.oneLineAdd ps const) := by
  unfold Circuit.oneLineAdd
  grows

instance Grows.oneLineWithLastBase (ps : List (Schema F × F)) (last : Schema F × F) (const : F) (mul : List F) (next : F) : Grows (Circuit.oneLineWithLastBase ps last const mul next) := by
  unfold Circuit.oneLineWithLastBase
  grows

instance Grows.sumLoop (elems : List (AV F × F)) : ∀ acc constant : F, Grows (sumLoop acc elems constant) := by
  induction hn : elems.length using Nat.strong_induction_on generalizing elems with
  | _ n ih =>
    intro acc constant
    rw [sumLoop.eq_1]
    split
    · exact (Grows.oneLineWithLastBase _ _ _ _ _).bind fun _ => ih (elems.drop 4).length (by simp; omega) (elems.drop 4) rfl _ _
    · grows

instance Grows.sumWithConstant (elems : List (AV F × F)) (constant : F) : Grows (Circuit.sumWithConstant elems constant) := by
  unfold Circuit.sumWithConstant
  grows

instance Grows.add (a b : AV F) : Grows (Circuit.add a b) := by
  unfold Circuit.add
  grows

instance Grows.sub (a b : AV F) : Grows (Circuit.sub a b) := by
  unfold Circuit.sub
  grows

instance Grows.mul (a b : AV F) : Grows (Circuit.mul a b) := by
  unfold Circuit.mul
  grows

instance Grows.and (a b : AV F) : Grows (Circuit.and a b) := by
  unfold Circuit.and
  grows

instance Grows.or (a b : AV F) : Grows (Circuit.or a b) := by
  unfold Circuit.or
  grows

instance Grows.xor (a b : AV F) : Grows (Circuit.xor a b) := by
  unfold Circuit.xor
  grows

instance Grows.xnor (a b : AV F) : Grows (Circuit.xnor a b) := by
  unfold Circuit.xnor
  grows

instance Grows.assertEqual (a b : AV F) : Grows (Circuit.assertEqual a b) := by
  unfold Circuit.assertEqual
  grows

instance Grows.addConstant (a : AV F) (c : F) : Grows (Circuit.addConstant a c) := by
  unfold Circuit.addConstant
  grows

instance Grows.mulAddConstant (a b : AV F) (c : F) : Grows (Circuit.mulAddConstant a b c) := by
  unfold Circuit.mulAddConstant
  grows

instance Grows.mulAdd (a b c : AV F) (k : F) : Grows (Circuit.mulAdd a b c k) := by
  unfold Circuit.mulAdd
  grows

instance Grows.mulAdd2 (a b c : AV F) (k : F) (d : AV F) (l : F) : Grows (Circuit.mulAdd2 a b c k d l) := by
  unfold Circuit.mulAdd2
  grows

instance Grows.mulAddFold : ∀ (ts : List (MulTerm F)) (acc : AV F), Grows (mulAddFold acc ts)
  | [], _ => by unfold Circuit.mulAddFold; grows
  | _ :: ts, _ => by
    unfold Circuit.mulAddFold
    exact (Grows.mulAdd2 _ _ _ _ _ _).bind fun _ => Grows.mulAddFold ts _

instance Grows.mulAddWithNextLine (ts : List (MulTerm F)) : Grows (mulAddWithNextLine ts) := by
  cases ts <;> (unfold Circuit.mulAddWithNextLine; grows)

section
variable [DecidableEq F]
instance Grows.invertUnsafe (a : AV F) : Grows (Circuit.invertUnsafe a) := by
  unfold Circuit.invertUnsafe
  grows

instance Grows.invert (a : AV F) : Grows (Circuit.invert a) := by
  unfold Circuit.invert
  grows

instance Grows.isZero (a : AV F) : Grows (Circuit.isZero a) := by
  unfold Circuit.isZero
  grows

instance Grows.divUnsafe (a b : AV F) : Grows (Circuit.divUnsafe a b) := by
  unfold Circuit.divUnsafe
  grows

end

instance Grows.assignConstant (v : F) : Grows (Circuit.assignConstant v) := by
  unfold Circuit.assignConstant
  grows

instance Grows.assign (v : F) : Grows (Circuit.assign v) := by
  unfold Circuit.assign
  grows

instance Grows.assertConstant (a : AV F) (b : F) : Grows (Circuit.assertConstant a b) := by
  unfold Circuit.assertConstant
  grows

instance Grows.assertBit (a : AV F) : Grows (Circuit.assertBit a) := by
  unfold Circuit.assertBit
  grows

instance Grows.not (a : AV F) : Grows (Circuit.not a) := by
  unfold Circuit.not
  grows

instance Grows.bisec (c a b : AV F) : Grows (Circuit.bisec c a b) := by
  unfold Circuit.bisec
  grows

instance Grows.bisecCond (c a b : AV F) : Grows (Circuit.bisecCond c a b) := by
  unfold Circuit.bisecCond
  grows

instance Grows.assertTrue (a : AV F) : Grows (Circuit.assertTrue a) := by
  unfold Circuit.assertTrue
  grows

instance Grows.assertFalse (a : AV F) : Grows (Circuit.assertFalse a) := by
  unfold Circuit.assertFalse
  grows

end Base

/-! ### Integers -/

instance Grows.assignNonleadingLimb (n : N) : Grows (Circuit.assignNonleadingLimb n) := by
  unfold Circuit.assignNonleadingLimb
  grows

instance Grows.assignNFloorLeadingLimb (n : N) : Grows (Circuit.assignNFloorLeadingLimb n) := by
  unfold Circuit.assignNFloorLeadingLimb
  grows

instance Grows.assignWCeilLeadingLimb (n : N) : Grows (Circuit.assignWCeilLeadingLimb n) := by
  unfold Circuit.assignWCeilLeadingLimb
  grows

instance Grows.assignDLeadingLimb (n : N) : Grows (Circuit.assignDLeadingLimb n) := by
  unfold Circuit.assignDLeadingLimb
  grows

instance Grows.assignD (v : ℕ) : Grows (Circuit.assignD v) := by
  unfold Circuit.assignD
  grows

instance Grows.assignW (v : W) : Grows (Circuit.assignW v) := by
  unfold Circuit.assignW
  grows

instance Grows.assignInteger (v : ℕ) : Grows (Circuit.assignInteger v) := by
  unfold Circuit.assignInteger
  grows

instance Grows.native (a : AInt) : Grows (Circuit.native a) := by
  unfold Circuit.native
  grows

instance Grows.reduce (a : AInt) : Grows (Circuit.reduce a) := by
  unfold Circuit.reduce
  grows

instance Grows.conditionallyReduce (a : AInt) : Grows (Circuit.conditionallyReduce a) := by
  unfold Circuit.conditionallyReduce
  grows

instance Grows.iadd (a b : AInt) : Grows (Circuit.iadd a b) := by
  unfold Circuit.iadd
  grows

instance Grows.subLimb (a b : AV N) (u : ℕ) : Grows (Circuit.subLimb a b u) := by
  unfold Circuit.subLimb
  grows

instance Grows.isub (a b : AInt) : Grows (Circuit.isub a b) := by
  unfold Circuit.isub
  grows

instance Grows.negLimb (a : AV N) (u : ℕ) : Grows (Circuit.negLimb a u) := by
  unfold Circuit.negLimb
  grows

instance Grows.ineg (a : AInt) : Grows (Circuit.ineg a) := by
  unfold Circuit.ineg
  grows

instance Grows.mulEqTail (l r : Fin 4 → AV N) : Grows (Circuit.mulEqTail l r) := by
  unfold Circuit.mulEqTail
  grows

instance Grows.mulEqLimbs (a b : AInt) (d : Fin 4 → AV N) (r : AInt) : Grows (Circuit.mulEqLimbs a b d r) := by
  unfold Circuit.mulEqLimbs
  grows

instance Grows.mulEqNative (a b : AInt) (d : Fin 4 → AV N) (r : AInt) : Grows (Circuit.mulEqNative a b d r) := by
  unfold Circuit.mulEqNative
  grows

instance Grows.squareEqNative (a : AInt) (d : Fin 4 → AV N) (r : AInt) : Grows (Circuit.squareEqNative a d r) := by
  unfold Circuit.squareEqNative
  grows

instance Grows.imul (a b : AInt) : Grows (Circuit.imul a b) := by
  unfold Circuit.imul
  grows

instance Grows.isquare (a : AInt) : Grows (Circuit.isquare a) := by
  unfold Circuit.isquare
  grows

instance Grows.isPureZero (a : AInt) : Grows (Circuit.isPureZero a) := by
  unfold Circuit.isPureZero
  grows

instance Grows.isPureWModulus (a : AInt) : Grows (Circuit.isPureWModulus a) := by
  unfold Circuit.isPureWModulus
  grows

instance Grows.iisZero (a : AInt) : Grows (Circuit.iisZero a) := by
  unfold Circuit.iisZero
  grows

instance Grows.iisEqual (a b : AInt) : Grows (Circuit.iisEqual a b) := by
  unfold Circuit.iisEqual
  grows

instance Grows.iassertEqual (a b : AInt) : Grows (Circuit.iassertEqual a b) := by
  unfold Circuit.iassertEqual
  grows

instance Grows.idiv (a b : AInt) : Grows (Circuit.idiv a b) := by
  unfold Circuit.idiv
  grows

instance Grows.iassignConstant (w : W) : Grows (Circuit.iassignConstant w) := by
  unfold Circuit.iassignConstant
  grows

instance Grows.imulSmallConstant (a : AInt) (b : ℕ) : Grows (Circuit.imulSmallConstant a b) := by
  unfold Circuit.imulSmallConstant
  grows

instance Grows.ibisec (c : AV N) (a b : AInt) : Grows (Circuit.ibisec c a b) := by
  unfold Circuit.ibisec
  grows

instance Grows.getLastBit (a : AInt) : Grows (Circuit.getLastBit a) := by
  unfold Circuit.getLastBit
  grows

/-! ### Points -/

instance Grows.curvature (a : APt) : Grows (Circuit.curvature a) := by
  unfold Circuit.curvature
  grows

instance Grows.bisecCurv (c : AV N) (a b : ACurv) : Grows (Circuit.bisecCurv c a b) := by
  unfold Circuit.bisecCurv
  grows

instance Grows.bisecPoint (c : AV N) (a b : APt) : Grows (Circuit.bisecPoint c a b) := by
  unfold Circuit.bisecPoint
  grows

instance Grows.bisecPointCurv (c : AV N) (a b : APt) : Grows (Circuit.bisecPointCurv c a b) := by
  unfold Circuit.bisecPointCurv
  grows

instance Grows.lambdaToPoint (l : ACurv) (a b : APt) : Grows (Circuit.lambdaToPoint l a b) := by
  unfold Circuit.lambdaToPoint
  grows

instance Grows.pAdd (a b : APt) : Grows (Circuit.pAdd a b) := by
  unfold Circuit.pAdd
  grows

instance Grows.pDouble (a : APt) : Grows (Circuit.pDouble a) := by
  unfold Circuit.pDouble
  grows

instance Grows.assignConstantPoint (c : Ecc.Pt) : Grows (Circuit.assignConstantPoint c) := by
  unfold Circuit.assignConstantPoint
  grows

instance Grows.assignConstantPointCurv (c : Ecc.Pt) : Grows (Circuit.assignConstantPointCurv c) := by
  unfold Circuit.assignConstantPointCurv
  grows

instance Grows.assignPointRaw (x y : W) (z : N) : Grows (Circuit.assignPointRaw x y z) := by
  unfold Circuit.assignPointRaw
  grows

instance Grows.assignPoint (c : Ecc.Pt) : Grows (Circuit.assignPoint c) := by
  unfold Circuit.assignPoint
  grows

instance Grows.assignConstantPointFromScalar (s : N) : Grows (Circuit.assignConstantPointFromScalar s) := by
  unfold Circuit.assignConstantPointFromScalar
  grows

instance Grows.assignPointFromScalar (s : N) : Grows (Circuit.assignPointFromScalar s) := by
  unfold Circuit.assignPointFromScalar
  grows

instance Grows.assignIdentity : Grows (Circuit.assignIdentity ) := by
  unfold Circuit.assignIdentity
  grows

instance Grows.pAssertEqual (a b : APt) : Grows (Circuit.pAssertEqual a b) := by
  unfold Circuit.pAssertEqual
  grows

instance Grows.pNeg (a : APt) : Grows (Circuit.pNeg a) := by
  unfold Circuit.pNeg
  grows

instance Grows.pSub (a b : APt) : Grows (Circuit.pSub a b) := by
  unfold Circuit.pSub
  grows

instance Grows.pReduce (a : APt) : Grows (Circuit.pReduce a) := by
  unfold Circuit.pReduce
  grows

instance Grows.windowRow (w s : ℕ) (l : Schema N) (n : N) : Grows (Circuit.windowRow w s l n) := by
  unfold Circuit.windowRow
  grows

instance Grows.decomposeTail : ∀ (w k s : ℕ), Grows (decomposeTail w k s)
  | _, 0, _ => by unfold Circuit.decomposeTail; grows
  | w, k + 1, s => by
    have ih := Grows.decomposeTail w k
    unfold Circuit.decomposeTail
    refine (Grows.windowRow _ _ _ _).bind fun _ => (ih _).bind fun _ => Grows.pure _

instance Grows.assertBits : ∀ (l : List (AV N)), Grows (assertBits l)
  | [] => by unfold Circuit.assertBits; grows
  | _ :: l => by
    unfold Circuit.assertBits
    exact (Grows.assertBit _).bind fun _ => Grows.assertBits l

instance Grows.decomposeScalar (w : ℕ) (s : AV N) : Grows (Circuit.decomposeScalar w s) := by
  unfold Circuit.decomposeScalar
  grows

instance Grows.buildCands : ∀ (a : APt) (n : ℕ) (l : APt), Grows (buildCands a n l)
  | _, 0, _ => by unfold Circuit.buildCands; grows
  | a, n + 1, _ => by
    have ih := Grows.buildCands a n
    unfold Circuit.buildCands
    repeat' (first | exact ih _ | infer_instance | (with_reducible refine Grows.bind ?_ fun _ => ?_) | split)

instance Grows.buildCandsCurv : ∀ (a : APt) (n : ℕ) (l : APt), Grows (buildCandsCurv a n l)
  | _, 0, _ => by unfold Circuit.buildCandsCurv; grows
  | a, n + 1, _ => by
    have ih := Grows.buildCandsCurv a n
    unfold Circuit.buildCandsCurv
    repeat' (first | exact ih _ | infer_instance | (with_reducible refine Grows.bind ?_ fun _ => ?_) | split)

instance Grows.pickPairs : ∀ (b : AV N) (l : List APt), Grows (pickPairs b l)
  | _, [] => by unfold Circuit.pickPairs; grows
  | _, [_] => by unfold Circuit.pickPairs; grows
  | b, _ :: _ :: l => by
    have ih := Grows.pickPairs b l
    unfold Circuit.pickPairs
    exact (Grows.bisecPointCurv _ _ _).bind fun _ => ih.bind fun _ => Grows.pure _

instance Grows.pick : ∀ (bs : List (AV N)) (l : List APt), Grows (pick bs l)
  | [], _ => by unfold Circuit.pick; grows
  | _ :: bs, _ => by
    have ih := Grows.pick bs
    unfold Circuit.pick
    exact (Grows.pickPairs _ _).bind fun _ => ih _

instance Grows.doubles : ∀ (n : ℕ) (a : APt), Grows (doubles n a)
  | 0, _ => by unfold Circuit.doubles; grows
  | n + 1, _ => by
    have ih := Grows.doubles n
    unfold Circuit.doubles
    exact (Grows.pDouble _).bind fun _ => ih _

instance Grows.mulLoop : ∀ (cs : List APt) (ws : List (List (AV N))) (a : APt), Grows (mulLoop cs ws a)
  | _, [], _ => by unfold Circuit.mulLoop; grows
  | cs, _ :: ws, _ => by
    have ih := Grows.mulLoop cs ws
    unfold Circuit.mulLoop
    exact (Grows.doubles _ _).bind fun _ => (Grows.pick _ _).bind fun _ => (Grows.pAdd _ _).bind fun _ => ih _

instance Grows.pMul (a : APt) (s : AV N) : Grows (Circuit.pMul a s) := by
  unfold Circuit.pMul
  grows

instance Grows.decomposeAll : ∀ (l : List (AV N)), Grows (decomposeAll l)
  | [] => by unfold Circuit.decomposeAll; grows
  | _ :: l => by
    have ih := Grows.decomposeAll l
    unfold Circuit.decomposeAll
    exact (Grows.decomposeScalar _ _).bind fun _ => ih.bind fun _ => Grows.pure _

instance Grows.allCands : ∀ (i : APt) (l : List APt), Grows (allCands i l)
  | _, [] => by unfold Circuit.allCands; grows
  | i, _ :: l => by
    have ih := Grows.allCands i l
    unfold Circuit.allCands
    exact (Grows.buildCandsCurv _ _ _).bind fun _ => ih.bind fun _ => Grows.pure _

instance Grows.innerLoop : ∀ (l : List (List APt × List (AV N))) (a : APt), Grows (innerLoop l a)
  | [], _ => by unfold Circuit.innerLoop; grows
  | (_, _) :: l, _ => by
    have ih := Grows.innerLoop l
    unfold Circuit.innerLoop
    exact (Grows.pick _ _).bind fun _ => (Grows.pAdd _ _).bind fun _ => ih _

instance Grows.inner : ∀ (l : List (List APt × List (AV N))), Grows (inner l)
  | [] => by unfold Circuit.inner; grows
  | (_, _) :: l => by unfold Circuit.inner; grows

instance Grows.shamirLoop : ∀ (cs : List (List APt)) (ws : List (List (List (AV N)))) (n i : ℕ) (a : APt), Grows (shamirLoop cs ws n i a)
  | _, _, 0, _, _ => by unfold Circuit.shamirLoop; grows
  | cs, ws, n + 1, _, _ => by
    have ih := Grows.shamirLoop cs ws n
    unfold Circuit.shamirLoop
    exact (Grows.unwrapM _).bind fun _ => (Grows.inner _).bind fun _ => (Grows.doubles _ _).bind fun _ => (Grows.pAdd _ _).bind fun _ => ih _ _

instance Grows.shamir (ps : List APt) (ss : List (AV N)) : Grows (Circuit.shamir ps ss) := by
  unfold Circuit.shamir
  grows

instance Grows.constSlot : ∀ (i : APt) (b : Ecc.Pt) (l : List (AV N)), Grows (constSlot i b l)
  | _, _, [_, _] => by unfold Circuit.constSlot; grows
  | _, _, [] => by unfold Circuit.constSlot; grows
  | _, _, [_] => by unfold Circuit.constSlot; grows
  | _, _, _ :: _ :: _ :: _ => by unfold Circuit.constSlot; grows

instance Grows.constLoop : ∀ (i : APt) (ws : List (List (AV N))) (b : Ecc.Pt) (a : APt), Grows (constLoop i ws b a)
  | _, [], _, _ => by unfold Circuit.constLoop; grows
  | i, _ :: ws, _, _ => by
    have ih := Grows.constLoop i ws
    unfold Circuit.constLoop
    exact (Grows.constSlot _ _ _).bind fun _ => (Grows.pAdd _ _).bind fun _ => ih _ _

instance Grows.constantMul (a : Ecc.Pt) (s : AV N) : Grows (Circuit.constantMul a s) := by
  unfold Circuit.constantMul
  grows

end Verif.Circuit
