import Verif.Integer.Shape
import Verif.Ecc.Program

/-!
# The circuit does not depend on the witness: ECC chip (helper lemmas)
-/

namespace Verif.Circuit

open Verif.Ecc

structure SameCurv (a a' : ACurv) : Prop where
  v : SameCells a.v a'.v
  z : SameCell a.z a'.z

/-- Same cells and counters; the honest values may differ. -/
structure SamePt (a a' : APt) : Prop where
  x : SameCells a.x a'.x
  y : SameCells a.y a'.y
  z : SameCell a.z a'.z
  curv : Option.Rel SameCurv a.curv a'.curv

variable {a a' b b' : APt} {c c' : AV N}

theorem Rel.curvature (ha : SamePt a a') : Rel (curvature a) (Circuit.curvature a')
    (fun p p' => SameCurv p.1 p'.1 ∧ SamePt p.2 p'.2) := by
  unfold Circuit.curvature
  have h := ha.curv
  revert h
  cases h1 : a.curv <;> cases h2 : a'.curv <;> intro h
  · exact (Rel.isquare ha.x).bind fun _ _ q1 => (Rel.imulSmallConstant q1.1 3).bind fun _ _ q2 =>
      (Rel.imulSmallConstant ha.y 2).bind fun _ _ q3 => (Rel.idiv q2.1 q3.1).bind fun _ _ q4 =>
      Rel.pure ⟨⟨q4.2.1, q4.1⟩, ⟨q1.2, q3.2, ha.z, .some ⟨q4.2.1, q4.1⟩⟩⟩
  · cases h
  · cases h
  · cases h with
    | some h => exact Rel.pure ⟨h, ha⟩

theorem Rel.bisecCurv {u u' v v' : ACurv} (hc : SameCell c c') (hu : SameCurv u u') (hv : SameCurv v v') :
    Rel (bisecCurv c u v) (Circuit.bisecCurv c' u' v') SameCurv :=
  (Rel.ibisec hc hu.v hv.v).bind fun _ _ q1 => (Rel.bisec hc hu.z hv.z).bind fun _ _ q2 => Rel.pure ⟨q1, q2⟩

theorem Rel.bisecPoint (hc : SameCell c c') (ha : SamePt a a') (hb : SamePt b b') :
    Rel (bisecPoint c a b) (Circuit.bisecPoint c' a' b') SamePt :=
  (Rel.ibisec hc ha.x hb.x).bind fun _ _ q1 => (Rel.ibisec hc ha.y hb.y).bind fun _ _ q2 =>
    (Rel.bisec hc ha.z hb.z).bind fun _ _ q3 => Rel.pure ⟨q1, q2, q3, .none⟩

theorem Rel.bisecPointCurv (hc : SameCell c c') (ha : SamePt a a') (hb : SamePt b b') :
    Rel (bisecPointCurv c a b) (Circuit.bisecPointCurv c' a' b') SamePt :=
  (Rel.ibisec hc ha.x hb.x).bind fun _ _ q1 => (Rel.ibisec hc ha.y hb.y).bind fun _ _ q2 =>
    (Rel.bisec hc ha.z hb.z).bind fun _ _ q3 => (Rel.curvature ha).bind fun _ _ q4 =>
    (Rel.curvature hb).bind fun _ _ q5 => (Rel.bisecCurv hc q4.1 q5.1).bind fun _ _ q6 =>
    Rel.pure ⟨q1, q2, q3, .some q6⟩

theorem Rel.lambdaToPoint {u u' : ACurv} (hu : SameCurv u u') (ha : SamePt a a') (hb : SamePt b b') :
    Rel (lambdaToPoint u a b) (Circuit.lambdaToPoint u' a' b') SamePt :=
  (Rel.isquare hu.v).bind fun _ _ q1 => (Rel.isub q1.1 ha.x).bind fun _ _ q2 =>
    (Rel.isub q2 hb.x).bind fun _ _ q3 => (Rel.isub ha.x q3).bind fun _ _ q4 =>
    (Rel.imul q4 q1.2).bind fun _ _ q5 => (Rel.isub q5.1 ha.y).bind fun _ _ q6 =>
    Rel.pure ⟨q3, q6, hu.z, .none⟩

theorem Rel.pAdd (ha : SamePt a a') (hb : SamePt b b') : Rel (pAdd a b) (Circuit.pAdd a' b')
    (fun p p' => SamePt p.1 p'.1 ∧ SamePt p.2 p'.2) :=
  (Rel.isub ha.x hb.x).bind fun _ _ q1 => (Rel.isub ha.y hb.y).bind fun _ _ q2 =>
    (Rel.idiv q2 q1).bind fun _ _ q3 => (Rel.iisZero q3.2.2.1).bind fun _ _ q4 =>
    (Rel.mul q3.1 q4.1).bind fun _ _ q5 => (Rel.curvature ha).bind fun _ _ q6 =>
    (Rel.bisecCurv q5 q6.1 ⟨q3.2.1, q3.1⟩).bind fun _ _ q7 => (Rel.lambdaToPoint q7 q6.2 hb).bind fun _ _ q8 =>
    (Rel.bisecPoint q6.2.z hb q8).bind fun _ _ q9 => (Rel.bisecPoint hb.z q6.2 q9).bind fun _ _ q10 =>
    Rel.pure ⟨q10, q6.2⟩

theorem Rel.pDouble (ha : SamePt a a') : Rel (pDouble a) (Circuit.pDouble a')
    (fun p p' => SamePt p.1 p'.1 ∧ SamePt p.2 p'.2) :=
  (Rel.curvature ha).bind fun _ _ q1 => (Rel.lambdaToPoint q1.1 q1.2 q1.2).bind fun _ _ q2 =>
    (Rel.bisec q1.2.z q1.2.z q2.z).bind fun _ _ q3 => Rel.pure ⟨⟨q2.x, q2.y, q3, q2.curv⟩, q1.2⟩

theorem Rel.assignConstantPoint (P : Pt) : Rel (assignConstantPoint P) (Circuit.assignConstantPoint P) SamePt :=
  (Rel.iassignConstant _).bind fun _ _ q1 => (Rel.iassignConstant _).bind fun _ _ q2 =>
    (Rel.assignConstant _).bind fun _ _ q3 => Rel.pure ⟨q1, q2, q3, .none⟩

theorem Rel.assignConstantPointCurv (P : Pt) :
    Rel (assignConstantPointCurv P) (Circuit.assignConstantPointCurv P) SamePt :=
  (Rel.iassignConstant _).bind fun _ _ q4 => (Rel.assignConstant _).bind fun _ _ q5 =>
    (Rel.iassignConstant _).bind fun _ _ q1 => (Rel.iassignConstant _).bind fun _ _ q2 =>
    (Rel.assignConstant _).bind fun _ _ q3 => Rel.pure ⟨q1, q2, q3, .some ⟨q4, q5⟩⟩

theorem Rel.assignPointRaw (x y x' y' : W) (z z' : N) :
    Rel (assignPointRaw x y z) (Circuit.assignPointRaw x' y' z') SamePt :=
  (Rel.assignW _ _).bind fun _ _ q1 => (Rel.assignW _ _).bind fun _ _ q2 => (Rel.assign _ _).bind fun _ _ q3 =>
    (Rel.iassignConstant _).bind fun _ _ q4 => (Rel.isquare q2).bind fun _ _ q5 =>
    (Rel.isquare q1).bind fun _ _ q6 => (Rel.imul q6.1 q6.2).bind fun _ _ q7 =>
    (Rel.iadd q7.1 q4).bind fun _ _ q8 => (Rel.iisEqual q5.1 q8).bind fun _ _ q9 =>
    (Rel.or q9 q3).bind fun _ _ q10 => (Rel.assertConstant q10 _).bind fun _ _ _ =>
    Rel.pure ⟨q7.2.2, q5.2, q3, .none⟩

theorem Rel.assignIdentity : Rel assignIdentity Circuit.assignIdentity SamePt :=
  (Rel.iassignConstant _).bind fun _ _ q1 => (Rel.assignConstant _).bind fun _ _ q2 =>
    Rel.pure ⟨q1, q1, q2, .some ⟨q1, q2⟩⟩

theorem Rel.pAssertEqual (ha : SamePt a a') (hb : SamePt b b') :
    Rel (pAssertEqual a b) (Circuit.pAssertEqual a' b') (fun _ _ => True) :=
  (Rel.iisEqual ha.x hb.x).bind fun _ _ q1 => (Rel.iisEqual ha.y hb.y).bind fun _ _ q2 =>
    (Rel.xnor q1 q2).bind fun _ _ q3 => (Rel.mul q1 q2).bind fun _ _ q4 => (Rel.mul q4 q3).bind fun _ _ q5 =>
    (Rel.mul ha.z hb.z).bind fun _ _ q6 => (Rel.or q5 q6).bind fun _ _ q7 => Rel.assertConstant q7 _

theorem Rel.pNeg (ha : SamePt a a') : Rel (pNeg a) (Circuit.pNeg a') SamePt :=
  (Rel.ineg ha.y).bind fun _ _ q1 => Rel.pure ⟨ha.x, q1, ha.z, .none⟩

theorem Rel.pSub (ha : SamePt a a') (hb : SamePt b b') : Rel (pSub a b) (Circuit.pSub a' b')
    (fun p p' => SamePt p.1 p'.1 ∧ SamePt p.2 p'.2) :=
  (Rel.pNeg hb).bind fun _ _ q1 => Rel.pAdd ha q1

theorem Rel.pReduce (ha : SamePt a a') : Rel (pReduce a) (Circuit.pReduce a')
    (fun p p' => SamePt p.1 p'.1 ∧ SamePt p.2 p'.2) :=
  (Rel.reduce ha.x).bind fun _ _ q1 => (Rel.reduce ha.y).bind fun _ _ q2 =>
    Rel.assignIdentity.bind fun _ _ q3 => (Rel.bisecPoint (b := ⟨_, _, a.z, a.curv⟩) (b' := ⟨_, _, a'.z, a'.curv⟩) ha.z q3 ⟨q1, q2, ha.z, ha.curv⟩).bind fun _ _ q4 =>
    Rel.pure ⟨q4, q1, q2, ha.z, ha.curv⟩

/-! ### Scalars -/

theorem Rel.windowRow (w s s' : ℕ) {l l' : Schema N} (hl : SameSchema l l') (next : N) :
    Rel (windowRow w s l next) (Circuit.windowRow w s' l' next) (List.Forall₂ SameCell) := by
  unfold Circuit.windowRow
  refine (Rel.oneLineWithLastBase (last := (l, -1)) (last' := (l', -1)) _ _ _ ?_ ⟨hl, rfl⟩).bind fun _ _ q => Rel.pure ?_
  · rw [List.forall₂_map_left_iff, List.forall₂_map_right_iff, List.forall₂_same]
    exact fun _ _ => SamePair.unassigned _
  · exact List.forall₂_take _ (.cons (q 0) (.cons (q 1) (.cons (q 2) (.cons (q 3) (.cons (q 4) .nil)))))

theorem Rel.decomposeTail (w : ℕ) : ∀ k s s' : ℕ, Rel (decomposeTail w k s) (Circuit.decomposeTail w k s')
    (List.Forall₂ (List.Forall₂ SameCell))
  | 0, _, _ => (Rel.windowRow _ _ _ .unassigned _).bind fun _ _ q => Rel.pure (.cons q .nil)
  | k + 1, _, _ => (Rel.windowRow _ _ _ .unassigned _).bind fun _ _ q =>
      (Rel.decomposeTail w k _ _).bind fun _ _ q' => Rel.pure (.cons q q')

theorem Rel.assertBits : ∀ {l l' : List (AV N)}, List.Forall₂ SameCell l l' →
    Rel (assertBits l) (Circuit.assertBits l') (fun _ _ => True)
  | _, _, .nil => Rel.pure trivial
  | _, _, .cons h hs => (Rel.assertBit h).bind fun _ _ _ => Rel.assertBits hs

theorem Rel.decomposeScalar (w : ℕ) {s s' : AV N} (hs : SameCell s s') :
    Rel (decomposeScalar w s) (Circuit.decomposeScalar w s') (List.Forall₂ (List.Forall₂ SameCell)) := by
  unfold Circuit.decomposeScalar
  refine (Rel.windowRow _ _ _ (.assigned hs) _).bind fun _ _ q => (Rel.decomposeTail w _ _ _).bind fun _ _ q' => ?_
  have hr := List.rel_reverse (List.Forall₂.cons q q')
  exact (Rel.assertBits (List.rel_flatten hr)).bind fun _ _ _ => Rel.pure hr

/-! ### Scalar multiplication -/

theorem Rel.buildCands (ha : SamePt a a') : ∀ (n : ℕ) {l l' : APt}, SamePt l l' →
    Rel (buildCands a n l) (Circuit.buildCands a' n l') (List.Forall₂ SamePt)
  | 0, _, _, hl => Rel.pure (.cons hl .nil)
  | n + 1, _, _, hl => (Rel.pAdd hl ha).bind fun _ _ q => (Rel.buildCands ha n q.1).bind fun _ _ q' =>
      Rel.pure (.cons q.2 q')

theorem Rel.buildCandsCurv (ha : SamePt a a') : ∀ (n : ℕ) {l l' : APt}, SamePt l l' →
    Rel (buildCandsCurv a n l) (Circuit.buildCandsCurv a' n l') (List.Forall₂ SamePt)
  | 0, _, _, hl => Rel.pure (.cons hl .nil)
  | n + 1, _, _, hl => (Rel.pAdd hl ha).bind fun _ _ q => (Rel.curvature q.1).bind fun _ _ q2 =>
      (Rel.buildCandsCurv ha n q2.2).bind fun _ _ q' => Rel.pure (.cons q.2 q')

theorem Rel.pickPairs (hc : SameCell c c') : ∀ {l l' : List APt}, List.Forall₂ SamePt l l' →
    Rel (pickPairs c l) (Circuit.pickPairs c' l') (List.Forall₂ SamePt)
  | _, _, .nil => Rel.pure .nil
  | _, _, .cons _ .nil => Rel.pure .nil
  | _, _, .cons h0 (.cons h1 hs) => (Rel.bisecPointCurv hc h1 h0).bind fun _ _ q =>
      (Rel.pickPairs hc hs).bind fun _ _ q' => Rel.pure (.cons q q')

theorem Rel.head {l l' : List APt} (h : List.Forall₂ SamePt l l') :
    Rel (F := N) (Circuit.unwrapM l.head?) (Circuit.unwrapM l'.head?) SamePt := by
  refine (Rel.unwrapM _ _).mono ?_
  rintro p p' ⟨h1, h2⟩
  cases h with
  | nil => cases h1
  | cons h _ => cases h1; cases h2; exact h

theorem Rel.pick : ∀ {bs bs' : List (AV N)} {l l' : List APt}, List.Forall₂ SameCell bs bs' →
    List.Forall₂ SamePt l l' → Rel (pick bs l) (Circuit.pick bs' l') SamePt
  | _, _, _, _, .nil, h => Rel.head h
  | _, _, _, _, .cons hb hbs, h => (Rel.pickPairs hb h).bind fun _ _ q => Rel.pick hbs q

theorem Rel.doubles : ∀ (n : ℕ) {a a' : APt}, SamePt a a' → Rel (doubles n a) (Circuit.doubles n a') SamePt
  | 0, _, _, h => Rel.pure h
  | n + 1, _, _, h => (Rel.pDouble h).bind fun _ _ q => Rel.doubles n q.1

theorem Rel.mulLoop {l l' : List APt} (hl : List.Forall₂ SamePt l l') : ∀ {ws ws' : List (List (AV N))} {a a' : APt},
    List.Forall₂ (List.Forall₂ SameCell) ws ws' → SamePt a a' →
    Rel (mulLoop l ws a) (Circuit.mulLoop l' ws' a') SamePt
  | _, _, _, _, .nil, h => Rel.pure h
  | _, _, _, _, .cons hb hbs, h => (Rel.doubles 4 h).bind fun _ _ q1 => (Rel.pick hb hl).bind fun _ _ q2 =>
      (Rel.pAdd q2 q1).bind fun _ _ q3 => Rel.mulLoop hl hbs q3.1

theorem Rel.fail {α β : Type} {R : α → β → Prop} : Rel (F := N) (Circuit.unwrapM (.none : Option α)) (Circuit.unwrapM (.none : Option β)) R :=
  ⟨fun _ _ _ _ _ _ _ h1 _ => by cases h1⟩

theorem Rel.pMul (ha : SamePt a a') (hc : SameCell c c') : Rel (pMul a c) (Circuit.pMul a' c') SamePt := by
  unfold Circuit.pMul
  refine (Rel.decomposeScalar 4 hc).bind fun ws ws' q1 => Rel.assignIdentity.bind fun _ _ q2 =>
    (Rel.buildCands ha 14 ha).bind fun _ _ q3 => ?_
  cases q1 with
  | nil => exact Rel.fail
  | cons h hs => exact (Rel.pick h (.cons q2 q3)).bind fun _ _ q4 => Rel.mulLoop (.cons q2 q3) hs q4

theorem Rel.decomposeAll : ∀ {ss ss' : List (AV N)}, List.Forall₂ SameCell ss ss' →
    Rel (decomposeAll ss) (Circuit.decomposeAll ss') (List.Forall₂ (List.Forall₂ (List.Forall₂ SameCell)))
  | _, _, .nil => Rel.pure .nil
  | _, _, .cons h hs => (Rel.decomposeScalar 4 h).bind fun _ _ q => (Rel.decomposeAll hs).bind fun _ _ q' =>
      Rel.pure (.cons q q')

theorem Rel.allCands {i i' : APt} (hi : SamePt i i') : ∀ {l l' : List APt}, List.Forall₂ SamePt l l' →
    Rel (allCands i l) (Circuit.allCands i' l') (List.Forall₂ (List.Forall₂ SamePt))
  | _, _, .nil => Rel.pure .nil
  | _, _, .cons h hs => (Rel.buildCandsCurv h 14 h).bind fun _ _ q => (Rel.allCands hi hs).bind fun _ _ q' =>
      Rel.pure (.cons (.cons hi q) q')

/-- Related candidates and bits. -/
def SamePick (p p' : List APt × List (AV N)) : Prop := List.Forall₂ SamePt p.1 p'.1 ∧ List.Forall₂ SameCell p.2 p'.2

theorem Rel.innerLoop : ∀ {l l' : List (List APt × List (AV N))} {a a' : APt}, List.Forall₂ SamePick l l' →
    SamePt a a' → Rel (innerLoop l a) (Circuit.innerLoop l' a') SamePt
  | _, _, _, _, .nil, h => Rel.pure h
  | _, _, _, _, .cons (a := (_, _)) (b := (_, _)) hp hps, h => (Rel.pick hp.2 hp.1).bind fun _ _ q1 => (Rel.pAdd q1 h).bind fun _ _ q2 =>
      Rel.innerLoop hps q2.1

theorem Rel.inner : ∀ {l l' : List (List APt × List (AV N))}, List.Forall₂ SamePick l l' →
    Rel (inner l) (Circuit.inner l') SamePt
  | _, _, .nil => Rel.fail
  | _, _, .cons (a := (_, _)) (b := (_, _)) hp hps => (Rel.pick hp.2 hp.1).bind fun _ _ q1 => Rel.innerLoop hps q1

theorem same_zip : ∀ {l l' : List (List APt)} {b b' : List (List (AV N))}, List.Forall₂ (List.Forall₂ SamePt) l l' →
    List.Forall₂ (List.Forall₂ SameCell) b b' → List.Forall₂ SamePick (l.zip b) (l'.zip b')
  | _, _, _, _, .nil, _ => by simpa using List.Forall₂.nil
  | _, _, _, _, .cons _ _, .nil => by simpa using List.Forall₂.nil
  | _, _, _, _, .cons h hs, .cons h' hs' => .cons ⟨h, h'⟩ (same_zip hs hs')

theorem same_get {α : Type} {R : α → α → Prop} {n : ℕ} : ∀ {l l' : List (List α)} {bs bs' : List α},
    List.Forall₂ (List.Forall₂ R) l l' → l.mapM (fun w => w[n]?) = some bs → l'.mapM (fun w => w[n]?) = some bs' →
    List.Forall₂ R bs bs'
  | _, _, bs, bs', .nil, h1, h2 => by cases h1; cases h2; exact .nil
  | _, _, bs, bs', .cons h hs, h1, h2 => by
    simp only [List.mapM_cons, Option.bind_eq_bind, Option.bind_eq_some_iff, Option.pure_def,
      Option.some.injEq] at h1 h2
    obtain ⟨b, hb, t, ht, rfl⟩ := h1
    obtain ⟨b', hb', t', ht', rfl⟩ := h2
    refine .cons ?_ (same_get hs ht ht')
    rw [List.getElem?_eq_some_iff] at hb hb'
    obtain ⟨i1, rfl⟩ := hb
    obtain ⟨i2, rfl⟩ := hb'
    exact (List.forall₂_iff_get.1 h).2 n i1 i2

theorem Rel.windowBits (n : ℕ) {w w' : List (List (List (AV N)))}
    (h : List.Forall₂ (List.Forall₂ (List.Forall₂ SameCell)) w w') :
    Rel (F := N) (Circuit.unwrapM (w.mapM fun x => x[n]?)) (Circuit.unwrapM (w'.mapM fun x => x[n]?))
      (List.Forall₂ (List.Forall₂ SameCell)) :=
  (Rel.unwrapM _ _).mono fun _ _ q => same_get h q.1 q.2

theorem Rel.shamirLoop {l l' : List (List APt)} (hl : List.Forall₂ (List.Forall₂ SamePt) l l')
    {w w' : List (List (List (AV N)))} (hw : List.Forall₂ (List.Forall₂ (List.Forall₂ SameCell)) w w') :
    ∀ (n wi : ℕ) {a a' : APt}, SamePt a a' → Rel (shamirLoop l w n wi a) (Circuit.shamirLoop l' w' n wi a') SamePt
  | 0, _, _, _, h => Rel.pure h
  | n + 1, wi, _, _, h => (Rel.windowBits wi hw).bind fun _ _ q1 => (Rel.inner (same_zip hl q1)).bind fun _ _ q2 =>
      (Rel.doubles 4 h).bind fun _ _ q3 => (Rel.pAdd q2 q3).bind fun _ _ q4 => Rel.shamirLoop hl hw n (wi + 1) q4.1

theorem Rel.shamir {l l' : List APt} (hl : List.Forall₂ SamePt l l') {s s' : List (AV N)}
    (hs : List.Forall₂ SameCell s s') : Rel (shamir l s) (Circuit.shamir l' s') SamePt := by
  unfold Circuit.shamir
  refine Rel.assertM.bind fun _ _ _ => (Rel.decomposeAll hs).bind fun w w' q1 => Rel.assignIdentity.bind fun _ _ q2 =>
    (Rel.allCands q2 hl).bind fun _ _ q3 => ?_
  refine Rel.bind (R := fun u u' => u.length = u'.length) ((Rel.unwrapM _ _).mono ?_) fun u u' q4 => ?_
  · rintro u u' ⟨h1, h2⟩
    cases q1 with
    | nil => cases h1
    | cons h _ => cases h1; cases h2; exact h.length_eq
  · rw [← q4]
    cases u.length with
    | zero => exact Rel.fail
    | succ n => exact (Rel.windowBits 0 q1).bind fun _ _ q5 => (Rel.inner (same_zip q3 q5)).bind fun _ _ q6 =>
        Rel.shamirLoop q3 q1 n 1 q6

theorem Rel.constSlot {i i' : APt} (hi : SamePt i i') (P : Pt) : ∀ {b b' : List (AV N)}, List.Forall₂ SameCell b b' →
    Rel (constSlot i P b) (Circuit.constSlot i' P b') SamePt
  | _, _, .nil => Rel.fail
  | _, _, .cons _ .nil => Rel.fail
  | _, _, .cons _ (.cons _ (.cons _ _)) => Rel.fail
  | _, _, .cons h0 (.cons h1 .nil) => (Rel.assignConstantPointCurv _).bind fun _ _ q1 =>
      (Rel.assignConstantPointCurv _).bind fun _ _ q2 => (Rel.assignConstantPointCurv _).bind fun _ _ q3 =>
      (Rel.bisecPointCurv h0 q2 hi).bind fun _ _ q4 => (Rel.bisecPointCurv h0 q3 q1).bind fun _ _ q5 =>
      Rel.bisecPointCurv h1 q5 q4

theorem Rel.constLoop {i i' : APt} (hi : SamePt i i') : ∀ {ws ws' : List (List (AV N))} (P : Pt) {a a' : APt},
    List.Forall₂ (List.Forall₂ SameCell) ws ws' → SamePt a a' →
    Rel (constLoop i ws P a) (Circuit.constLoop i' ws' P a') SamePt
  | _, _, _, _, _, .nil, h => Rel.pure h
  | _, _, P, _, _, .cons hb hbs, h => (Rel.constSlot hi P hb).bind fun _ _ q1 => (Rel.pAdd q1 h).bind fun _ _ q2 =>
      Rel.constLoop hi _ hbs q2.1

theorem Rel.constantMul (P : Pt) (hc : SameCell c c') : Rel (constantMul P c) (Circuit.constantMul P c') SamePt := by
  unfold Circuit.constantMul
  refine (Rel.decomposeScalar 2 hc).bind fun ws ws' q1 => (Rel.assignConstantPointCurv _).bind fun _ _ q2 => ?_
  have q := List.rel_reverse q1
  revert q
  generalize ws.reverse = v
  generalize ws'.reverse = v'
  intro q
  cases q with
  | nil => exact Rel.fail
  | cons h hs => exact (Rel.constSlot q2 P h).bind fun _ _ q4 => Rel.constLoop q2 _ hs q4

end Verif.Circuit
