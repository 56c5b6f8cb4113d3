import Verif.Circuit.Base
import Verif.Circuit.Program
import Mathlib.Data.List.Forall2

/-!
# The circuit does not depend on the witness: native gate (helper lemmas)

Two runs of the same code on handles that name the same cells but carry different honest values emit the
same fixed rows and the same copy constraints.
-/

namespace Verif.Circuit

section
variable {F : Type}

/-- Same fixed rows, copy constraints and offset (the honest advice may differ). -/
structure SameCircuit (c c' : Ctx F) : Prop where
  offset : c.offset = c'.offset
  rows : c.rows = c'.rows
  copies : c.copies = c'.copies

theorem SameCircuit.refl (c : Ctx F) : SameCircuit c c := ⟨rfl, rfl, rfl⟩

/-- The two computations, from the same circuit, build the same circuit and return related results. -/
structure Rel {α β : Type} (m : M F α) (m' : M F β) (R : α → β → Prop) : Prop where
  run : ∀ c c', SameCircuit c c' → ∀ r d r' d', m c = some (r, d) → m' c' = some (r', d') →
    SameCircuit d d' ∧ R r r'

/-- Same cell, possibly different honest values. -/
def SameCell (a a' : AV F) : Prop := a.cell = a'.cell

theorem Rel.mono {α β : Type} {m : M F α} {m' : M F β} {R S : α → β → Prop} (h : Rel m m' R)
    (hi : ∀ a b, R a b → S a b) : Rel m m' S :=
  ⟨fun c c' hc r d r' d' h1 h2 => let ⟨x, y⟩ := h.run c c' hc r d r' d' h1 h2; ⟨x, hi _ _ y⟩⟩

theorem Rel.pure {α β : Type} {R : α → β → Prop} {a : α} {b : β} (h : R a b) :
    Rel (Pure.pure a : M F α) (Pure.pure b) R := by
  constructor
  intro c c' hc r d r' d' h1 h2
  cases h1
  cases h2
  exact ⟨hc, h⟩

theorem Rel.bind {α β γ δ : Type} {m : M F α} {m' : M F β} {k : α → M F γ} {k' : β → M F δ}
    {R : α → β → Prop} {S : γ → δ → Prop} (h : Rel m m' R) (hk : ∀ a b, R a b → Rel (k a) (k' b) S) :
    Rel (m >>= k) (m' >>= k') S := by
  constructor
  intro c c' hc r d r' d' h1 h2
  simp only [Bind.bind, StateT.bind, Option.bind_eq_some_iff, Prod.exists] at h1 h2
  obtain ⟨a, c1, h1, h1'⟩ := h1
  obtain ⟨b, c2, h2, h2'⟩ := h2
  obtain ⟨hc', hr⟩ := h.run c c' hc _ _ _ _ h1 h2
  exact (hk a b hr).run _ _ hc' _ _ _ _ h1' h2'

theorem Rel.assertM {p q : Prop} [Decidable p] [Decidable q] :
    Rel (F := F) (assertM p) (assertM q) (fun _ _ => p ∧ q) := by
  constructor
  intro c c' hc r d r' d' h1 h2
  unfold Circuit.assertM at h1 h2
  split at h1
  · split at h2
    · cases h1; cases h2; exact ⟨hc, by assumption, by assumption⟩
    · cases h2
  · cases h1

theorem Rel.unwrapM {α : Type} (o o' : Option α) :
    Rel (F := F) (unwrapM o) (unwrapM o') (fun r r' => o = some r ∧ o' = some r') := by
  constructor
  intro c c' hc r d r' d' h1 h2
  unfold Circuit.unwrapM at h1 h2
  simp only [Option.map_eq_some_iff, Prod.mk.injEq] at h1 h2
  obtain ⟨a, h1, rfl, rfl⟩ := h1
  obtain ⟨b, h2, rfl, rfl⟩ := h2
  exact ⟨hc, h1, h2⟩

/-- Related schemas: both refer to the same existing cell, or both ask for a new value. -/
inductive SameSchema : Schema F → Schema F → Prop
  | assigned {a a' : AV F} (h : SameCell a a') : SameSchema (.assigned a) (.assigned a')
  | unassigned {v v' : F} : SameSchema (.unassigned v) (.unassigned v')

/-- Related pairs: related schemas and the same coefficient. -/
def SamePair (p p' : Schema F × F) : Prop := SameSchema p.1 p'.1 ∧ p.2 = p'.2

theorem SamePair.assigned {a a' : AV F} (h : SameCell a a') (x : F) :
    SamePair (.assigned a, x) (.assigned a', x) := ⟨.assigned h, rfl⟩

theorem SamePair.unassigned {v v' : F} (x : F) : SamePair (.unassigned v, x) (.unassigned v', x) :=
  ⟨.unassigned, rfl⟩

theorem forall2_getD {α : Type} {R : α → α → Prop} {d : α} (hd : R d d) {l l' : List α}
    (h : List.Forall₂ R l l') : ∀ i, R (l.getD i d) (l'.getD i d) := by
  induction h with
  | nil => intro i; simpa using hd
  | cons h _ ih =>
    intro i
    cases i with
    | zero => simpa using h
    | succ i => simpa using ih i

end

section
variable {F : Type} [Field F]

theorem copyOf_same {i : ℕ} {ps ps' : List (Schema F × F)} (h : List.Forall₂ SamePair ps ps') (j : Fin 5) :
    copyOf i ps j = copyOf i ps' j := by
  have := (forall2_getD (d := ((.unassigned 0 : Schema F), (0 : F))) (SamePair.unassigned 0) h j).1
  unfold copyOf
  generalize (ps.getD j (.unassigned 0, 0)).1 = s at this
  generalize (ps'.getD j (.unassigned 0, 0)).1 = s' at this
  cases this with
  | assigned h => simp only; rw [show _ = _ from h]
  | unassigned => rfl

theorem Rel.oneLineSel (sel : Sel) {ps ps' : List (Schema F × F)} (const : F) (mul : List F) (next : F)
    (h : List.Forall₂ SamePair ps ps') :
    Rel (oneLineSel sel ps const mul next) (Circuit.oneLineSel sel ps' const mul next)
      (fun r r' => ∀ j, SameCell (r j) (r' j)) := by
  constructor
  intro c c' hc r d r' d' h1 h2
  unfold Circuit.oneLineSel at h1 h2
  split at h1
  · split at h2
    · simp only [Option.some.injEq, Prod.mk.injEq] at h1 h2
      obtain ⟨rfl, rfl⟩ := h1
      obtain ⟨rfl, rfl⟩ := h2
      refine ⟨⟨?_, ?_, ?_⟩, ?_⟩
      · simp only [hc.offset]
      · have hp : ∀ j : ℕ, (ps.getD j (.unassigned 0, 0)).2 = (ps'.getD j (.unassigned 0, 0)).2 := fun j =>
          (forall2_getD (d := ((.unassigned 0 : Schema F), (0 : F))) (SamePair.unassigned 0) h j).2
        simp only [hc.offset, hc.rows, hp]
      · simp only [hc.offset, hc.copies, copyOf_same h]
      · intro j
        show Cell.mk _ _ = Cell.mk _ _
        rw [hc.offset]
    · cases h2
  · cases h1

theorem Rel.oneLine {ps ps' : List (Schema F × F)} (const : F) (mul : List F) (next : F)
    (h : List.Forall₂ SamePair ps ps') :
    Rel (oneLine ps const mul next) (Circuit.oneLine ps' const mul next)
      (fun r r' => ∀ j, SameCell (r j) (r' j)) := Rel.oneLineSel {} const mul next h

theorem Rel.oneLineAdd {ps ps' : List (Schema F × F)} (const : F) (h : List.Forall₂ SamePair ps ps') :
    Rel (oneLineAdd ps const) (Circuit.oneLineAdd ps' const)
      (fun r r' => ∀ j, SameCell (r j) (r' j)) := Rel.oneLine const [] 0 h

/-- One line of which one cell is returned. -/
theorem Rel.cell {m m' : M F (Fin 5 → AV F)} (h : Rel m m' (fun r r' => ∀ j, SameCell (r j) (r' j)))
    (j : Fin 5) : Rel (m >>= fun cells => Pure.pure (cells j)) (m' >>= fun cells => Pure.pure (cells j))
      SameCell :=
  h.bind fun _ _ hr => Rel.pure (hr j)

theorem Rel.unit {m m' : M F (Fin 5 → AV F)} (h : Rel m m' (fun r r' => ∀ j, SameCell (r j) (r' j))) :
    Rel (m >>= fun _ => (Pure.pure () : M F Unit)) (m' >>= fun _ => (Pure.pure () : M F Unit))
      (fun _ _ => True) :=
  h.bind fun _ _ _ => Rel.pure trivial

/-- Closes goals `Forall₂ SamePair [..] [..]` for explicit lists. -/
macro "same_pairs" : tactic => `(tactic|
  (repeat' first
    | exact List.Forall₂.nil
    | refine List.Forall₂.cons ?_ ?_
    | exact SamePair.unassigned _
    | (refine SamePair.assigned ?_ _; assumption)
    | (refine SamePair.assigned ?_ _; solve_by_elim)))

/-- Related lists of weighted cells. -/
def SameTerms (l l' : List (AV F × F)) : Prop := List.Forall₂ (fun p p' => SameCell p.1 p'.1 ∧ p.2 = p'.2) l l'

theorem same_assignedPairs {l l' : List (AV F × F)} (h : SameTerms l l') :
    List.Forall₂ SamePair (assignedPairs l) (assignedPairs l') := by
  unfold assignedPairs
  rw [List.forall₂_map_left_iff, List.forall₂_map_right_iff]
  exact h.imp fun p p' hp => ⟨.assigned hp.1, hp.2⟩

theorem same_resize {n : ℕ} {l l' : List (Schema F × F)} (h : List.Forall₂ SamePair l l') :
    List.Forall₂ SamePair (resizePairs n l) (resizePairs n l') := by
  unfold resizePairs
  refine List.rel_append (List.forall₂_take n h) ?_
  rw [h.length_eq]
  generalize n - l'.length = k
  induction k with
  | zero => exact .nil
  | succ k ih => exact .cons (SamePair.unassigned _) ih

theorem Rel.oneLineWithLastBase {ps ps' : List (Schema F × F)} {last last' : Schema F × F} (const : F)
    (mul : List F) (next : F) (h : List.Forall₂ SamePair ps ps') (hl : SamePair last last') :
    Rel (oneLineWithLastBase ps last const mul next) (Circuit.oneLineWithLastBase ps' last' const mul next)
      (fun r r' => ∀ j, SameCell (r j) (r' j)) := by
  unfold Circuit.oneLineWithLastBase
  exact Rel.assertM.bind fun _ _ _ =>
    Rel.oneLine _ _ _ (List.rel_append (same_resize h) (.cons hl .nil))

theorem Rel.sumLoop {l l' : List (AV F × F)} (h : SameTerms l l') (acc acc' constant : F) :
    Rel (sumLoop acc l constant) (Circuit.sumLoop acc' l' constant) SameCell := by
  induction hn : l.length using Nat.strong_induction_on generalizing l l' acc acc' with
  | _ n ih =>
    have hlen := h.length_eq
    unfold Circuit.sumLoop
    by_cases hgt : l.length + 1 + 1 > 5
    · rw [if_pos hgt, if_pos (by omega)]
      refine (Rel.oneLineWithLastBase _ _ _ (same_assignedPairs (List.forall₂_take 4 h))
        (SamePair.unassigned _)).bind fun _ _ _ => ?_
      exact ih (l.drop 4).length (by simp only [List.length_drop]; omega) (List.forall₂_drop 4 h) _ _ rfl
    · rw [if_neg hgt, if_neg (by omega)]
      exact Rel.cell (Rel.oneLineWithLastBase _ _ _ (.cons (SamePair.unassigned _) (same_assignedPairs h))
        (SamePair.unassigned _)) 0

theorem Rel.sumWithConstant {l l' : List (AV F × F)} (h : SameTerms l l') (constant : F) :
    Rel (sumWithConstant l constant) (Circuit.sumWithConstant l' constant) SameCell := by
  have hlen := h.length_eq
  unfold Circuit.sumWithConstant
  by_cases hgt : l.length + 1 > 5
  · rw [if_pos hgt, if_pos (by omega)]
    refine (Rel.oneLine _ _ _ (same_assignedPairs (List.forall₂_take 5 h))).bind fun _ _ _ => ?_
    exact Rel.sumLoop (List.forall₂_drop 5 h) _ _ _
  · rw [if_neg hgt, if_neg (by omega)]
    exact Rel.cell (Rel.oneLine _ _ _ (.cons (SamePair.unassigned _) (same_assignedPairs h))) 0

/-- Closes goals `SameTerms [..] [..]` for explicit lists. -/
macro "same_terms" : tactic => `(tactic|
  (unfold SameTerms
   repeat' first
    | exact List.Forall₂.nil
    | refine List.Forall₂.cons ?_ ?_
    | (refine ⟨?_, rfl⟩; assumption)
    | (refine ⟨?_, rfl⟩; solve_by_elim)))

variable {a a' b b' c c' d d' : AV F}

theorem Rel.add (ha : SameCell a a') (hb : SameCell b b') : Rel (add a b) (Circuit.add a' b') SameCell :=
  Rel.sumWithConstant (by same_terms) _

theorem Rel.addConstant (ha : SameCell a a') (k : F) :
    Rel (addConstant a k) (Circuit.addConstant a' k) SameCell := Rel.sumWithConstant (by same_terms) _

theorem Rel.sub (ha : SameCell a a') (hb : SameCell b b') : Rel (sub a b) (Circuit.sub a' b') SameCell :=
  Rel.sumWithConstant (by same_terms) _

theorem Rel.mul (ha : SameCell a a') (hb : SameCell b b') : Rel (mul a b) (Circuit.mul a' b') SameCell :=
  Rel.cell (Rel.oneLine _ _ _ (by same_pairs)) _

theorem Rel.mulAddConstant (ha : SameCell a a') (hb : SameCell b b') (k : F) :
    Rel (mulAddConstant a b k) (Circuit.mulAddConstant a' b' k) SameCell :=
  Rel.cell (Rel.oneLine _ _ _ (by same_pairs)) _

theorem Rel.mulAdd (ha : SameCell a a') (hb : SameCell b b') (hc : SameCell c c') (k : F) :
    Rel (mulAdd a b c k) (Circuit.mulAdd a' b' c' k) SameCell :=
  Rel.cell (Rel.oneLine _ _ _ (by same_pairs)) _

theorem Rel.mulAdd2 (ha : SameCell a a') (hb : SameCell b b') (hc : SameCell c c') (k : F)
    (hd : SameCell d d') (l : F) : Rel (mulAdd2 a b c k d l) (Circuit.mulAdd2 a' b' c' k d' l) SameCell :=
  Rel.cell (Rel.oneLine _ _ _ (by same_pairs)) _

/-- Related summands of a multiply-accumulate. -/
def SameMulTerm (x x' : MulTerm F) : Prop :=
  SameCell x.a x'.a ∧ SameCell x.b x'.b ∧ SameCell x.c x'.c ∧ x.coeff = x'.coeff

theorem Rel.mulAddFold {l l' : List (MulTerm F)} (h : List.Forall₂ SameMulTerm l l') :
    ∀ {acc acc' : AV F}, SameCell acc acc' → Rel (mulAddFold acc l) (Circuit.mulAddFold acc' l') SameCell := by
  induction h with
  | nil => intro acc acc' ha; exact Rel.pure ha
  | cons hx _ ih =>
    intro acc acc' ha
    unfold Circuit.mulAddFold
    obtain ⟨h1, h2, h3, h4⟩ := hx
    rw [h4]
    exact (Rel.mulAdd2 h1 h2 h3 _ ha _).bind fun _ _ hr => ih hr

theorem Rel.mulAddWithNextLine {l l' : List (MulTerm F)} (h : List.Forall₂ SameMulTerm l l') :
    Rel (mulAddWithNextLine l) (Circuit.mulAddWithNextLine l') SameCell := by
  cases h with
  | nil => exact (Rel.unwrapM _ _).mono (by simp)
  | cons hx hl =>
    unfold Circuit.mulAddWithNextLine
    obtain ⟨h1, h2, h3, h4⟩ := hx
    dsimp only
    rw [h4]
    exact (Rel.mulAdd h1 h2 h3 _).bind fun _ _ hr => Rel.mulAddFold hl hr

theorem Rel.assignConstant (v : F) : Rel (assignConstant v) (Circuit.assignConstant v) SameCell :=
  Rel.cell (Rel.oneLineAdd _ (by same_pairs)) _

theorem Rel.assign (v v' : F) : Rel (assign v) (Circuit.assign v') SameCell :=
  Rel.cell (Rel.oneLineAdd _ (by same_pairs)) _

theorem Rel.assertEqual (ha : SameCell a a') (hb : SameCell b b') :
    Rel (assertEqual a b) (Circuit.assertEqual a' b') (fun _ _ => True) :=
  Rel.unit (Rel.oneLineAdd _ (by same_pairs))

theorem Rel.assertConstant (ha : SameCell a a') (k : F) :
    Rel (assertConstant a k) (Circuit.assertConstant a' k) (fun _ _ => True) :=
  Rel.unit (Rel.oneLineAdd _ (by same_pairs))

theorem Rel.assertBit (ha : SameCell a a') :
    Rel (assertBit a) (Circuit.assertBit a') (fun _ _ => True) :=
  Rel.unit (Rel.oneLine _ _ _ (by same_pairs))

theorem Rel.not (ha : SameCell a a') : Rel (not a) (Circuit.not a') SameCell :=
  Rel.sumWithConstant (by same_terms) _

theorem Rel.or (ha : SameCell a a') (hb : SameCell b b') : Rel (or a b) (Circuit.or a' b') SameCell :=
  Rel.cell (Rel.oneLine _ _ _ (by same_pairs)) _

theorem Rel.xor (ha : SameCell a a') (hb : SameCell b b') : Rel (xor a b) (Circuit.xor a' b') SameCell :=
  Rel.cell (Rel.oneLine _ _ _ (by same_pairs)) _

theorem Rel.xnor (ha : SameCell a a') (hb : SameCell b b') : Rel (xnor a b) (Circuit.xnor a' b') SameCell :=
  Rel.cell (Rel.oneLine _ _ _ (by same_pairs)) _

theorem Rel.bisec (hc : SameCell c c') (ha : SameCell a a') (hb : SameCell b b') :
    Rel (bisec c a b) (Circuit.bisec c' a' b') SameCell :=
  Rel.cell (Rel.oneLine _ _ _ (by same_pairs)) _

variable [DecidableEq F]

theorem Rel.invertUnsafe (ha : SameCell a a') : Rel (invertUnsafe a) (Circuit.invertUnsafe a') SameCell := by
  unfold Circuit.invertUnsafe
  exact Rel.assertM.bind fun _ _ _ => Rel.cell (Rel.oneLine _ _ _ (by same_pairs)) _

omit [DecidableEq F] in
theorem Rel.invert (ha : SameCell a a') : Rel (invert a) (Circuit.invert a')
    (fun r r' => SameCell r.1 r'.1 ∧ SameCell r.2 r'.2) := by
  unfold Circuit.invert
  refine (Rel.oneLine _ _ _ (by same_pairs)).bind fun r r' hr => ?_
  refine (Rel.oneLine _ _ _ (by same_pairs)).bind fun q q' hq => ?_
  exact Rel.pure ⟨hq 2, hq 1⟩

omit [DecidableEq F] in
theorem Rel.isZero (ha : SameCell a a') : Rel (isZero a) (Circuit.isZero a') SameCell := by
  unfold Circuit.isZero
  exact (Rel.invert ha).bind fun r r' hr => Rel.pure hr.1

theorem Rel.divUnsafe (ha : SameCell a a') (hb : SameCell b b') :
    Rel (divUnsafe a b) (Circuit.divUnsafe a' b') SameCell := by
  unfold Circuit.divUnsafe
  exact Rel.assertM.bind fun _ _ _ => Rel.cell (Rel.oneLine _ _ _ (by same_pairs)) _


omit [DecidableEq F] in
theorem Rel.and (ha : SameCell a a') (hb : SameCell b b') : Rel (and a b) (Circuit.and a' b') SameCell :=
  Rel.mul ha hb

omit [DecidableEq F] in
theorem Rel.bisecCond (hc : SameCell c c') (ha : SameCell a a') (hb : SameCell b b') :
    Rel (bisecCond c a b) (Circuit.bisecCond c' a' b') SameCell := Rel.bisec hc ha hb

omit [DecidableEq F] in
theorem Rel.assertTrue (ha : SameCell a a') :
    Rel (assertTrue a) (Circuit.assertTrue a') (fun _ _ => True) := Rel.assertConstant ha _

omit [DecidableEq F] in
theorem Rel.assertFalse (ha : SameCell a a') :
    Rel (assertFalse a) (Circuit.assertFalse a') (fun _ _ => True) := Rel.assertConstant ha _

/-! ### Programs -/

/-- Forget the witness value of an `assign`; every other argument of a call is part of the circuit. -/
def Op.forget {ι : Type} : Op F ι → Op F ι
  | .assign _ => .assign 0
  | op => op

omit [DecidableEq F] in
theorem Rel.one {m m' : M F (AV F)} (h : Rel m m' SameCell) :
    Rel (m >>= fun r => (Pure.pure [r] : M F (List (AV F)))) (m' >>= fun r => (Pure.pure [r] : M F (List (AV F))))
      (List.Forall₂ SameCell) := h.bind fun _ _ hr => Rel.pure (.cons hr .nil)

omit [DecidableEq F] in
theorem Rel.none {m m' : M F Unit} (h : Rel m m' fun _ _ => True) :
    Rel (m >>= fun _ => (Pure.pure [] : M F (List (AV F)))) (m' >>= fun _ => (Pure.pure [] : M F (List (AV F))))
      (List.Forall₂ SameCell) := h.bind fun _ _ _ => Rel.pure .nil

theorem Rel.op {ι : Type} (f f' : ι → AV F) (hf : ∀ i, SameCell (f i) (f' i)) {op op' : Op F ι}
    (h : op.forget = op'.forget) :
    Rel (Op.run (op.map f)) (Op.run (op'.map f')) (List.Forall₂ SameCell) := by
  cases op <;> cases op' <;> simp only [Op.forget, Op.assign.injEq, Op.constant.injEq, Op.sum.injEq,
    Op.add.injEq, Op.addConstant.injEq, Op.sub.injEq, Op.mul.injEq, Op.mulAddConstant.injEq,
    Op.mulAdd.injEq, Op.mulAdd2.injEq, Op.mulAddNext.injEq, Op.invertUnsafe.injEq, Op.invert.injEq,
    Op.isZero.injEq, Op.divUnsafe.injEq, Op.and.injEq, Op.or.injEq, Op.xor.injEq, Op.xnor.injEq,
    Op.not.injEq, Op.bisec.injEq, Op.bisecCond.injEq, Op.assertEqual.injEq, Op.assertConstant.injEq,
    Op.assertBit.injEq, Op.assertTrue.injEq, Op.assertFalse.injEq, reduceCtorEq] at h
  case assign.assign => exact Rel.one (Rel.assign _ _)
  case constant.constant => subst h; exact Rel.one (Rel.assignConstant _)
  case sum.sum l _ l' _ =>
    obtain ⟨rfl, rfl⟩ := h
    refine Rel.one (Rel.sumWithConstant ?_ _)
    unfold SameTerms
    rw [List.forall₂_map_left_iff, List.forall₂_map_right_iff, List.forall₂_same]
    exact fun p _ => ⟨hf _, rfl⟩
  case mulAddNext.mulAddNext =>
    subst h
    refine Rel.one (Rel.mulAddWithNextLine ?_)
    rw [List.forall₂_map_left_iff, List.forall₂_map_right_iff, List.forall₂_map_left_iff,
      List.forall₂_map_right_iff, List.forall₂_same]
    exact fun p _ => ⟨hf _, hf _, hf _, rfl⟩
  case add.add => obtain ⟨rfl, rfl⟩ := h; exact Rel.one (Rel.add (hf _) (hf _))
  case addConstant.addConstant => obtain ⟨rfl, rfl⟩ := h; exact Rel.one (Rel.addConstant (hf _) _)
  case sub.sub => obtain ⟨rfl, rfl⟩ := h; exact Rel.one (Rel.sub (hf _) (hf _))
  case mul.mul => obtain ⟨rfl, rfl⟩ := h; exact Rel.one (Rel.mul (hf _) (hf _))
  case mulAddConstant.mulAddConstant =>
    obtain ⟨rfl, rfl, rfl⟩ := h; exact Rel.one (Rel.mulAddConstant (hf _) (hf _) _)
  case mulAdd.mulAdd => obtain ⟨rfl, rfl, rfl, rfl⟩ := h; exact Rel.one (Rel.mulAdd (hf _) (hf _) (hf _) _)
  case mulAdd2.mulAdd2 =>
    obtain ⟨rfl, rfl, rfl, rfl, rfl, rfl⟩ := h
    exact Rel.one (Rel.mulAdd2 (hf _) (hf _) (hf _) _ (hf _) _)
  case invertUnsafe.invertUnsafe => subst h; exact Rel.one (Rel.invertUnsafe (hf _))
  case invert.invert =>
    subst h
    exact (Rel.invert (hf _)).bind fun _ _ hr => Rel.pure (.cons hr.1 (.cons hr.2 .nil))
  case isZero.isZero => subst h; exact Rel.one (Rel.isZero (hf _))
  case divUnsafe.divUnsafe => obtain ⟨rfl, rfl⟩ := h; exact Rel.one (Rel.divUnsafe (hf _) (hf _))
  case and.and => obtain ⟨rfl, rfl⟩ := h; exact Rel.one (Rel.and (hf _) (hf _))
  case or.or => obtain ⟨rfl, rfl⟩ := h; exact Rel.one (Rel.or (hf _) (hf _))
  case xor.xor => obtain ⟨rfl, rfl⟩ := h; exact Rel.one (Rel.xor (hf _) (hf _))
  case xnor.xnor => obtain ⟨rfl, rfl⟩ := h; exact Rel.one (Rel.xnor (hf _) (hf _))
  case not.not => subst h; exact Rel.one (Rel.not (hf _))
  case bisec.bisec => obtain ⟨rfl, rfl, rfl⟩ := h; exact Rel.one (Rel.bisec (hf _) (hf _) (hf _))
  case bisecCond.bisecCond =>
    obtain ⟨rfl, rfl, rfl⟩ := h; exact Rel.one (Rel.bisecCond (hf _) (hf _) (hf _))
  case assertEqual.assertEqual => obtain ⟨rfl, rfl⟩ := h; exact Rel.none (Rel.assertEqual (hf _) (hf _))
  case assertConstant.assertConstant =>
    obtain ⟨rfl, rfl⟩ := h; exact Rel.none (Rel.assertConstant (hf _) _)
  case assertBit.assertBit => subst h; exact Rel.none (Rel.assertBit (hf _))
  case assertTrue.assertTrue => subst h; exact Rel.none (Rel.assertTrue (hf _))
  case assertFalse.assertFalse => subst h; exact Rel.none (Rel.assertFalse (hf _))

theorem Rel.prog : ∀ {ps ps' : List (Op F ℕ)} {env env' : List (AV F)},
    ps.map Op.forget = ps'.map Op.forget → List.Forall₂ SameCell env env' →
    Rel (runProg ps env) (runProg ps' env') (List.Forall₂ SameCell)
  | [], [], _, _, _, he => Rel.pure he
  | [], _ :: _, _, _, h, _ => by simp at h
  | _ :: _, [], _, _, h, _ => by simp at h
  | op :: ps, op' :: ps', env, env', h, he => by
    simp only [List.map_cons, List.cons.injEq] at h
    unfold runProg
    refine Rel.assertM.bind fun _ _ _ => ?_
    refine (Rel.op _ _ (fun i => forall2_getD (R := SameCell) (d := ⟨⟨0, 0⟩, 0⟩) rfl he i) h.1).bind
      fun _ _ hn => ?_
    exact Rel.prog h.2 (List.rel_append he hn)

end
end Verif.Circuit
