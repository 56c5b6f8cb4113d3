import Verif.Circuit.Base
import Mathlib.Tactic.LinearCombination
import Mathlib.Tactic.FieldSimp
import Mathlib.Tactic.Ring

/-!
# Program logic for circuit-building computations (helper lemmas)

`Spec t m post`: whenever `m` runs, every advice assignment satisfying the extended circuit satisfies
the old circuit and `post`.  This is the soundness triple: it quantifies over all advice assignments.
-/

namespace Verif.Circuit

variable {F : Type} [Field F] {α β : Type}

/-- Soundness triple. -/
structure Spec (t : Tables) (m : M F α) (post : Advice F → α → Prop) : Prop where
  run : ∀ ctx r ctx', m ctx = some (r, ctx') → ∀ adv, Sat t ctx' adv → Sat t ctx adv ∧ post adv r

theorem Spec.mono {t : Tables} {m : M F α} {P Q : Advice F → α → Prop} (h : Spec t m P)
    (hpq : ∀ adv r, P adv r → Q adv r) : Spec t m Q := by
  constructor
  intro ctx r ctx' hm adv hs
  obtain ⟨h1, h2⟩ := h.run ctx r ctx' hm adv hs
  exact ⟨h1, hpq _ _ h2⟩

theorem Spec.bind {t : Tables} {m : M F α} {k : α → M F β} {P : Advice F → α → Prop}
    {Q : α → Advice F → β → Prop} (hm : Spec t m P) (hk : ∀ a, Spec t (k a) (Q a)) :
    Spec t (m >>= k) (fun adv b => ∃ a, P adv a ∧ Q a adv b) := by
  constructor
  intro ctx r ctx' h adv hs
  simp only [Bind.bind, StateT.bind, Option.bind_eq_some_iff] at h
  obtain ⟨⟨a, c1⟩, h1, h2⟩ := h
  obtain ⟨hs1, hq⟩ := (hk a).run c1 r ctx' h2 adv hs
  obtain ⟨hs0, hp⟩ := hm.run ctx a c1 h1 adv hs1
  exact ⟨hs0, a, hp, hq⟩

theorem Spec.pure {t : Tables} (a : α) : Spec t (Pure.pure a : M F α) (fun _ r => r = a) := by
  constructor
  intro ctx r ctx' h adv hs
  simp only [Pure.pure, StateT.pure, Option.some.injEq, Prod.mk.injEq] at h
  obtain ⟨rfl, rfl⟩ := h
  exact ⟨hs, rfl⟩

theorem Spec.assertM {t : Tables} (c : Prop) [Decidable c] :
    Spec t (assertM c : M F Unit) (fun _ _ => c) := by
  constructor
  intro ctx r ctx' h adv hs
  unfold Circuit.assertM at h
  split at h
  · next hc =>
    simp only [Option.some.injEq, Prod.mk.injEq] at h
    obtain ⟨_, rfl⟩ := h
    exact ⟨hs, hc⟩
  · exact absurd h (by simp)

theorem Spec.unwrapM {t : Tables} (o : Option α) :
    Spec t (unwrapM o : M F α) (fun _ r => o = some r) := by
  constructor
  intro ctx r ctx' h adv hs
  unfold Circuit.unwrapM at h
  cases o with
  | none => simp at h
  | some a =>
    simp only [Option.map_some, Option.some.injEq, Prod.mk.injEq] at h
    obtain ⟨rfl, rfl⟩ := h
    exact ⟨hs, rfl⟩

/-- What an assigned schema in column `j` of row `i` says about the advice. -/
def copyHolds (adv : Advice F) (i : ℕ) (ps : List (Schema F × F)) (j : Fin 5) : Prop :=
  match (ps.getD j (.unassigned 0, 0)).1 with
  | .assigned a => a.val adv = adv i j
  | .unassigned _ => True

omit [Field F] in
theorem sat_copyOf [Field F] {adv : Advice F} {i : ℕ} {ps : List (Schema F × F)} {j : Fin 5}
    (h : ∀ p ∈ copyOf i ps j, adv.at p.1 = adv.at p.2) : copyHolds adv i ps j := by
  unfold copyOf at h
  unfold copyHolds
  split
  · next a ha =>
    rw [ha] at h
    exact h (a.cell, ⟨i, j⟩) (by simp)
  · trivial

/-- The row written by `oneLineSel`. -/
def mkRow (sel : Sel) (ps : List (Schema F × F)) (const : F) (mul : List F) (next : F) : Row F :=
  { coeff := fun j => (ps.getD j (.unassigned 0, 0)).2
    mul := fun j => mul.getD j 0
    next := next
    const := const
    common := sel.common
    wLead := sel.wLead
    nLead := sel.nLead
    dLead := sel.dLead }

/-- Everything a new row at offset `i` imposes on an advice assignment. -/
def rowHolds (t : Tables) (sel : Sel) (ps : List (Schema F × F)) (const : F) (mul : List F) (next : F)
    (i : ℕ) (adv : Advice F) : Prop :=
  gateEval (mkRow sel ps const mul next) (adv i) (adv (i + 1)) = 0
    ∧ lookupsHold t (mkRow sel ps const mul next) (adv i)
    ∧ copyHolds adv i ps 0 ∧ copyHolds adv i ps 1 ∧ copyHolds adv i ps 2 ∧ copyHolds adv i ps 3
    ∧ copyHolds adv i ps 4

theorem oneLineSel_run {sel : Sel} {ps : List (Schema F × F)} {const : F} {mul : List F} {next : F}
    {ctx ctx' : Ctx F} {r : Fin 5 → AV F} (h : oneLineSel sel ps const mul next ctx = some (r, ctx')) :
    (∀ j, (r j).cell = ⟨ctx.offset, j⟩) ∧ ctx'.offset = ctx.offset + 1 ∧
      ∀ t adv, Sat t ctx' adv → Sat t ctx adv ∧ rowHolds t sel ps const mul next ctx.offset adv := by
  unfold oneLineSel at h
  split at h
  · simp only [Option.some.injEq, Prod.mk.injEq] at h
    obtain ⟨rfl, rfl⟩ := h
    refine ⟨fun j => rfl, rfl, ?_⟩
    rintro t adv ⟨hr, hc⟩
    simp only [List.forall_mem_cons] at hr
    simp only [List.forall_mem_append] at hc
    obtain ⟨h0, h1, h2, h3, h4, hc⟩ := hc
    exact ⟨⟨hr.2, hc⟩, hr.1.1, hr.1.2, sat_copyOf h0, sat_copyOf h1, sat_copyOf h2, sat_copyOf h3,
      sat_copyOf h4⟩
  · exact absurd h (by simp)

theorem Spec.oneLineSel (t : Tables) (sel : Sel) (ps : List (Schema F × F)) (const : F) (mul : List F)
    (next : F) : Spec t (oneLineSel sel ps const mul next)
      (fun adv cells => ∃ i, (∀ j, (cells j).cell = ⟨i, j⟩) ∧
        rowHolds t sel ps const mul next i adv) := by
  constructor
  intro ctx r ctx' h adv hs
  obtain ⟨h1, _, h2⟩ := oneLineSel_run h
  obtain ⟨h3, h4⟩ := h2 t adv hs
  exact ⟨h3, ctx.offset, h1, h4⟩

theorem Spec.oneLine (t : Tables) (ps : List (Schema F × F)) (const : F) (mul : List F) (next : F) :
    Spec t (oneLine ps const mul next)
      (fun adv cells => ∃ i, (∀ j, (cells j).cell = ⟨i, j⟩) ∧ rowHolds t {} ps const mul next i adv) :=
  Spec.oneLineSel t {} ps const mul next

/-- Sum of coefficient-weighted cell values under an advice assignment (specification). -/
def wsum (adv : Advice F) (l : List (AV F × F)) : F := (l.map fun p => p.2 * p.1.val adv).sum

omit [Field F] in
theorem oneLineWithLastBase_run [Field F] {ps : List (Schema F × F)} {last : Schema F × F} {const : F}
    {mul : List F} {next : F} {ctx ctx' : Ctx F} {r : Fin 5 → AV F}
    (h : oneLineWithLastBase ps last const mul next ctx = some (r, ctx')) :
    ps.length < 5 ∧ oneLine (resizePairs 4 ps ++ [last]) const mul next ctx = some (r, ctx') := by
  unfold oneLineWithLastBase at h
  simp only [Bind.bind, StateT.bind, Option.bind_eq_some_iff] at h
  obtain ⟨⟨_, c1⟩, h1, h2⟩ := h
  unfold Circuit.assertM at h1
  split at h1
  · next hl =>
    simp only [Option.some.injEq, Prod.mk.injEq, true_and] at h1
    subst h1
    exact ⟨hl, h2⟩
  · exact absurd h1 (by simp)

theorem copyHolds_assigned {adv : Advice F} {i : ℕ} {ps : List (Schema F × F)} {j : Fin 5} {a : AV F}
    {c : F} (h : copyHolds adv i ps j) (hj : ps[(j : ℕ)]? = some (.assigned a, c)) :
    a.val adv = adv i j := by
  unfold copyHolds at h
  simpa [List.getD, hj] using h

end Verif.Circuit
