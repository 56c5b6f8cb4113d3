import Verif.Circuit.Complete

/-!
# Completeness lemmas for the native gate operations (helper lemmas)
-/

set_option linter.unusedSimpArgs false
set_option linter.unusedSectionVars false

namespace Verif.Circuit

variable {F : Type} [Field F] {t : Tables}

/-- Sum of coefficient-weighted honest values (specification). -/
def hsum (l : List (AV F × F)) : F := (l.map fun p => p.2 * p.1.value).sum

theorem honestSum_eq (l : List (AV F × F)) : ∀ init : F, honestSum init l = init + hsum l := by
  induction l with
  | nil => intro init; simp [honestSum, hsum]
  | cons p l ih =>
    intro init
    have : honestSum init (p :: l) = honestSum (init + p.1.value * p.2) l := rfl
    rw [this, ih]
    simp only [hsum, List.map_cons, List.sum_cons]
    ring

theorem CSpec.mul (a b : AV F) :
    CSpec t (mul a b) (fun c => ValidAV c a ∧ ValidAV c b)
      (fun c r => ValidAV c r ∧ r.value = a.value * b.value) := by
  unfold Circuit.mul
  refine (CSpec.cell 2 (CSpec.oneLine _ _ _ (by simp) (by simp) ?_) rfl).mono ?_ (fun _ _ h => h)
  · simp [gateEval, mkRow, lineVal, Schema.value]
  · rintro c ⟨h1, h2⟩; simp [ValidSchema, h1, h2]

theorem CSpec.mulAddConstant (a b : AV F) (k : F) :
    CSpec t (mulAddConstant a b k) (fun c => ValidAV c a ∧ ValidAV c b)
      (fun c r => ValidAV c r ∧ r.value = a.value * b.value + k) := by
  unfold Circuit.mulAddConstant
  refine (CSpec.cell 2 (CSpec.oneLine _ _ _ (by simp) (by simp) ?_) rfl).mono ?_ (fun _ _ h => h)
  · simp [gateEval, mkRow, lineVal, Schema.value]
  · rintro c ⟨h1, h2⟩; simp [ValidSchema, h1, h2]

theorem CSpec.mulAdd (a b c : AV F) (k : F) :
    CSpec t (mulAdd a b c k) (fun x => ValidAV x a ∧ ValidAV x b ∧ ValidAV x c)
      (fun x r => ValidAV x r ∧ r.value = a.value * b.value + k * c.value) := by
  unfold Circuit.mulAdd
  refine (CSpec.cell 3 (CSpec.oneLine _ _ _ (by simp) (by simp) ?_) ?_).mono ?_ (fun _ _ h => h)
  · simp [gateEval, mkRow, lineVal, Schema.value]
  · simp [lineVal, Schema.value]; ring
  · rintro x ⟨h1, h2, h3⟩; simp [ValidSchema, h1, h2, h3]

theorem CSpec.mulAdd2 (a b c : AV F) (k : F) (d : AV F) (l : F) :
    CSpec t (mulAdd2 a b c k d l)
      (fun x => ValidAV x a ∧ ValidAV x b ∧ ValidAV x c ∧ ValidAV x d)
      (fun x r => ValidAV x r ∧ r.value = a.value * b.value + k * c.value + l * d.value) := by
  unfold Circuit.mulAdd2
  refine (CSpec.cell 4 (CSpec.oneLine _ _ _ (by simp) (by simp) ?_) ?_).mono ?_ (fun _ _ h => h)
  · simp [gateEval, mkRow, lineVal, Schema.value]
  · simp [lineVal, Schema.value]; ring
  · rintro x ⟨h1, h2, h3, h4⟩; simp [ValidSchema, h1, h2, h3, h4]

theorem CSpec.assignConstant (v : F) :
    CSpec t (assignConstant v) (fun _ => True) (fun c r => ValidAV c r ∧ r.value = v) := by
  unfold Circuit.assignConstant oneLineAdd
  refine (CSpec.cell 0 (CSpec.oneLine _ _ _ (by simp) (by simp) ?_) rfl).mono ?_ (fun _ _ h => h)
  · simp [gateEval, mkRow, lineVal, Schema.value]
  · intro c _; simp [ValidSchema]

theorem CSpec.assign (v : F) :
    CSpec t (assign v) (fun _ => True) (fun c r => ValidAV c r ∧ r.value = v) := by
  unfold Circuit.assign oneLineAdd
  refine (CSpec.cell 0 (CSpec.oneLine _ _ _ (by simp) (by simp) ?_) rfl).mono ?_ (fun _ _ h => h)
  · simp [gateEval, mkRow, lineVal, Schema.value]
  · intro c _; simp [ValidSchema]

/-- Discard the cells of a line. -/
theorem CSpec.unit {m : M F (Fin 5 → AV F)} {P : Ctx F → Prop} {f : Ctx F → (Fin 5 → AV F) → Prop}
    (h : CSpec t m P f) :
    CSpec t (m >>= fun _ => (Pure.pure () : M F Unit)) P (fun _ _ => True) :=
  h.bind (P2 := fun _ _ => True) (fun _ => (CSpec.pure _ _).mono (fun _ h => h) (fun _ _ _ => trivial))
    (fun _ _ _ _ _ _ => trivial)

theorem CSpec.assertEqual (a b : AV F) (hab : a.value = b.value) :
    CSpec t (assertEqual a b) (fun c => ValidAV c a ∧ ValidAV c b) (fun _ _ => True) := by
  unfold Circuit.assertEqual oneLineAdd
  refine (CSpec.unit (CSpec.oneLine _ _ _ (by simp) (by simp) ?_)).mono ?_ (fun _ _ h => h)
  · simp [gateEval, mkRow, lineVal, Schema.value, hab]
  · rintro c ⟨h1, h2⟩; simp [ValidSchema, h1, h2]

theorem CSpec.assertConstant (a : AV F) (b : F) (hab : a.value = b) :
    CSpec t (assertConstant a b) (fun c => ValidAV c a) (fun _ _ => True) := by
  unfold Circuit.assertConstant oneLineAdd
  refine (CSpec.unit (CSpec.oneLine _ _ _ (by simp) (by simp) ?_)).mono ?_ (fun _ _ h => h)
  · simp [gateEval, mkRow, lineVal, Schema.value, hab]
  · rintro c h1; simp [ValidSchema, h1]

theorem CSpec.assertBit (a : AV F) (ha : a.value = 0 ∨ a.value = 1) :
    CSpec t (assertBit a) (fun c => ValidAV c a) (fun _ _ => True) := by
  unfold Circuit.assertBit
  refine (CSpec.unit (CSpec.oneLine _ _ _ (by simp) (by simp) ?_)).mono ?_ (fun _ _ h => h)
  · rcases ha with h | h <;> simp [gateEval, mkRow, lineVal, Schema.value, h]
  · rintro c h1; simp [ValidSchema, h1]

theorem CSpec.or (a b : AV F) :
    CSpec t (or a b) (fun c => ValidAV c a ∧ ValidAV c b)
      (fun c r => ValidAV c r ∧ r.value = a.value + b.value - a.value * b.value) := by
  unfold Circuit.or
  refine (CSpec.cell 2 (CSpec.oneLine _ _ _ (by simp) (by simp) ?_) rfl).mono ?_ (fun _ _ h => h)
  · simp [gateEval, mkRow, lineVal, Schema.value]
  · rintro c ⟨h1, h2⟩; simp [ValidSchema, h1, h2]

theorem CSpec.xor (a b : AV F) :
    CSpec t (xor a b) (fun c => ValidAV c a ∧ ValidAV c b)
      (fun c r => ValidAV c r ∧ r.value = a.value + b.value - 2 * (a.value * b.value)) := by
  unfold Circuit.xor
  refine (CSpec.cell 2 (CSpec.oneLine _ _ _ (by simp) (by simp) ?_) ?_).mono ?_ (fun _ _ h => h)
  · simp [gateEval, mkRow, lineVal, Schema.value]
    ring
  · simp [lineVal, Schema.value]; ring
  · rintro c ⟨h1, h2⟩; simp [ValidSchema, h1, h2]

theorem CSpec.xnor (a b : AV F) :
    CSpec t (xnor a b) (fun c => ValidAV c a ∧ ValidAV c b)
      (fun c r => ValidAV c r ∧ r.value = 1 - a.value - b.value + 2 * (a.value * b.value)) := by
  unfold Circuit.xnor
  refine (CSpec.cell 2 (CSpec.oneLine _ _ _ (by simp) (by simp) ?_) ?_).mono ?_ (fun _ _ h => h)
  · simp [gateEval, mkRow, lineVal, Schema.value]
    ring
  · simp [lineVal, Schema.value]; ring
  · rintro c ⟨h1, h2⟩; simp [ValidSchema, h1, h2]

theorem CSpec.bisec (k a b : AV F) :
    CSpec t (bisec k a b) (fun c => ValidAV c k ∧ ValidAV c a ∧ ValidAV c b)
      (fun c r => ValidAV c r ∧ r.value = k.value * a.value + (1 - k.value) * b.value) := by
  unfold Circuit.bisec
  refine (CSpec.cell 4 (CSpec.oneLine _ _ _ (by simp) (by simp) ?_) rfl).mono ?_ (fun _ _ h => h)
  · simp [gateEval, mkRow, lineVal, Schema.value]
    ring
  · rintro c ⟨h1, h2, h3⟩; simp [ValidSchema, h1, h2, h3]

/-- `assert!` that holds. -/
theorem CSpec.assertM {α : Type} (c : Prop) [Decidable c] (hc : c) {k : Unit → M F α} {P : Ctx F → Prop}
    {Q : Ctx F → α → Prop} (h : CSpec t (k ()) P Q) : CSpec t (assertM c >>= k) P Q := by
  constructor
  intro ctx hg hp
  obtain ⟨r, c', h1, h2⟩ := h.run ctx hg hp
  refine ⟨r, c', ?_, h2⟩
  simp [Bind.bind, StateT.bind, Circuit.assertM, hc, h1]

section
variable [DecidableEq F]

theorem CSpec.invertUnsafe (a : AV F) (ha : a.value ≠ 0) :
    CSpec t (invertUnsafe a) (fun c => ValidAV c a)
      (fun c r => ValidAV c r ∧ r.value = a.value⁻¹) := by
  unfold Circuit.invertUnsafe
  refine CSpec.assertM _ ha ?_
  refine (CSpec.cell 1 (CSpec.oneLine _ _ _ (by simp) (by simp) ?_) rfl).mono ?_ (fun _ _ h => h)
  · simp [gateEval, mkRow, lineVal, Schema.value, ha]
  · rintro c h1; simp [ValidSchema, h1]

theorem CSpec.invert (a : AV F) :
    CSpec t (invert a) (fun c => ValidAV c a)
      (fun c r => ValidAV c r.1 ∧ ValidAV c r.2 ∧ r.1.value = zeroFlag a.value ∧
        r.2.value = a.value⁻¹) := by
  unfold Circuit.invert
  have hz : a.value * (1 - a.value * a.value⁻¹) = 0 := by
    by_cases h : a.value = 0
    · simp [h]
    · simp [h]
  have hfl : 1 - a.value * a.value⁻¹ = zeroFlag a.value := by
    unfold zeroFlag
    split
    · next h => simp [h]
    · next h => simp [h]
  refine (CSpec.oneLine _ _ _ (by simp) (by simp) ?_).bind
    (P2 := fun r c => ValidAV c a ∧ ValidAV c (r 1) ∧ (r 1).value = 1 - a.value * a.value⁻¹)
    (Q := fun ctx r => ∀ j, ValidAV ctx (r j) ∧ (r j).value = lineVal
      [(.assigned a, 0), (.unassigned (1 - a.value * a.value⁻¹), 0)] j)
    (fun r => ?_) ?_ |>.mono ?_ (fun _ _ h => h)
  · simpa [gateEval, mkRow, lineVal, Schema.value] using hz
  · constructor
    rintro ctx hg ⟨h1, h2, h3⟩
    refine (CSpec.bind (Q := fun ctx q => ∀ j, ValidAV ctx (q j) ∧ (q j).value =
        lineVal [(.assigned a, 0), (.unassigned a.value⁻¹, 0), (.assigned (r 1), 1)] j)
      (CSpec.oneLine _ _ _ (by simp) (by simp) ?_) (fun q =>
        (CSpec.pure _ (fun ctx => ∀ j, ValidAV ctx (q j) ∧ (q j).value =
        lineVal [(.assigned a, 0), (.unassigned a.value⁻¹, 0), (.assigned (r 1), 1)] j)).mono
          (fun _ h => h) ?_) (fun _ _ _ _ _ h => h)).run ctx hg ?_
    · simp [gateEval, mkRow, lineVal, Schema.value, h3]
      ring
    · rintro c p ⟨hq, rfl⟩
      refine ⟨(hq 2).1, (hq 1).1, ?_, ?_⟩
      · rw [(hq 2).2]
        simpa [lineVal, Schema.value, h3] using hfl
      · rw [(hq 1).2]
        rfl
    · simp [ValidSchema, h1, h2]
  · intro c c' r hp he hq
    have ha := hp (.assigned a, 0) (by simp)
    exact ⟨ValidAV.ext ha he, (hq 1).1, (hq 1).2⟩
  · rintro c h1; simp [ValidSchema, h1]

theorem CSpec.isZero (a : AV F) :
    CSpec t (isZero a) (fun c => ValidAV c a)
      (fun c r => ValidAV c r ∧ r.value = zeroFlag a.value) := by
  unfold Circuit.isZero
  refine (CSpec.invert a).bind (P2 := fun p c => ValidAV c p.1 ∧ p.1.value = zeroFlag a.value)
    (fun p => ?_) (fun _ _ _ _ _ h => ⟨h.1, h.2.2.1⟩)
  exact (CSpec.pure p.1 _).mono (fun _ h => h) (by rintro c r ⟨h, rfl⟩; exact h)

theorem CSpec.divUnsafe (a b : AV F) (hb : b.value ≠ 0) :
    CSpec t (divUnsafe a b) (fun c => ValidAV c a ∧ ValidAV c b)
      (fun c r => ValidAV c r ∧ r.value = a.value / b.value) := by
  unfold Circuit.divUnsafe
  refine CSpec.assertM _ hb ?_
  refine (CSpec.cell 1 (CSpec.oneLine _ _ _ (by simp) (by simp) ?_) ?_).mono ?_ (fun _ _ h => h)
  · simp [gateEval, mkRow, lineVal, Schema.value, hb]
  · simp [lineVal, Schema.value]; field_simp
  · rintro c ⟨h1, h2⟩; simp [ValidSchema, h1, h2]

end

/-! ### Sums -/

theorem hsum_append (l₁ l₂ : List (AV F × F)) : hsum (l₁ ++ l₂) = hsum l₁ + hsum l₂ := by simp [hsum]

theorem hsum_cons (p : AV F × F) (l : List (AV F × F)) : hsum (p :: l) = p.2 * p.1.value + hsum l := by
  simp [hsum]

theorem hsum_nil : hsum ([] : List (AV F × F)) = 0 := by simp [hsum]

theorem oneLineWithLastBase_eq {ps : List (Schema F × F)} (h : ps.length < 5) (last : Schema F × F)
    (const : F) (mul : List F) (next : F) (ctx : Ctx F) :
    oneLineWithLastBase ps last const mul next ctx =
      oneLine (resizePairs 4 ps ++ [last]) const mul next ctx := by
  simp [oneLineWithLastBase, Bind.bind, StateT.bind, Circuit.assertM, h]

theorem sumLoop_complete (elems : List (AV F × F)) : ∀ (acc constant : F) (ctx : Ctx F),
    GoodP t ctx acc → (∀ p ∈ elems, ValidAV ctx p.1) →
    ∃ r ctx', sumLoop acc elems constant ctx = some (r, ctx') ∧ Good t ctx' ∧ Ext ctx ctx' ∧
      ValidAV ctx' r ∧ r.value = constant + hsum elems + acc := by
  induction hn : elems.length using Nat.strong_induction_on generalizing elems with
  | _ n ih =>
    intro acc constant ctx hg hv
    rw [sumLoop.eq_1]
    split
    · next hlen =>
      obtain ⟨a, b, c, d, htake⟩ := list_len4 (l := elems.take 4) (by simp; omega)
      have hmem : ∀ p ∈ [a, b, c, d], ValidAV ctx p.1 := by
        rw [← htake]; intro p hp; exact hv p (List.mem_of_mem_take hp)
      obtain ⟨r, ctx1, h1, h2, -, h4, h5, -⟩ := oneLineSel_complete (t := t) (sel := {})
        (ps := resizePairs 4 (assignedPairs [a, b, c, d]) ++ [(.unassigned acc, 1)]) (const := 0)
        (mul := []) (next := -1) (acc := acc) (acc' := acc + honestSum 0 [a, b, c, d]) hg
        (Or.inl (by simp [lineVal, resizePairs, assignedPairs, Schema.value]))
        (by simp [resizePairs, assignedPairs]) (by simp)
        (by
          simp only [List.forall_mem_cons] at hmem
          simp [resizePairs, assignedPairs, ValidSchema, hmem])
        (by
          intro nxt hnxt
          simp [gateEval, mkRow, lineVal, resizePairs, assignedPairs, Schema.value, hnxt, honestSum]
          ring)
        (lookupsHold_none _ _ rfl rfl rfl rfl)
      obtain ⟨r', ctx', k1, k2, k3, k4, k5⟩ := ih (elems.drop 4).length (by simp; omega) (elems.drop 4) rfl
        _ constant ctx1 h2 (fun p hp => (hv p (List.mem_of_mem_drop hp)).ext h4)
      refine ⟨r', ctx', ?_, k2, h4.trans k3, k4, ?_⟩
      · simp only [Bind.bind, StateT.bind, Option.bind_eq_some_iff]
        refine ⟨(r, ctx1), ?_, ?_⟩
        · rw [oneLineWithLastBase_eq (by simp [assignedPairs]), htake]
          exact h1
        · rw [htake]
          exact k1
      · rw [k5]
        conv_rhs => rw [← List.take_append_drop 4 elems, hsum_append, htake]
        rw [honestSum_eq]
        ring
    · next hlen =>
      have hcases : elems.length ≤ 3 := by omega
      obtain ⟨r, ctx1, h1, -, h3, h4, h5, h6⟩ := oneLineSel_complete (t := t) (sel := {})
        (ps := resizePairs 4 ((.unassigned (honestSum constant elems + acc), -1) ::
          assignedPairs elems) ++ [(.unassigned acc, 1)]) (const := constant)
        (mul := []) (next := 0) (acc := acc) (acc' := 0) hg
        (Or.inl (by
          match elems, hcases with
          | [], _ => simp [lineVal, resizePairs, assignedPairs, Schema.value]
          | [a], _ => simp [lineVal, resizePairs, assignedPairs, Schema.value]
          | [a, b], _ => simp [lineVal, resizePairs, assignedPairs, Schema.value]
          | [a, b, c], _ => simp [lineVal, resizePairs, assignedPairs, Schema.value]))
        (by simp [resizePairs, assignedPairs]; omega) (by simp)
        (by
          intro p hp
          simp only [resizePairs, List.mem_append, List.mem_replicate] at hp
          rcases hp with (hp | hp) | hp
          · have := List.mem_of_mem_take hp
            simp only [assignedPairs, List.mem_cons, List.mem_map] at this
            rcases this with rfl | ⟨q, hq, rfl⟩
            · trivial
            · exact hv q hq
          · rw [hp.2]; trivial
          · simp only [List.mem_singleton] at hp
            subst hp; trivial)
        (by
          intro nxt hnxt
          rw [honestSum_eq]
          match elems, hcases with
          | [], _ =>
            simp [gateEval, mkRow, lineVal, resizePairs, assignedPairs, Schema.value, hsum_nil]
          | [a], _ =>
            simp [gateEval, mkRow, lineVal, resizePairs, assignedPairs, Schema.value, hsum_cons, hsum_nil]
            ring
          | [a, b], _ =>
            simp [gateEval, mkRow, lineVal, resizePairs, assignedPairs, Schema.value, hsum_cons, hsum_nil]
            ring
          | [a, b, c], _ =>
            simp [gateEval, mkRow, lineVal, resizePairs, assignedPairs, Schema.value, hsum_cons, hsum_nil]
            ring)
        (lookupsHold_none _ _ rfl rfl rfl rfl)
      refine ⟨r 0, ctx1, ?_, h3 rfl, h4, (h6 0).1, ?_⟩
      · simp only [Bind.bind, StateT.bind, Option.bind_eq_some_iff]
        refine ⟨(r, ctx1), ?_, rfl⟩
        rw [oneLineWithLastBase_eq (by simp [assignedPairs]; omega)]
        exact h1
      · rw [(h6 0).2]
        simp [lineVal, resizePairs, Schema.value, honestSum_eq]

theorem CSpec.sumWithConstant (elems : List (AV F × F)) (constant : F) :
    CSpec t (sumWithConstant elems constant) (fun c => ∀ p ∈ elems, ValidAV c p.1)
      (fun c r => ValidAV c r ∧ r.value = constant + hsum elems) := by
  constructor
  intro ctx hg hv
  unfold Circuit.sumWithConstant
  split
  · next hlen =>
    obtain ⟨a, b, c, d, e, htake⟩ := list_len5 (l := elems.take 5) (by simp; omega)
    have hmem : ∀ p ∈ [a, b, c, d, e], ValidAV ctx p.1 := by
      rw [← htake]; intro p hp; exact hv p (List.mem_of_mem_take hp)
    obtain ⟨r, ctx1, h1, h2, -, h4, h5, -⟩ := oneLineSel_complete (t := t) (sel := {})
      (ps := assignedPairs [a, b, c, d, e]) (const := 0)
      (mul := []) (next := -1) (acc := 0) (acc' := 0 + honestSum 0 [a, b, c, d, e]) (hg.pend 0)
      (Or.inr hg) (by simp [assignedPairs]) (by simp)
      (by
        simp only [List.forall_mem_cons] at hmem
        simp [assignedPairs, ValidSchema, hmem])
      (by
        intro nxt hnxt
        simp [gateEval, mkRow, lineVal, assignedPairs, Schema.value, hnxt, honestSum]
        ring)
      (lookupsHold_none _ _ rfl rfl rfl rfl)
    obtain ⟨r', ctx', k1, k2, k3, k4, k5⟩ := sumLoop_complete (elems.drop 5)
      _ constant ctx1 h2 (fun p hp => (hv p (List.mem_of_mem_drop hp)).ext h4)
    refine ⟨r', ctx', ?_, k2, h4.trans k3, k4, ?_⟩
    · simp only [Bind.bind, StateT.bind, Option.bind_eq_some_iff]
      refine ⟨(r, ctx1), ?_, ?_⟩
      · rw [htake]; exact h1
      · rw [htake]; exact k1
    · rw [k5]
      conv_rhs => rw [← List.take_append_drop 5 elems, hsum_append, htake]
      rw [honestSum_eq]
      ring
  · next hlen =>
    have hcases : elems.length ≤ 4 := by omega
    refine (CSpec.cell 0 (CSpec.oneLine _ _ _ (by simp [assignedPairs]; omega) (by simp) ?_) ?_).run ctx hg ?_
    · rw [honestSum_eq]
      match elems, hcases with
      | [], _ =>
        simp [gateEval, mkRow, lineVal, assignedPairs, Schema.value, hsum_nil]
      | [a], _ =>
        simp [gateEval, mkRow, lineVal, assignedPairs, Schema.value, hsum_cons, hsum_nil]
        ring
      | [a, b], _ =>
        simp [gateEval, mkRow, lineVal, assignedPairs, Schema.value, hsum_cons, hsum_nil]
        ring
      | [a, b, c], _ =>
        simp [gateEval, mkRow, lineVal, assignedPairs, Schema.value, hsum_cons, hsum_nil]
        ring
      | [a, b, c, d], _ =>
        simp [gateEval, mkRow, lineVal, assignedPairs, Schema.value, hsum_cons, hsum_nil]
        ring
    · simp [lineVal, Schema.value, honestSum_eq]
    · intro p hp
      simp only [assignedPairs, List.mem_cons, List.mem_map] at hp
      rcases hp with rfl | ⟨q, hq, rfl⟩
      · trivial
      · exact hv q hq

/-! ### Multiply-accumulate -/

/-- Honest value of a multiply-accumulate (specification). -/
def hterms (l : List (MulTerm F)) : F :=
  (l.map fun x => x.a.value * x.b.value + x.coeff * x.c.value).sum

/-- All handles of a term are valid. -/
def ValidTerm (c : Ctx F) (x : MulTerm F) : Prop := ValidAV c x.a ∧ ValidAV c x.b ∧ ValidAV c x.c

omit [Field F] in
theorem ValidTerm.ext {ctx ctx' : Ctx F} {x : MulTerm F} (h : ValidTerm ctx x) (he : Ext ctx ctx') :
    ValidTerm ctx' x := ⟨h.1.ext he, h.2.1.ext he, h.2.2.ext he⟩

theorem CSpec.mulAddFold (l : List (MulTerm F)) : ∀ acc : AV F,
    CSpec t (mulAddFold acc l) (fun c => ValidAV c acc ∧ ∀ x ∈ l, ValidTerm c x)
      (fun c r => ValidAV c r ∧ r.value = acc.value + hterms l) := by
  induction l with
  | nil =>
    intro acc
    exact (CSpec.pure acc _).mono (fun _ h => h) (by rintro c r ⟨h, rfl⟩; simp [hterms, h.1])
  | cons x xs ih =>
    intro acc
    unfold Circuit.mulAddFold
    constructor
    rintro ctx hg ⟨ha, hx⟩
    simp only [List.forall_mem_cons] at hx
    obtain ⟨r, c1, h1, h2, h3, h4, h5⟩ := (CSpec.mulAdd2 x.a x.b x.c x.coeff acc 1).run ctx hg
      ⟨hx.1.1, hx.1.2.1, hx.1.2.2, ha⟩
    obtain ⟨r', c2, k1, k2, k3, k4, k5⟩ := (ih r).run c1 h2 ⟨h4, fun y hy => (hx.2 y hy).ext h3⟩
    refine ⟨r', c2, ?_, k2, h3.trans k3, k4, ?_⟩
    · simp only [Bind.bind, StateT.bind, Option.bind_eq_some_iff]
      exact ⟨(r, c1), h1, k1⟩
    · rw [k5, h5]
      simp only [hterms, List.map_cons, List.sum_cons]
      ring

theorem CSpec.mulAddWithNextLine (l : List (MulTerm F)) (hl : l ≠ []) :
    CSpec t (mulAddWithNextLine l) (fun c => ∀ x ∈ l, ValidTerm c x)
      (fun c r => ValidAV c r ∧ r.value = hterms l) := by
  cases l with
  | nil => exact absurd rfl hl
  | cons x xs =>
    unfold Circuit.mulAddWithNextLine
    constructor
    intro ctx hg hx
    simp only [List.forall_mem_cons] at hx
    obtain ⟨r, c1, h1, h2, h3, h4, h5⟩ := (CSpec.mulAdd x.a x.b x.c x.coeff).run ctx hg hx.1
    obtain ⟨r', c2, k1, k2, k3, k4, k5⟩ := (CSpec.mulAddFold xs r).run c1 h2
      ⟨h4, fun y hy => (hx.2 y hy).ext h3⟩
    refine ⟨r', c2, ?_, k2, h3.trans k3, k4, ?_⟩
    · simp only [Bind.bind, StateT.bind, Option.bind_eq_some_iff]
      exact ⟨(r, c1), h1, k1⟩
    · rw [k5, h5]
      simp only [hterms, List.map_cons, List.sum_cons]

end Verif.Circuit
