import Mathlib.Algebra.Field.Basic
import Mathlib.Algebra.Field.ZMod
import Mathlib.Data.List.Basic
import Mathlib.Tactic.Ring
import Mathlib.Algebra.Field.Rat
import Mathlib.Tactic.NormNum

/-!
# The lookup circuit that is aggregated in the tests: C101

Lines are those of `halo2-snark-aggregator-api/src/tests/systems/halo2/lookup_test/test_circuit.rs`. The layouter is halo2's `SimpleFloorPlanner`: a region starts at the
first row at which all its columns, with its selectors, are free.
-/

namespace Verif.Sdk.Lookup

/-! ### Layouter -/

/-- The columns and selectors of `MyConfig`, lines 11-22. The instance column is in no region. -/
inductive Column
  | input
  | qEven
  | tableEven
  | qOdd
  deriving DecidableEq

abbrev Cell := Column × ℕ

/-- What is done in a region. Rows are relative to its start. -/
inductive Op (F : Type)
  | enable (c : Column) (row : ℕ)
  | advice (c : Column) (row : ℕ) (v : Option F)

variable {F : Type}

def Op.column : Op F → Column
  | enable c _ => c
  | advice c _ _ => c

def Op.row : Op F → ℕ
  | enable _ r => r
  | advice _ r _ => r

/-- What key generation and the prover collect. -/
structure Layout (F : Type) where
  next : Column → ℕ
  enabled : List Cell
  advice : List (Cell × Option F)

def Layout.empty : Layout F := ⟨fun _ => 0, [], []⟩

/-- One operation in a region that starts at `start`. -/
def Layout.op (start : ℕ) (L : Layout F) : Op F → Layout F
  | .enable c r => { L with enabled := L.enabled ++ [(c, start + r)] }
  | .advice c r v => { L with advice := L.advice ++ [((c, start + r), v)] }

/-- `assign_region`. -/
def Layout.region (L : Layout F) (ops : List (Op F)) : Layout F :=
  let height := (ops.map fun o => o.row + 1).foldl max 0
  let start := (ops.map fun o => L.next o.column).foldl max 0
  ops.foldl (Layout.op start) { L with next := fun c => if c ∈ ops.map Op.column then start + height else L.next c }

/-! ### Circuit -/

/-- `witness_even`: lines 58-69. -/
def witnessEven (L : Layout F) (v : Option F) : Layout F := L.region [.enable .qEven 0, .advice .input 0 v]

/-- `witness_odd`: lines 71-82. -/
def witnessOdd (L : Layout F) (v : Option F) : Layout F := L.region [.enable .qOdd 0, .advice .input 0 v]

/-- `load_even_lookup`: lines 84-100. -/
def loadEvenLookup (L : Layout F) (values : List F) : Layout F := L.region (values.zipIdx.map fun p => .advice .tableEven p.2 (some p.1))

/-- `MyCircuit`: lines 104-108. -/
structure MyCircuit (F : Type) where
  evenLookup : List F
  evenWitnesses : List (Option F)
  oddWitnesses : List (Option F)

/-- `without_witnesses`: lines 115-117. -/
def MyCircuit.withoutWitnesses (_ : MyCircuit F) : MyCircuit F := ⟨[], [], []⟩

/-- `synthesize`: lines 123-145. -/
def synthesize (c : MyCircuit F) : Layout F := c.oddWitnesses.foldl witnessOdd (c.evenWitnesses.foldl witnessEven (loadEvenLookup .empty c.evenLookup))

/-- `test_circuit_builder`: lines 148-175. -/
def testCircuit [Field F] : MyCircuit F := ⟨[0, 2, 4, 6, 8], [some 0, some 2, some 4], [some 1, some 3, some 5]⟩

/-! ### Specification -/

/-- The value of a selector in a row. -/
def Layout.selector [Field F] (L : Layout F) (c : Column) (r : ℕ) : F := if (c, r) ∈ L.enabled then 1 else 0

/-- The two lookups, lines 36-53, in the `u` rows that are not kept for blinding: `w` are the advice columns, `x` is the instance column. -/
structure Layout.Sat [Field F] (L : Layout F) (u : ℕ) (w : Cell → F) (x : ℕ → F) : Prop where
  even : ∀ r < u, ∃ t < u, L.selector .qEven r * w (.input, r) = w (.tableEven, t)
  odd : ∀ r < u, ∃ t < u, L.selector .qOdd r * w (.input, r) = x t

/-- The advice columns of the prover who follows `synthesize`: cells that are not assigned are zero. -/
def Layout.Honest [Field F] (L : Layout F) (w : Cell → F) : Prop :=
  (∀ p ∈ L.advice, p.2 = some (w p.1)) ∧ ∀ c, (∀ p ∈ L.advice, p.1 ≠ c) → w c = 0

/-- The instance column of the prover and the verifier: the instances and zeros. -/
def column [Field F] (l : List F) (t : ℕ) : F := l.getD t 0

/-! ### Proofs -/

/-- Free rows of the columns. -/
def free (i e t o : ℕ) : Column → ℕ
  | .input => i
  | .qEven => e
  | .tableEven => t
  | .qOdd => o

theorem witnessEven_eq {i e t o : ℕ} (h : e ≤ i) (en : List Cell) (ad : List (Cell × Option F)) (v : Option F) :
    witnessEven ⟨free i e t o, en, ad⟩ v = ⟨free (i + 1) (i + 1) t o, en ++ [(.qEven, i)], ad ++ [((.input, i), v)]⟩ := by
  have hs : max e i = i := Nat.max_eq_right h
  simp only [witnessEven, Layout.region, List.map_cons, List.map_nil, List.foldl_cons, List.foldl_nil, Op.column, Op.row, free, Layout.op, Nat.zero_max, Nat.add_zero, hs,
    Nat.zero_add, Nat.max_self]
  congr 1
  funext c
  cases c <;> simp [free]

theorem witnessOdd_eq {i e t o : ℕ} (h : o ≤ i) (en : List Cell) (ad : List (Cell × Option F)) (v : Option F) :
    witnessOdd ⟨free i e t o, en, ad⟩ v = ⟨free (i + 1) e t (i + 1), en ++ [(.qOdd, i)], ad ++ [((.input, i), v)]⟩ := by
  have hs : max o i = i := Nat.max_eq_right h
  simp only [witnessOdd, Layout.region, List.map_cons, List.map_nil, List.foldl_cons, List.foldl_nil, Op.column, Op.row, free, Layout.op, Nat.zero_max, Nat.add_zero, hs,
    Nat.zero_add, Nat.max_self]
  congr 1
  funext c
  cases c <;> simp [free]

theorem evens_eq (vs : List (Option F)) : ∀ {i e t o : ℕ}, e ≤ i → ∀ (en : List Cell) (ad : List (Cell × Option F)), ∃ e' ≤ i + vs.length,
    vs.foldl witnessEven ⟨free i e t o, en, ad⟩ = ⟨free (i + vs.length) e' t o, en ++ (List.range' i vs.length).map (Prod.mk .qEven),
      ad ++ (vs.zipIdx i).map fun p => ((.input, p.2), p.1)⟩ := by
  induction vs with
  | nil => intro i e t o h en ad; exact ⟨e, by simpa using h, by simp⟩
  | cons v vs ih =>
    intro i e t o h en ad
    obtain ⟨e', h', h2⟩ := ih (i := i + 1) (e := i + 1) (t := t) (o := o) (Nat.le_refl _) (en ++ [(.qEven, i)]) (ad ++ [((.input, i), v)])
    refine ⟨e', by simp only [List.length_cons]; omega, ?_⟩
    rw [List.foldl_cons, witnessEven_eq h, h2]
    simp [List.range'_succ, Nat.add_assoc, Nat.add_comm 1]

theorem odds_eq (vs : List (Option F)) : ∀ {i e t o : ℕ}, o ≤ i → ∀ (en : List Cell) (ad : List (Cell × Option F)), ∃ o' ≤ i + vs.length,
    vs.foldl witnessOdd ⟨free i e t o, en, ad⟩ = ⟨free (i + vs.length) e t o', en ++ (List.range' i vs.length).map (Prod.mk .qOdd),
      ad ++ (vs.zipIdx i).map fun p => ((.input, p.2), p.1)⟩ := by
  induction vs with
  | nil => intro i e t o h en ad; exact ⟨o, by simpa using h, by simp⟩
  | cons v vs ih =>
    intro i e t o h en ad
    obtain ⟨o', h', h2⟩ := ih (i := i + 1) (e := e) (t := t) (o := i + 1) (Nat.le_refl _) (en ++ [(.qOdd, i)]) (ad ++ [((.input, i), v)])
    refine ⟨o', by simp only [List.length_cons]; omega, ?_⟩
    rw [List.foldl_cons, witnessOdd_eq h, h2]
    simp [List.range'_succ, Nat.add_assoc, Nat.add_comm 1]

theorem fold_advice (l : List (F × ℕ)) : ∀ (n : Column → ℕ) (en : List Cell) (ad : List (Cell × Option F)),
    (l.map fun p => (Op.advice .tableEven p.2 (some p.1) : Op F)).foldl (Layout.op 0) ⟨n, en, ad⟩ = ⟨n, en, ad ++ l.map fun p => ((.tableEven, p.2), some p.1)⟩ := by
  induction l with
  | nil => intro n en ad; simp
  | cons p l ih =>
    intro n en ad
    rw [List.map_cons, List.foldl_cons]
    simp only [Layout.op, Nat.zero_add]
    rw [ih]
    simp

theorem fold_height (l : List F) : ∀ k : ℕ, ((l.zipIdx k).map fun p => p.2 + 1).foldl max k = k + l.length := by
  induction l with
  | nil => intro k; simp
  | cons v l ih =>
    intro k
    rw [List.zipIdx_cons, List.map_cons, List.foldl_cons]
    have : max k (k + 1) = k + 1 := by omega
    simp only [this, ih, List.length_cons]
    omega

theorem fold_zero (l : List (F × ℕ)) : (l.map fun _ => 0).foldl max 0 = 0 := by
  induction l with
  | nil => rfl
  | cons p l ih => simpa using ih

theorem loadEvenLookup_eq (l : List F) : loadEvenLookup .empty l = ⟨free 0 0 l.length 0, [], l.zipIdx.map fun p => ((.tableEven, p.2), some p.1)⟩ := by
  have h1 := fold_height l 0
  have h2 := fold_zero l.zipIdx
  simp only [loadEvenLookup, Layout.region, Layout.empty, List.map_map, Function.comp_def, Op.column, Op.row, h1, h2]
  rw [fold_advice]
  congr 1
  funext c
  cases l <;> cases c <;> simp [free]

/-- The layout of the circuit. -/
theorem synthesize_eq (c : MyCircuit F) : (synthesize c).enabled = (List.range' 0 c.evenWitnesses.length).map (Prod.mk .qEven) ++
      (List.range' c.evenWitnesses.length c.oddWitnesses.length).map (Prod.mk .qOdd) ∧
    (synthesize c).advice = (c.evenLookup.zipIdx.map fun p => ((.tableEven, p.2), some p.1)) ++ ((c.evenWitnesses ++ c.oddWitnesses).zipIdx.map fun p => ((.input, p.2), p.1)) := by
  rw [synthesize, loadEvenLookup_eq]
  obtain ⟨e, _, h⟩ := evens_eq c.evenWitnesses (i := 0) (e := 0) (t := c.evenLookup.length) (o := 0) (Nat.le_refl _) [] (c.evenLookup.zipIdx.map fun p => ((.tableEven, p.2), some p.1))
  rw [h]
  obtain ⟨o, _, h⟩ := odds_eq c.oddWitnesses (i := 0 + c.evenWitnesses.length) (e := e) (t := c.evenLookup.length) (o := 0) (Nat.zero_le _)
    ([] ++ (List.range' 0 c.evenWitnesses.length).map (Prod.mk .qEven))
    ((c.evenLookup.zipIdx.map fun p => ((.tableEven, p.2), some p.1)) ++ c.evenWitnesses.zipIdx.map fun p => ((.input, p.2), p.1))
  rw [h]
  simp [List.zipIdx_append]

/-- Which lookups a row has depends on the numbers of witnesses only. -/
theorem C101_key {c c' : MyCircuit F} (h1 : c.evenWitnesses.length = c'.evenWitnesses.length) (h2 : c.oddWitnesses.length = c'.oddWitnesses.length) :
    (synthesize c).enabled = (synthesize c').enabled := by
  rw [(synthesize_eq c).1, (synthesize_eq c').1, h1, h2]

example : (synthesize (⟨[0, 2], [some 2], [some 1]⟩ : MyCircuit (ZMod 7))).enabled = (synthesize ⟨[5], [none], [some 3]⟩).enabled := C101_key rfl rfl

section
variable [Field F]

theorem selector_even (c : MyCircuit F) (r : ℕ) : (synthesize c).selector .qEven r = if r < c.evenWitnesses.length then 1 else 0 := by
  rw [Layout.selector, (synthesize_eq c).1]
  congr 1
  simp [List.mem_range'_1]

theorem selector_odd (c : MyCircuit F) (r : ℕ) :
    (synthesize c).selector .qOdd r = if c.evenWitnesses.length ≤ r ∧ r < c.evenWitnesses.length + c.oddWitnesses.length then 1 else 0 := by
  rw [Layout.selector, (synthesize_eq c).1]
  congr 1
  simp [List.mem_range'_1]

/-- What the lookups say of odd witnesses: each is an instance, and, when a row has no odd witness, zero is an instance. -/
theorem odd_iff (c : MyCircuit F) {u : ℕ} (hu : c.evenWitnesses.length + c.oddWitnesses.length ≤ u) (w : Cell → F) (x : ℕ → F) :
    (∀ r < u, ∃ t < u, (synthesize c).selector .qOdd r * w (.input, r) = x t) ↔
      (∀ j < c.oddWitnesses.length, ∃ t < u, w (.input, c.evenWitnesses.length + j) = x t) ∧ (c.oddWitnesses.length < u → ∃ t < u, x t = 0) := by
  simp only [selector_odd]
  constructor
  · intro h
    refine ⟨fun j hj => ?_, fun ho => ?_⟩
    · obtain ⟨t, ht, e⟩ := h (c.evenWitnesses.length + j) (by omega)
      rw [if_pos (by omega), one_mul] at e
      exact ⟨t, ht, e⟩
    · rcases Nat.eq_zero_or_pos c.evenWitnesses.length with he | he
      · obtain ⟨t, ht, e⟩ := h c.oddWitnesses.length ho
        rw [if_neg (by omega), zero_mul] at e
        exact ⟨t, ht, e.symm⟩
      · obtain ⟨t, ht, e⟩ := h 0 (by omega)
        rw [if_neg (by omega), zero_mul] at e
        exact ⟨t, ht, e.symm⟩
  · rintro ⟨h1, h2⟩ r hr
    by_cases hc : c.evenWitnesses.length ≤ r ∧ r < c.evenWitnesses.length + c.oddWitnesses.length
    · obtain ⟨t, ht, e⟩ := h1 (r - c.evenWitnesses.length) (by omega)
      rw [if_pos hc, one_mul]
      rw [show c.evenWitnesses.length + (r - c.evenWitnesses.length) = r by omega] at e
      exact ⟨t, ht, e⟩
    · obtain ⟨t, ht, e⟩ := h2 (by omega)
      rw [if_neg hc, zero_mul]
      exact ⟨t, ht, e.symm⟩

/-- What is proved: every odd witness is an instance (or one of the zeros after the instances), and zero is in the instance column unless every row has an odd witness.
Of the witnesses of the even lookup nothing is proved: its table is an advice column, and no constraint ties the table to `even_lookup`. -/
theorem C101_public (c : MyCircuit F) {u : ℕ} (hu : c.evenWitnesses.length + c.oddWitnesses.length ≤ u) (x v : ℕ → F) :
    (∃ w, (synthesize c).Sat u w x ∧ ∀ r < c.evenWitnesses.length + c.oddWitnesses.length, w (.input, r) = v r) ↔
      (∀ j < c.oddWitnesses.length, ∃ t < u, v (c.evenWitnesses.length + j) = x t) ∧ (c.oddWitnesses.length < u → ∃ t < u, x t = 0) := by
  constructor
  · rintro ⟨w, h, hv⟩
    obtain ⟨h1, h2⟩ := (odd_iff c hu w x).1 h.odd
    exact ⟨fun j hj => by rw [← hv _ (by omega)]; exact h1 j hj, h2⟩
  · rintro ⟨h1, h2⟩
    let w : Cell → F := fun p => match p.1 with
      | .input => v p.2
      | .tableEven => (synthesize c).selector .qEven p.2 * v p.2
      | _ => 0
    exact ⟨w, ⟨fun r hr => ⟨r, hr, rfl⟩, (odd_iff c hu w x).2 ⟨h1, h2⟩⟩, fun r _ => rfl⟩

/-- The even witnesses of an accepted proof can be replaced by any values: the instances do not change. -/
theorem C101_even_free (c : MyCircuit F) {u : ℕ} (hu : c.evenWitnesses.length + c.oddWitnesses.length ≤ u) {w : Cell → F} {x : ℕ → F} (h : (synthesize c).Sat u w x)
    (v : ℕ → F) : ∃ w', (synthesize c).Sat u w' x ∧ (∀ r < c.evenWitnesses.length, w' (.input, r) = v r) ∧
      ∀ j < c.oddWitnesses.length, w' (.input, c.evenWitnesses.length + j) = w (.input, c.evenWitnesses.length + j) := by
  obtain ⟨h1, h2⟩ := (odd_iff c hu w x).1 h.odd
  obtain ⟨w', hs, hv⟩ := (C101_public c hu x fun r => if r < c.evenWitnesses.length then v r else w (.input, r)).2
    ⟨fun j hj => by rw [if_neg (by omega)]; exact h1 j hj, h2⟩
  refine ⟨w', hs, fun r hr => ?_, fun j hj => ?_⟩
  · rw [hv r (by omega), if_pos hr]
  · rw [hv _ (by omega), if_neg (by omega)]

/-- A key made from `without_witnesses` has no lookup in any row: with a zero in the instance column every input is accepted. -/
theorem C101_without_witnesses (c : MyCircuit F) {u : ℕ} {x : ℕ → F} (hx : ∃ t < u, x t = 0) (v : ℕ → F) :
    ∃ w, (synthesize c.withoutWitnesses).Sat u w x ∧ ∀ r, w (.input, r) = v r := by
  obtain ⟨t, ht, e⟩ := hx
  refine ⟨fun p => if p.1 = .input then v p.2 else 0, ⟨fun r hr => ⟨r, hr, ?_⟩, fun r hr => ⟨t, ht, ?_⟩⟩, fun r => rfl⟩
  · simp [selector_even, MyCircuit.withoutWitnesses]
  · rw [e]
    simp [selector_odd, MyCircuit.withoutWitnesses]

theorem honest_table {c : MyCircuit F} {w : Cell → F} (h : (synthesize c).Honest w) (t : ℕ) : w (.tableEven, t) = column c.evenLookup t := by
  obtain ⟨h1, h2⟩ := h
  rw [(synthesize_eq c).2] at h1 h2
  by_cases ht : t < c.evenLookup.length
  · have := h1 ((.tableEven, t), some c.evenLookup[t]) (List.mem_append_left _ (List.mem_map.2 ⟨(c.evenLookup[t], t), by simp [List.mk_mem_zipIdx_iff_getElem?, ht], rfl⟩))
    rw [column, List.getD_eq_getElem?_getD, List.getElem?_eq_getElem ht]
    exact (Option.some.inj this).symm
  · rw [column, List.getD_eq_getElem?_getD, List.getElem?_eq_none (by omega)]
    refine h2 _ fun p hp => ?_
    rcases List.mem_append.1 hp with hp | hp
    · obtain ⟨q, hq, rfl⟩ := List.mem_map.1 hp
      intro e
      have e2 : q.2 = t := (Prod.mk.inj e).2
      have := List.mem_zipIdx_iff_getElem?.1 hq
      rw [e2, List.getElem?_eq_none (by omega)] at this
      exact absurd this (by simp)
    · obtain ⟨q, _, rfl⟩ := List.mem_map.1 hp
      simp

theorem honest_input {c : MyCircuit F} {w : Cell → F} (h : (synthesize c).Honest w) {r : ℕ} (hr : r < (c.evenWitnesses ++ c.oddWitnesses).length) :
    (c.evenWitnesses ++ c.oddWitnesses)[r] = some (w (.input, r)) := by
  have h1 := h.1
  rw [(synthesize_eq c).2] at h1
  exact h1 ((.input, r), (c.evenWitnesses ++ c.oddWitnesses)[r]) (List.mem_append_right _ (List.mem_map.2 ⟨((c.evenWitnesses ++ c.oddWitnesses)[r], r),
    by simp only [List.mk_mem_zipIdx_iff_getElem?]; exact List.getElem?_eq_getElem hr, rfl⟩))

/-- A prover who knows all witnesses can follow `synthesize`. -/
theorem C101_prover (c : MyCircuit F) (hk : ∀ v ∈ c.evenWitnesses ++ c.oddWitnesses, v ≠ none) : ∃ w, (synthesize c).Honest w := by
  let w : Cell → F := fun p => match p.1 with
    | .input => (((c.evenWitnesses ++ c.oddWitnesses)[p.2]?).getD none).getD 0
    | .tableEven => column c.evenLookup p.2
    | _ => 0
  refine ⟨w, ?_, ?_⟩
  · rw [(synthesize_eq c).2]
    intro p hp
    rcases List.mem_append.1 hp with hp | hp
    · obtain ⟨q, hq, rfl⟩ := List.mem_map.1 hp
      have := List.mem_zipIdx_iff_getElem?.1 hq
      change some q.1 = some (column c.evenLookup q.2)
      rw [column, List.getD_eq_getElem?_getD, this]
      rfl
    · obtain ⟨q, hq, rfl⟩ := List.mem_map.1 hp
      have := List.mem_zipIdx_iff_getElem?.1 hq
      change q.1 = some ((((c.evenWitnesses ++ c.oddWitnesses)[q.2]?).getD none).getD 0)
      rw [this]
      have hn := hk q.1 (List.mem_of_getElem? this)
      cases hq1 : q.1 with
      | none => exact absurd hq1 hn
      | some v => rfl
  · rw [(synthesize_eq c).2]
    rintro ⟨k, r⟩ hr
    cases k with
    | qEven => rfl
    | qOdd => rfl
    | tableEven =>
      change column c.evenLookup r = 0
      rw [column, List.getD_eq_getElem?_getD]
      cases e : c.evenLookup[r]? with
      | none => rfl
      | some v => exact absurd rfl (hr ((.tableEven, r), some v) (List.mem_append_left _ (List.mem_map.2 ⟨(v, r), List.mk_mem_zipIdx_iff_getElem?.2 e, rfl⟩)))
    | input =>
      change (((c.evenWitnesses ++ c.oddWitnesses)[r]?).getD none).getD 0 = 0
      cases e : (c.evenWitnesses ++ c.oddWitnesses)[r]? with
      | none => rfl
      | some v => exact absurd rfl (hr ((.input, r), v) (List.mem_append_right _ (List.mem_map.2 ⟨(v, r), List.mk_mem_zipIdx_iff_getElem?.2 e, rfl⟩)))

/-- When the prover who follows `synthesize` succeeds: the even witnesses are in `even_lookup`, the odd ones are instances, where zeros fill the two columns. -/
theorem C101_honest (c : MyCircuit F) {u : ℕ} (hu : c.evenWitnesses.length + c.oddWitnesses.length ≤ u) {w : Cell → F} (h : (synthesize c).Honest w) (x : List F) :
    (synthesize c).Sat u w (column x) ↔
      (∀ v ∈ c.evenWitnesses, ∃ t < u, v = some (column c.evenLookup t)) ∧ (c.evenWitnesses.length < u → ∃ t < u, column c.evenLookup t = 0) ∧
      (∀ v ∈ c.oddWitnesses, ∃ t < u, v = some (column x t)) ∧ (c.oddWitnesses.length < u → ∃ t < u, column x t = 0) := by
  have hE : ∀ r (hr : r < c.evenWitnesses.length), c.evenWitnesses[r] = some (w (.input, r)) := fun r hr => by
    rw [← honest_input h (by rw [List.length_append]; omega), List.getElem_append_left hr]
  have hO : ∀ j (hj : j < c.oddWitnesses.length), c.oddWitnesses[j] = some (w (.input, c.evenWitnesses.length + j)) := fun j hj => by
    rw [← honest_input h (by rw [List.length_append]; omega), List.getElem_append_right (by omega)]
    simp
  have hodd : (∀ j < c.oddWitnesses.length, ∃ t < u, w (.input, c.evenWitnesses.length + j) = column x t) ↔ ∀ v ∈ c.oddWitnesses, ∃ t < u, v = some (column x t) := by
    constructor
    · intro g v hv
      obtain ⟨j, hj, rfl⟩ := List.mem_iff_getElem.1 hv
      obtain ⟨t, ht, e⟩ := g j hj
      exact ⟨t, ht, by rw [hO j hj, e]⟩
    · intro g j hj
      obtain ⟨t, ht, e⟩ := g _ (List.getElem_mem hj)
      exact ⟨t, ht, Option.some.inj (by rw [← hO j hj, e])⟩
  have heven : (∀ r < u, ∃ t < u, (synthesize c).selector .qEven r * w (.input, r) = w (.tableEven, t)) ↔
      (∀ v ∈ c.evenWitnesses, ∃ t < u, v = some (column c.evenLookup t)) ∧ (c.evenWitnesses.length < u → ∃ t < u, column c.evenLookup t = 0) := by
    simp only [selector_even, honest_table h]
    constructor
    · intro g
      refine ⟨fun v hv => ?_, fun he => ?_⟩
      · obtain ⟨r, hr, rfl⟩ := List.mem_iff_getElem.1 hv
        obtain ⟨t, ht, e⟩ := g r (by omega)
        rw [if_pos hr, one_mul] at e
        exact ⟨t, ht, by rw [hE r hr, e]⟩
      · obtain ⟨t, ht, e⟩ := g _ he
        rw [if_neg (Nat.lt_irrefl _), zero_mul] at e
        exact ⟨t, ht, e.symm⟩
    · rintro ⟨g1, g2⟩ r hr
      by_cases hc : r < c.evenWitnesses.length
      · obtain ⟨t, ht, e⟩ := g1 _ (List.getElem_mem hc)
        rw [if_pos hc, one_mul]
        exact ⟨t, ht, Option.some.inj (by rw [← hE r hc, e])⟩
      · obtain ⟨t, ht, e⟩ := g2 (by omega)
        rw [if_neg hc, zero_mul]
        exact ⟨t, ht, e.symm⟩
  have hodd' := odd_iff c hu w (column x)
  rw [hodd] at hodd'
  rw [← and_assoc, ← heven, ← hodd']
  exact ⟨fun g => ⟨g.even, g.odd⟩, fun g => ⟨g.1, g.2⟩⟩

/-- The circuit and the instances of the tests, verify_single.rs:59-65, are accepted in any number of rows above five. -/
theorem C101_test {u : ℕ} (hu : 6 ≤ u) {w : Cell → F} (h : (synthesize testCircuit).Honest w) : (synthesize testCircuit).Sat u w (column [1, 3, 5, 7, 9]) := by
  rw [C101_honest testCircuit (by simpa [testCircuit] using hu) h]
  simp only [testCircuit, List.mem_cons, List.not_mem_nil, or_false, List.length_cons, List.length_nil]
  refine ⟨?_, fun _ => ⟨0, by omega, rfl⟩, ?_, fun _ => ⟨5, by omega, rfl⟩⟩
  · rintro v (rfl | rfl | rfl)
    exacts [⟨0, by omega, rfl⟩, ⟨1, by omega, rfl⟩, ⟨2, by omega, rfl⟩]
  · rintro v (rfl | rfl | rfl)
    exacts [⟨0, by omega, rfl⟩, ⟨1, by omega, rfl⟩, ⟨2, by omega, rfl⟩]

/-- The tests: there is such a prover, and the same instances are accepted with seven in place of every even witness. -/
example : ∃ w : Cell → F, (synthesize testCircuit).Honest w ∧ (synthesize testCircuit).Sat 58 w (column [1, 3, 5, 7, 9]) ∧
    ∃ w', (synthesize (testCircuit (F := F))).Sat 58 w' (column [1, 3, 5, 7, 9]) ∧ ∀ r < 3, w' (.input, r) = 7 := by
  obtain ⟨w, h⟩ := C101_prover (testCircuit (F := F)) (by simp [testCircuit])
  have hs := C101_test (u := 58) (by omega) h
  obtain ⟨w', h1, h2, _⟩ := C101_even_free testCircuit (by simp [testCircuit]) hs fun _ => 7
  exact ⟨w, h, hs, w', h1, h2⟩

/-- Without a zero in the instance column nothing is accepted. -/
example (w : Cell → F) : ¬ (synthesize (testCircuit (F := F))).Sat 58 w fun _ => 1 := fun h => by
  obtain ⟨_, _, e⟩ := ((C101_public testCircuit (u := 58) (by simp [testCircuit]) (fun _ => 1) fun r => w (.input, r)).1 ⟨w, h, fun _ _ => rfl⟩).2 (by simp [testCircuit])
  exact one_ne_zero e

/-- The odd lookup excludes values: no prover has 2 as the first odd witness of the tests. -/
example : ¬ ∃ w : Cell → ℚ, (synthesize (testCircuit (F := ℚ))).Sat 58 w (column [1, 3, 5, 7, 9]) ∧ w (.input, 3) = 2 := by
  rintro ⟨w, h, hw⟩
  obtain ⟨t, _, e⟩ := ((C101_public testCircuit (u := 58) (by simp [testCircuit]) (column [1, 3, 5, 7, 9]) fun r => w (.input, r)).1 ⟨w, h, fun _ _ => rfl⟩).1 0
    (by simp [testCircuit])
  have e' : w (.input, 3) = column [1, 3, 5, 7, 9] t := e
  rw [hw] at e'
  rcases t with _ | _ | _ | _ | _ | t <;> norm_num [column] at e'

end

end Verif.Sdk.Lookup
