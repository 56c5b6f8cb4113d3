import Mathlib.Algebra.Field.Basic
import Mathlib.Algebra.Group.Even
import Mathlib.Algebra.Field.ZMod
import Mathlib.Tactic.FieldSimp
import Mathlib.Tactic.Ring
import Mathlib.Tactic.LinearCombination
import Mathlib.Tactic.NormNum.Prime

/-!
# The circuit of the SDK examples simple-example and multi-circuit: C96

Lines are those of `halo2-snark-aggregator-sdk/examples/simple-example.rs`; multi-circuit.rs has the same circuit in the same lines. The layouter is halo2's
`SimpleFloorPlanner`: a region starts at the first row at which all its columns are free.
-/

namespace Verif.Sdk.Product

/-! ### Layouter -/

inductive Column
  | advice0
  | advice1
  | instance
  | constant
  | sMul
  deriving DecidableEq

abbrev Cell := Column × ℕ

/-- What can be done in a region. Rows are relative to its start. -/
inductive Op (F : Type)
  | advice (c : Column) (row : ℕ) (v : Option F)
  | fixed (c : Column) (row : ℕ) (v : F)
  | constant (c : Column) (row : ℕ) (v : F)
  | copy (from' : Cell) (c : Column) (row : ℕ) (v : Option F)

variable {F : Type}

def Op.column : Op F → Column
  | advice c _ _ => c
  | fixed c _ _ => c
  | constant c _ _ => c
  | copy _ c _ _ => c

def Op.row : Op F → ℕ
  | advice _ r _ => r
  | fixed _ r _ => r
  | constant _ r _ => r
  | copy _ _ r _ => r

/-- What key generation and the prover collect. -/
structure Layout (F : Type) where
  next : Column → ℕ
  fixed : List (Cell × F)
  copies : List (Cell × Cell)
  advice : List (Cell × Option F)

def Layout.empty : Layout F := ⟨fun _ => 0, [], [], []⟩

/-- One operation in a region that starts at `start`. A constant is put into the next row of its column and copied. -/
def Layout.op (start : ℕ) (L : Layout F) : Op F → Layout F
  | .advice c r v => { L with advice := L.advice ++ [((c, start + r), v)] }
  | .fixed c r v => { L with fixed := L.fixed ++ [((c, start + r), v)] }
  | .constant c r v => { L with
      advice := L.advice ++ [((c, start + r), some v)]
      fixed := L.fixed ++ [((.constant, L.next .constant), v)]
      copies := L.copies ++ [((.constant, L.next .constant), (c, start + r))]
      next := Function.update L.next .constant (L.next .constant + 1) }
  | .copy d c r v => { L with advice := L.advice ++ [((c, start + r), v)], copies := L.copies ++ [((c, start + r), d)] }

/-- `assign_region`: the start of the region and the new layout. -/
def Layout.region (L : Layout F) (ops : List (Op F)) : ℕ × Layout F :=
  let height := (ops.map fun o => o.row + 1).foldl max 0
  let start := (ops.map fun o => L.next o.column).foldl max 0
  let L' := { L with next := fun c => if c ∈ ops.map Op.column then start + height else L.next c }
  (start, ops.foldl (Layout.op start) L')

/-! ### Circuit -/

/-- A number: its cell and its value. -/
abbrev Number (F : Type) := Cell × Option F

/-- `load_private`: lines 155-170. -/
def loadPrivate (v : Option F) (L : Layout F) : Number F × Layout F :=
  let r := L.region [.advice .advice0 0 v]
  (((.advice0, r.1), v), r.2)

/-- `load_constant`: lines 172-187. -/
def loadConstant (v : F) (L : Layout F) : Number F × Layout F :=
  let r := L.region [.constant .advice0 0 v]
  (((.advice0, r.1), some v), r.2)

/-- `mul`: lines 189-223. -/
def mul [Field F] (a b : Number F) (L : Layout F) : Number F × Layout F :=
  let v := a.2.bind fun x => b.2.map fun y => x * y
  let r := L.region [.fixed .sMul 0 1, .copy a.1 .advice0 0 a.2, .copy b.1 .advice1 0 b.2, .advice .advice0 1 v]
  (((.advice0, r.1 + 1), v), r.2)

/-- `expose_public`: lines 225-234. -/
def exposePublic (a : Number F) (row : ℕ) (L : Layout F) : Layout F := { L with copies := L.copies ++ [(a.1, (.instance, row))] }

/-- `MyCircuit`: lines 245-249. -/
structure MyCircuit (F : Type) where
  constant : F
  a : Option F
  b : Option F

/-- `synthesize`: lines 285-317. -/
def synthesize [Field F] (c : MyCircuit F) : Layout F :=
  let a := loadPrivate c.a .empty
  let b := loadPrivate c.b a.2
  let k := loadConstant c.constant b.2
  let ab := mul a.1 b.1 k.2
  let absq := mul ab.1 ab.1 ab.2
  let r := mul k.1 absq.1 absq.2
  exposePublic r.1 0 r.2

/-- `instance_builder`: lines 332-343, with the numbers that are drawn. -/
def instanceBuilder [Field F] (a b : F) : MyCircuit F × List (List F) := (⟨7, some a, some b⟩, [[7 * a ^ 2 * b ^ 2]])

/-- `default`, which is also `without_witnesses`: lines 250-258 and 265-267. sample_circuit.rs:38 and fs.rs:78 make the keys of the target circuit from it. -/
def MyCircuit.default [Field F] : MyCircuit F := ⟨7, none, none⟩

/-- `default` of the same circuit in the tests, derived in `halo2-snark-aggregator-api/src/tests/systems/halo2/add_mul_test/test_circuit.rs:240-245`. -/
def MyCircuit.derivedDefault [Field F] : MyCircuit F := ⟨0, none, none⟩

/-! ### Specification -/

/-- The value of a cell of a fixed column. -/
def Layout.fixedAt [Zero F] (L : Layout F) (c : Cell) : F := ((L.fixed.find? fun x => decide (x.1 = c)).map Prod.snd).getD 0

/-- The gate, lines 95-121, in all `n` rows, and the copy constraints. -/
structure Layout.Sat [Field F] (L : Layout F) (n : ℕ) (w : Cell → F) : Prop where
  fixed : ∀ r < n, w (.sMul, r) = L.fixedAt (.sMul, r) ∧ w (.constant, r) = L.fixedAt (.constant, r)
  gate : ∀ r < n, w (.sMul, r) * (w (.advice0, r) * w (.advice1, r) - w (.advice0, (r + 1) % n)) = 0
  copies : ∀ p ∈ L.copies, w p.1 = w p.2

/-- All values are known and `w` has them. -/
def Layout.Assigned (L : Layout F) (w : Cell → F) : Prop := ∀ p ∈ L.advice, p.2 = some (w p.1)

/-! ### Proofs -/

section
variable [Field F]

/-- Free rows of the columns. -/
def free (a0 a1 k s : ℕ) : Column → ℕ
  | .advice0 => a0
  | .advice1 => a1
  | .instance => 0
  | .constant => k
  | .sMul => s

theorem loadPrivate_eq (v : Option F) (a0 a1 k s : ℕ) (f : List (Cell × F)) (cp : List (Cell × Cell)) (ad : List (Cell × Option F)) :
    loadPrivate v ⟨free a0 a1 k s, f, cp, ad⟩ = (((.advice0, a0), v), ⟨free (a0 + 1) a1 k s, f, cp, ad ++ [((.advice0, a0), v)]⟩) := by
  have h : (fun c => if c ∈ [Column.advice0] then a0 + 1 else free a0 a1 k s c) = free (a0 + 1) a1 k s := by
    funext c
    cases c <;> rfl
  simp only [loadPrivate, Layout.region, List.map_cons, List.map_nil, Op.row, Op.column, List.foldl_cons, List.foldl_nil, Layout.op, show free a0 a1 k s .advice0 = a0 from rfl, Nat.zero_max, zero_add, add_zero, h]

theorem loadConstant_eq (v : F) (a0 a1 k s : ℕ) (f : List (Cell × F)) (cp : List (Cell × Cell)) (ad : List (Cell × Option F)) :
    loadConstant v ⟨free a0 a1 k s, f, cp, ad⟩ = (((.advice0, a0), some v), ⟨free (a0 + 1) a1 (k + 1) s, f ++ [((.constant, k), v)],
      cp ++ [((.constant, k), (.advice0, a0))], ad ++ [((.advice0, a0), some v)]⟩) := by
  have h : (fun c => if c ∈ [Column.advice0] then a0 + 1 else free a0 a1 k s c) = free (a0 + 1) a1 k s := by
    funext c
    cases c <;> rfl
  have h' : Function.update (free (a0 + 1) a1 k s) .constant (k + 1) = free (a0 + 1) a1 (k + 1) s := by
    funext c
    cases c <;> rfl
  simp only [loadConstant, Layout.region, List.map_cons, List.map_nil, Op.row, Op.column, List.foldl_cons, List.foldl_nil, Layout.op,
    show free a0 a1 k s .advice0 = a0 from rfl, show free (a0 + 1) a1 k s .constant = k from rfl, Nat.zero_max, zero_add, add_zero, h, h']

theorem mul_eq (a b : Number F) {a0 a1 k s : ℕ} (h1 : a1 ≤ a0) (h2 : s ≤ a0) (f : List (Cell × F)) (cp : List (Cell × Cell)) (ad : List (Cell × Option F)) :
    mul a b ⟨free a0 a1 k s, f, cp, ad⟩ = (((.advice0, a0 + 1), a.2.bind fun x => b.2.map fun y => x * y), ⟨free (a0 + 2) (a0 + 2) k (a0 + 2), f ++ [((.sMul, a0), 1)],
      cp ++ [((.advice0, a0), a.1), ((.advice1, a0), b.1)],
      ad ++ [((.advice0, a0), a.2), ((.advice1, a0), b.2), ((.advice0, a0 + 1), a.2.bind fun x => b.2.map fun y => x * y)]⟩) := by
  have h : (fun c => if c ∈ [Column.sMul, .advice0, .advice1, .advice0] then a0 + 2 else free a0 a1 k s c) = free (a0 + 2) (a0 + 2) k (a0 + 2) := by
    funext c
    cases c <;> rfl
  have hm : max (max (max (max 0 s) a0) a1) a0 = a0 := by omega
  have hh : max (max (max (max 0 1) 1) 1) (1 + 1) = 2 := rfl
  simp only [mul, Layout.region, List.map_cons, List.map_nil, Op.row, Op.column, List.foldl_cons, List.foldl_nil, Layout.op, show free a0 a1 k s .advice0 = a0 from rfl,
    show free a0 a1 k s .advice1 = a1 from rfl, show free a0 a1 k s .sMul = s from rfl, zero_add, add_zero, hm, hh, h, List.append_assoc, List.cons_append, List.nil_append]

theorem empty_eq : (Layout.empty : Layout F) = ⟨free 0 0 0 0, [], [], []⟩ := by
  unfold Layout.empty
  congr 1
  funext c
  cases c <;> rfl

/-- The values of `ab` and `absq`. -/
def ab (c : MyCircuit F) : Option F := c.a.bind fun x => c.b.map fun y => x * y

def absq (c : MyCircuit F) : Option F := (ab c).bind fun x => (ab c).map fun y => x * y

theorem synthesize_eq (c : MyCircuit F) : synthesize c = ⟨free 9 9 1 9, [((.constant, 0), c.constant), ((.sMul, 3), 1), ((.sMul, 5), 1), ((.sMul, 7), 1)],
    [((.constant, 0), (.advice0, 2)), ((.advice0, 3), (.advice0, 0)), ((.advice1, 3), (.advice0, 1)), ((.advice0, 5), (.advice0, 4)), ((.advice1, 5), (.advice0, 4)),
      ((.advice0, 7), (.advice0, 2)), ((.advice1, 7), (.advice0, 6)), ((.advice0, 8), (.instance, 0))],
    [((.advice0, 0), c.a), ((.advice0, 1), c.b), ((.advice0, 2), some c.constant), ((.advice0, 3), c.a), ((.advice1, 3), c.b), ((.advice0, 4), ab c),
      ((.advice0, 5), ab c), ((.advice1, 5), ab c), ((.advice0, 6), absq c), ((.advice0, 7), some c.constant), ((.advice1, 7), absq c),
      ((.advice0, 8), (absq c).map fun y => c.constant * y)]⟩ := by
  unfold synthesize
  dsimp only
  rw [empty_eq, loadPrivate_eq]
  dsimp only
  rw [loadPrivate_eq]
  dsimp only
  rw [loadConstant_eq]
  dsimp only
  rw [mul_eq _ _ (by omega) (by omega)]
  dsimp only
  rw [mul_eq _ _ (by omega) (by omega)]
  dsimp only
  rw [mul_eq _ _ (by omega) (by omega)]
  rfl

theorem synthesize_copies (c : MyCircuit F) : (synthesize c).copies =
    [((.constant, 0), (.advice0, 2)), ((.advice0, 3), (.advice0, 0)), ((.advice1, 3), (.advice0, 1)), ((.advice0, 5), (.advice0, 4)), ((.advice1, 5), (.advice0, 4)),
      ((.advice0, 7), (.advice0, 2)), ((.advice1, 7), (.advice0, 6)), ((.advice0, 8), (.instance, 0))] := by rw [synthesize_eq]

theorem synthesize_fixed (c : MyCircuit F) : (synthesize c).fixed = [((.constant, 0), c.constant), ((.sMul, 3), 1), ((.sMul, 5), 1), ((.sMul, 7), 1)] := by
  rw [synthesize_eq]

theorem synthesize_advice (c : MyCircuit F) : (synthesize c).advice =
    [((.advice0, 0), c.a), ((.advice0, 1), c.b), ((.advice0, 2), some c.constant), ((.advice0, 3), c.a), ((.advice1, 3), c.b), ((.advice0, 4), ab c),
      ((.advice0, 5), ab c), ((.advice1, 5), ab c), ((.advice0, 6), absq c), ((.advice0, 7), some c.constant), ((.advice1, 7), absq c),
      ((.advice0, 8), (absq c).map fun y => c.constant * y)] := by rw [synthesize_eq]

/-- **C96**: the key depends on the constant only. -/
theorem C96_key {c c' : MyCircuit F} (h : c.constant = c'.constant) : (synthesize c).fixed = (synthesize c').fixed ∧ (synthesize c).copies = (synthesize c').copies := by
  rw [synthesize_fixed, synthesize_fixed, synthesize_copies, synthesize_copies, h]
  exact ⟨rfl, rfl⟩

theorem fixed_sMul (c : MyCircuit F) (r : ℕ) : (synthesize c).fixedAt (.sMul, r) = if r = 3 ∨ r = 5 ∨ r = 7 then 1 else 0 := by
  unfold Layout.fixedAt
  rw [synthesize_fixed]
  by_cases h3 : r = 3
  · subst h3; rfl
  by_cases h5 : r = 5
  · subst h5; rfl
  by_cases h7 : r = 7
  · subst h7; rfl
  simp [List.find?, h3, h5, h7, Ne.symm h3, Ne.symm h5, Ne.symm h7]

theorem fixed_constant (c : MyCircuit F) (r : ℕ) : (synthesize c).fixedAt (.constant, r) = if r = 0 then c.constant else 0 := by
  unfold Layout.fixedAt
  rw [synthesize_fixed]
  by_cases h0 : r = 0
  · subst h0; rfl
  simp [List.find?, h0, Ne.symm h0]

/-- **C96**, soundness: the public input of every satisfying assignment is `constant a² b²`, with the numbers in the first two cells. -/
theorem C96_sound {c : MyCircuit F} {n : ℕ} (hn : 9 ≤ n) {w : Cell → F} (h : (synthesize c).Sat n w) :
    w (.instance, 0) = c.constant * w (.advice0, 0) ^ 2 * w (.advice0, 1) ^ 2 := by
  have hc := h.copies
  rw [synthesize_copies] at hc
  simp only [List.mem_cons, List.not_mem_nil, or_false, forall_eq_or_imp, forall_eq] at hc
  obtain ⟨c1, c2, c3, c4, c5, c6, c7, c8⟩ := hc
  have hk := (h.fixed 0 (by omega)).2
  rw [fixed_constant, if_pos rfl] at hk
  have hg : ∀ r, r = 3 ∨ r = 5 ∨ r = 7 → w (.advice0, r) * w (.advice1, r) = w (.advice0, r + 1) := fun r hr => by
    have h1 := h.gate r (by omega)
    rw [(h.fixed r (by omega)).1, fixed_sMul, if_pos hr, one_mul, Nat.mod_eq_of_lt (by omega)] at h1
    exact sub_eq_zero.1 h1
  have g3 := hg 3 (by omega)
  have g5 := hg 5 (by omega)
  have g7 := hg 7 (by omega)
  rw [← c8, ← g7, c6, c7, ← g5, c4, c5, ← g3, c2, c3, ← c1, hk]
  ring

/-- **C96**, completeness: an assignment with all values and the public input `constant a² b²` satisfies the circuit. -/
theorem C96_complete {c : MyCircuit F} {a b : F} (ha : c.a = some a) (hb : c.b = some b) {n : ℕ} (hn : 9 ≤ n) {w : Cell → F} (hw : (synthesize c).Assigned w)
    (hf : ∀ r < n, w (.sMul, r) = (synthesize c).fixedAt (.sMul, r) ∧ w (.constant, r) = (synthesize c).fixedAt (.constant, r)) :
    (synthesize c).Sat n w ↔ w (.instance, 0) = c.constant * a ^ 2 * b ^ 2 := by
  unfold Layout.Assigned at hw
  rw [synthesize_advice, absq, ab, ha, hb] at hw
  simp only [Option.bind_some, Option.map_some, List.mem_cons, List.not_mem_nil, or_false, forall_eq_or_imp, forall_eq, Option.some.injEq] at hw
  obtain ⟨w0, w1, w2, w3, v3, w4, w5, v5, w6, w7, v7, w8⟩ := hw
  constructor
  · intro h
    rw [C96_sound hn h, ← w0, ← w1]
  · intro h
    refine ⟨hf, fun r hr => ?_, ?_⟩
    · rw [(hf r hr).1, fixed_sMul]
      split
      · next e =>
        rw [Nat.mod_eq_of_lt (by omega), one_mul, sub_eq_zero]
        rcases e with rfl | rfl | rfl
        · rw [← w3, ← v3, ← w4]
        · rw [← w5, ← v5, ← w6]
        · rw [← w7, ← v7, ← w8]
      · rw [zero_mul]
    · have hk := (hf 0 (by omega)).2
      rw [fixed_constant, if_pos rfl] at hk
      rw [synthesize_copies]
      simp only [List.mem_cons, List.not_mem_nil, or_false, forall_eq_or_imp, forall_eq]
      refine ⟨by rw [hk, ← w2], by rw [← w3, ← w0], by rw [← v3, ← w1], by rw [← w5, ← w4], by rw [← v5, ← w4], by rw [← w7, ← w2], by rw [← v7, ← w6], ?_⟩
      rw [h, ← w8]
      ring

/-- The assignment of a circuit, with the public input `z`. -/
def witness (k a b z : F) : Cell → F
  | (.advice0, 0) => a
  | (.advice0, 1) => b
  | (.advice0, 2) => k
  | (.advice0, 3) => a
  | (.advice0, 4) => a * b
  | (.advice0, 5) => a * b
  | (.advice0, 6) => a * b * (a * b)
  | (.advice0, 7) => k
  | (.advice0, 8) => k * (a * b * (a * b))
  | (.advice1, 3) => b
  | (.advice1, 5) => a * b
  | (.advice1, 7) => a * b * (a * b)
  | (.instance, 0) => z
  | (.constant, 0) => k
  | (.sMul, r) => if r = 3 ∨ r = 5 ∨ r = 7 then 1 else 0
  | _ => 0

theorem witness_sat (k a b z : F) {n : ℕ} (hn : 9 ≤ n) : (synthesize ⟨k, some a, some b⟩).Sat n (witness k a b z) ↔ z = k * a ^ 2 * b ^ 2 := by
  refine C96_complete (c := ⟨k, some a, some b⟩) rfl rfl hn ?_ fun r _ => ⟨(fixed_sMul _ r).symm, ?_⟩
  · unfold Layout.Assigned
    rw [synthesize_advice]
    simp [witness, ab, absq]
  · rw [fixed_constant]
    cases r <;> simp [witness]

/-- **C96**, what the verifying key accepts: the public inputs `constant a² b²`. -/
theorem C96_public (c : MyCircuit F) {n : ℕ} (hn : 9 ≤ n) (z : F) :
    (∃ w, (synthesize c).Sat n w ∧ w (.instance, 0) = z) ↔ ∃ a b, z = c.constant * a ^ 2 * b ^ 2 := by
  constructor
  · rintro ⟨w, h, rfl⟩
    exact ⟨_, _, C96_sound hn h⟩
  · rintro ⟨a, b, h⟩
    have hs := (witness_sat c.constant a b z hn).2 h
    obtain ⟨e1, e2⟩ := C96_key (c := ⟨c.constant, some a, some b⟩) (c' := c) rfl
    exact ⟨_, ⟨by simpa only [Layout.fixedAt, e1] using hs.fixed, hs.gate, e2 ▸ hs.copies⟩, rfl⟩

/-- **C96**: with a constant other than zero these are its multiples by squares. -/
theorem C96_squares (c : MyCircuit F) (hc : c.constant ≠ 0) {n : ℕ} (hn : 9 ≤ n) (z : F) :
    (∃ w, (synthesize c).Sat n w ∧ w (.instance, 0) = z) ↔ IsSquare (z / c.constant) := by
  rw [C96_public c hn]
  constructor
  · rintro ⟨a, b, rfl⟩
    exact ⟨a * b, by field_simp⟩
  · rintro ⟨a, h⟩
    refine ⟨a, 1, ?_⟩
    rw [div_eq_iff hc] at h
    rw [h]
    ring

/-- **C96** for `instance_builder`: what it returns can be proved, and no other public input with the same assignment. -/
theorem C96_builder (a b : F) {n : ℕ} (hn : 9 ≤ n) (z : F) :
    (∃ w, (synthesize (instanceBuilder a b).1).Assigned w ∧ (synthesize (instanceBuilder a b).1).Sat n w ∧ w (.instance, 0) = z) ↔ (instanceBuilder a b).2 = [[z]] := by
  constructor
  · rintro ⟨w, h1, h2, rfl⟩
    have := (C96_complete (c := (instanceBuilder a b).1) rfl rfl hn h1 h2.fixed).1 h2
    rw [this]
    rfl
  · intro h
    obtain rfl : 7 * a ^ 2 * b ^ 2 = z := by simpa [instanceBuilder] using h
    refine ⟨witness 7 a b (7 * a ^ 2 * b ^ 2), ?_, (witness_sat 7 a b _ hn).2 rfl, rfl⟩
    unfold Layout.Assigned
    rw [synthesize_advice]
    simp [witness, instanceBuilder, ab, absq]

/-- **C96** for keys made from `default`: they are the keys of the circuits of `instance_builder`, and what it returns is accepted. -/
theorem C96_default (a b : F) {n : ℕ} (hn : 9 ≤ n) : (synthesize (MyCircuit.default (F := F))).fixed = (synthesize (instanceBuilder a b).1).fixed ∧
    (synthesize (MyCircuit.default (F := F))).copies = (synthesize (instanceBuilder a b).1).copies ∧
    ∃ w z, (synthesize (instanceBuilder a b).1).Assigned w ∧ (synthesize MyCircuit.default).Sat n w ∧ w (.instance, 0) = z ∧ (instanceBuilder a b).2 = [[z]] := by
  obtain ⟨e1, e2⟩ := C96_key (c := (instanceBuilder a b).1) (c' := MyCircuit.default) rfl
  obtain ⟨w, h1, h2, h3⟩ := (C96_builder a b hn (7 * a ^ 2 * b ^ 2)).2 rfl
  exact ⟨e1.symm, e2.symm, w, _, h1, ⟨by simpa only [Layout.fixedAt, e1] using h2.fixed, h2.gate, e2 ▸ h2.copies⟩, h3, rfl⟩

/-- **C96**: a key made from the derived `default` of the tests is another one; the only public input it accepts is zero. -/
theorem C96_derived_default {n : ℕ} (hn : 9 ≤ n) (z : F) : (∃ w, (synthesize (MyCircuit.derivedDefault (F := F))).Sat n w ∧ w (.instance, 0) = z) ↔ z = 0 := by
  rw [C96_public _ hn]
  constructor
  · rintro ⟨a, b, h⟩
    simpa [MyCircuit.derivedDefault] using h
  · rintro rfl
    exact ⟨0, 0, by simp⟩

end

/-! ### Example -/

instance : Fact (Nat.Prime 11) := ⟨by norm_num⟩

/-- With the constant 7 over the field with eleven elements, 7 is a public input of a proof and 1 is not. -/
example : (∃ w, (synthesize (⟨7, none, none⟩ : MyCircuit (ZMod 11))).Sat 128 w ∧ w (.instance, 0) = 7) ∧
    ¬ ∃ w, (synthesize (⟨7, none, none⟩ : MyCircuit (ZMod 11))).Sat 128 w ∧ w (.instance, 0) = 1 := by
  have h7 : (7 : ZMod 11) ≠ 0 := by decide
  rw [C96_squares _ h7 (by norm_num), C96_public _ (by norm_num)]
  refine ⟨⟨1, ?_⟩, by decide⟩
  show (7 : ZMod 11) / 7 = 1 * 1
  rw [div_self h7, mul_one]

/-- One and one: the key of `default` accepts 7, that of the derived one does not. -/
example : (∃ w, (synthesize (MyCircuit.default (F := ZMod 11))).Sat 128 w ∧ w (.instance, 0) = 7) ∧
    ¬ ∃ w, (synthesize (MyCircuit.derivedDefault (F := ZMod 11))).Sat 128 w ∧ w (.instance, 0) = 7 := by
  rw [C96_derived_default (by norm_num), C96_public _ (by norm_num)]
  exact ⟨⟨1, 1, by simp [MyCircuit.default]⟩, by decide⟩

end Verif.Sdk.Product
