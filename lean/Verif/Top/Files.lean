import Verif.Sol.ContractSha
import Verif.Top.CreateProof
import Verif.Top.ExposeProps

/-!
# Files: C81, C84

`halo2-snark-aggregator-circuit/src/fs.rs` (cited as `fs.rs`). A folder is a function from file names to contents; writing always succeeds, and
names have no path separators. `none` is a panic (a file that is missing, or contents that cannot be decoded).
-/

namespace Verif.Top
open Verif.Circuit Verif.Ecc Verif.Sol

/-- The files of a folder. -/
abbrev Folder : Type := String → Option (List UInt8)

/-- `read_file`: fs.rs:21-30. -/
def Folder.read (f : Folder) (name : String) : Option (List UInt8) := f name

/-- `write_file`: fs.rs:32-38, and the other functions that create a file. -/
def Folder.write (f : Folder) (name : String) (b : List UInt8) : Folder := fun n => if n = name then some b else f n

/-- The loop of `load_instances`: fs.rs:137-139. The last bytes are ignored if they are fewer than 32. -/
def readScalars (buf : List UInt8) : Option (List N) :=
  if h : buf.length < 32 then some [] else do
    let a ← fromRepr frMod (buf.take 32)
    let rest ← readScalars (buf.drop 32)
    return a :: rest
termination_by buf.length
decreasing_by
  rw [List.length_drop]
  omega

/-- `load_instances`: fs.rs:132-142. The examples of the SDK have the same function for their circuits (multi-circuit.rs:345-355). -/
def loadInstances (buf : List UInt8) : Option (List (List (List N))) := do
  let ret ← readScalars buf
  return [[ret]]

/-- How instances are written: `write_verify_circuit_instance`, fs.rs:169-180. -/
def scalarBytes (l : List N) : List UInt8 := l.flatMap fun a => Sol.repr a.val

/-- The instances of one proof, column after column: sample_circuit.rs:105-111. -/
def columnBytes (columns : List (List N)) : List UInt8 := columns.flatMap scalarBytes

/-- `write_verify_circuit_final_pair`: fs.rs:182-195. The affine coordinates of the identity are zero. -/
def finalPairBytes (pair : Pt × Pt × List N) : List UInt8 :=
  Sol.repr (coordX pair.1).val ++ Sol.repr (coordY pair.1).val ++ Sol.repr (coordX pair.2.1).val ++ Sol.repr (coordY pair.2.1).val ++ scalarBytes pair.2.2

/-! ### Reading back what was written -/

theorem Folder.read_write (f : Folder) (name : String) (b : List UInt8) : (f.write name b).read name = some b := if_pos rfl

theorem Folder.read_write_ne (f : Folder) {name name' : String} (h : name' ≠ name) (b : List UInt8) : (f.write name b).read name' = f.read name' := if_neg h

theorem scalarBytes_cons (a : N) (l : List N) : scalarBytes (a :: l) = Sol.repr a.val ++ scalarBytes l := rfl

theorem scalarBytes_length (l : List N) : (scalarBytes l).length = 32 * l.length := by
  induction l with
  | nil => rfl
  | cons a l ih => rw [scalarBytes_cons, List.length_append, repr_length, ih, List.length_cons]; omega

theorem columnBytes_eq (columns : List (List N)) : columnBytes columns = scalarBytes columns.flatten := by
  unfold columnBytes scalarBytes
  rw [List.flatMap_def, List.flatMap_def, List.map_flatten, List.flatten_flatten, List.map_map]
  congr 1

theorem readScalars_iff (buf : List UInt8) (l : List N) : readScalars buf = some l ↔ ∃ tail, buf = scalarBytes l ++ tail ∧ tail.length < 32 := by
  induction l generalizing buf with
  | nil =>
    rw [readScalars]
    by_cases h : buf.length < 32
    · rw [dif_pos h]
      exact ⟨fun _ => ⟨buf, rfl, h⟩, fun _ => rfl⟩
    · rw [dif_neg h]
      constructor
      · intro e
        obtain ⟨a, -, e⟩ := Option.bind_eq_some_iff.1 e
        obtain ⟨r, -, e⟩ := Option.bind_eq_some_iff.1 e
        cases e
      · rintro ⟨tail, rfl, ht⟩
        exact absurd ht h
  | cons a l ih =>
    rw [readScalars]
    by_cases h : buf.length < 32
    · rw [dif_pos h]
      constructor
      · intro e
        cases e
      · rintro ⟨tail, rfl, -⟩
        rw [List.length_append, scalarBytes_length, List.length_cons] at h
        omega
    · rw [dif_neg h]
      constructor
      · intro e
        obtain ⟨b, h1, e⟩ := Option.bind_eq_some_iff.1 e
        obtain ⟨r, h2, e⟩ := Option.bind_eq_some_iff.1 e
        cases e
        obtain ⟨tail, e, ht⟩ := (ih _).1 h2
        refine ⟨tail, ?_, ht⟩
        have := fromRepr_some (by rw [List.length_take]; omega) h1
        rw [scalarBytes_cons, List.append_assoc, ← e, ← this, List.take_append_drop]
      · rintro ⟨tail, rfl, ht⟩
        have e1 : (scalarBytes (a :: l) ++ tail).take 32 = Sol.repr a.val := by
          rw [scalarBytes_cons, List.append_assoc, List.take_append_of_le_length (by rw [repr_length]), List.take_of_length_le (by rw [repr_length])]
        have e2 : (scalarBytes (a :: l) ++ tail).drop 32 = scalarBytes l ++ tail := by
          rw [scalarBytes_cons, List.append_assoc, List.drop_append_of_le_length (by rw [repr_length]), List.drop_of_length_le (by rw [repr_length]), List.nil_append]
        rw [e1, e2, scalar_repr, (ih (scalarBytes l ++ tail)).2 ⟨tail, rfl, ht⟩]
        rfl

/-- **C81**, exactly what is read: one column, the canonical encodings of scalars followed by fewer than 32 bytes. -/
theorem C81_load_iff (buf : List UInt8) (r : List (List (List N))) :
    loadInstances buf = some r ↔ ∃ l tail, buf = scalarBytes l ++ tail ∧ tail.length < 32 ∧ r = [[l]] := by
  unfold loadInstances
  constructor
  · intro h
    obtain ⟨l, h1, h2⟩ := Option.bind_eq_some_iff.1 h
    cases h2
    obtain ⟨tail, e, ht⟩ := (readScalars_iff _ _).1 h1
    exact ⟨l, tail, e, ht, rfl⟩
  · rintro ⟨l, tail, e, ht, rfl⟩
    rw [(readScalars_iff _ _).2 ⟨tail, e, ht⟩]
    rfl

/-- C81, what is wrong: the columns of a proof come back as one. -/
theorem C81_columns (columns : List (List N)) : loadInstances (columnBytes columns) = some [[columns.flatten]] :=
  (C81_load_iff _ _).2 ⟨columns.flatten, [], by rw [columnBytes_eq, List.append_nil], by simp, rfl⟩

/-- C81 holds for one column and for no other number of columns. -/
theorem C81_read_back_iff (columns : List (List N)) : loadInstances (columnBytes columns) = some [columns] ↔ columns.length = 1 := by
  rw [C81_columns]
  constructor
  · intro h
    have : [columns.flatten] = columns := by simpa using h
    rw [← this]
    rfl
  · intro h
    obtain ⟨c, rfl⟩ := List.length_eq_one_iff.1 h
    simp

/-- C81 for the instances of the aggregation circuit, and for target circuits with one column. Missing: other numbers of columns. -/
theorem C81_read_back_partial (l : List N) : loadInstances (scalarBytes l) = some [[l]] :=
  (C81_load_iff _ _).2 ⟨l, [], by rw [List.append_nil], by simp, rfl⟩

/-- Two columns are read as one with three scalars. -/
example : loadInstances (columnBytes [[1, 2], [3]]) = some [[[1, 2, 3]]] ∧ loadInstances (columnBytes [[1, 2], [3]]) ≠ some [[[1, 2], [3]]] :=
  ⟨C81_columns _, fun h => absurd ((C81_read_back_iff _).1 h) (by decide)⟩

/-- Two files are read as the same instances: the last bytes do not count. -/
theorem C81_tail (l : List N) : loadInstances (scalarBytes l ++ [1]) = loadInstances (scalarBytes l) := by
  rw [C81_read_back_partial]
  exact (C81_load_iff _ _).2 ⟨l, [1], rfl, by simp, rfl⟩

/-! ### The words of the call -/

theorem words_append (a b : List UInt8) (ha : a.length = 32) : bufferToUint256LE (a ++ b) = BitVec.ofNat 256 (leNat a) :: bufferToUint256LE b := by
  unfold bufferToUint256LE
  rw [List.length_append, ha, show (32 + b.length) / 32 = b.length / 32 + 1 by omega, List.range_succ_eq_map, List.map_cons, List.map_map]
  congr 1
  · rw [Nat.mul_zero, List.drop_zero, List.take_append_of_le_length (by omega), List.take_of_length_le (by omega)]
  · refine List.map_congr_left fun i _ => ?_
    simp only [Function.comp]
    rw [show 32 * (i + 1) = a.length + 32 * i by omega, List.drop_append, List.drop_of_length_le (by omega), Nat.add_sub_cancel_left, List.nil_append]

theorem words_repr {n : ℕ} (h : n < 2 ^ 256) (b : List UInt8) : bufferToUint256LE (Sol.repr n ++ b) = BitVec.ofNat 256 n :: bufferToUint256LE b := by
  rw [words_append _ _ (repr_length n), leNat_repr h]

theorem words_scalars (l : List N) : bufferToUint256LE (scalarBytes l) = l.map wordOf := by
  induction l with
  | nil => rfl
  | cons a l ih => rw [scalarBytes_cons, words_repr ((ZMod.val_lt a).trans frMod_lt), ih]; rfl

/-- **C84**. The words read from the file of the final pair are those the contract expects: the coordinates of the points and the instances. -/
theorem C84_final_pair (P Q : Pt) (rest : List N) :
    bufferToUint256LE (finalPairBytes (P, Q, rest)) = [(g1Words P).1, (g1Words P).2, (g1Words Q).1, (g1Words Q).2] ++ rest.map wordOf := by
  have h : ∀ x : W, x.val < 2 ^ 256 := fun x => (ZMod.val_lt x).trans fqMod_lt
  unfold finalPairBytes
  simp only [List.append_assoc]
  rw [words_repr (h _), words_repr (h _), words_repr (h _), words_repr (h _), words_scalars]
  rfl

/-- The contract computes from the file of the final pair the instances that are written to the file of the instances. -/
theorem C84_instances {P Q : Pt} {rest is : List N} (h : pairToInstances P Q rest = some is) :
    contractInstances is.length (bufferToUint256LE (finalPairBytes (P, Q, rest))) = some (bufferToUint256LE (scalarBytes is)) ∧
      loadInstances (scalarBytes is) = some [[is]] := by
  have hP : P ≠ 0 ∧ Q ≠ 0 := by
    by_contra hc
    rw [C48_native_identity (by tauto)] at h
    cases h
  rw [C48_native hP.1 hP.2] at h
  cases h
  refine ⟨?_, C81_read_back_partial _⟩
  rw [C84_final_pair, words_scalars]
  exact C48_contract P Q rest _ (by rw [List.length_append]; rfl)

end Verif.Top
