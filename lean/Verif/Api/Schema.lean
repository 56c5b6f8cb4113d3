import Verif.Api.Field
import Mathlib.Tactic.Abel

/-!
# Evaluation-query schemas

`halo2-snark-aggregator-api/src/systems/halo2/evaluation.rs`: formal combinations of commitments and scalars, evaluated with one
multi-scalar multiplication after merging equal commitments by their key.
-/

namespace Verif.Api

/-- evaluation.rs lines 7-12. -/
structure CommitQuery (P S : Type) where
  key : String
  commitment : Option P
  eval : Option S

/-- evaluation.rs lines 14-27; the flags say whether the operand holds a commitment. -/
inductive Schema (P S : Type) where
  | commitment (q : CommitQuery P S)
  | eval (q : CommitQuery P S)
  | scalar (s : S)
  | add (l : Schema P S) (lc : Bool) (r : Schema P S) (rc : Bool)
  | mul (l : Schema P S) (lc : Bool) (r : Schema P S) (rc : Bool)

/-- evaluation.rs lines 30-38. -/
def Schema.hasCommitment {P S : Type} : Schema P S → Bool
  | .commitment _ => true
  | .eval _ => false
  | .scalar _ => false
  | .add _ lc _ rc => lc || rc
  | .mul _ lc _ rc => lc || rc

/-- evaluation.rs lines 62-72. -/
instance {P S : Type} : Add (Schema P S) := ⟨fun l r => .add l l.hasCommitment r r.hasCommitment⟩

/-- evaluation.rs lines 74-84. -/
instance {P S : Type} : Mul (Schema P S) := ⟨fun l r => .mul l l.hasCommitment r r.hasCommitment⟩

variable {F G : Type} (c : Chip F G)

/-- A row of the vector `eval_prepare` returns: key, point, coefficient. -/
abbrev Entry := String × Option c.P × Option c.S

/-- `unwrap`. -/
def unwrap {α : Type} : Option α → c.m α
  | some a => return a
  | none => c.panic

/-- evaluation.rs lines 251-265: add the coefficient to the first row with the same key, or append the row. -/
def mergeOne (one : c.S) (e : Entry c) : List (Entry c) → c.m (List (Entry c))
  | [] => return [e]
  | p :: res =>
    if p.1 = e.1 then do
      let s ← c.add (p.2.2.getD one) (e.2.2.getD one)
      return (p.1, p.2.1, some s) :: res
    else do
      let res ← mergeOne one e res
      return p :: res

/-- evaluation.rs lines 248-266: the inner loop. -/
def mergeAll (one : c.S) : List (Entry c) → List (Entry c) → c.m (List (Entry c))
  | [], res => return res
  | e :: l, res => do
    let res ← mergeOne c one e res
    mergeAll one l res

/-- `match scalar { Some(scalar) => mul(scalar, s), None => s }`; evaluation.rs lines 220-223, 240-243 and 285-288. -/
def timesOpt (scalar : Option c.S) (s : c.S) : c.m c.S :=
  match scalar with
  | some k => c.mul k s
  | none => return s

/-- The same with the factors in the other order; evaluation.rs lines 225-229. -/
def optTimes (scalar : Option c.S) (s : c.S) : c.m c.S :=
  match scalar with
  | some k => c.mul s k
  | none => return s

/-- `assert!(l.len() == 1)` and `l[0].2.unwrap()`; evaluation.rs lines 237-239, 282-287. -/
def only (l : List (Entry c)) : c.m c.S :=
  match l with
  | [e] => unwrap c e.2.2
  | _ => c.panic

/-- evaluation.rs lines 205-293. -/
def evalPrepare (one : c.S) : Schema c.P c.S → Option c.S → c.m (List (Entry c))
  | .commitment q, scalar => do
    let p ← unwrap c q.commitment
    return [(q.key, some p, scalar)]
  | .eval q, scalar => do
    let e ← unwrap c q.eval
    let e ← timesOpt c scalar e
    return [("", none, some e)]
  | .scalar s, scalar => do
    let s ← optTimes c scalar s
    return [("", none, some s)]
  | .add l lc r rc, scalar =>
    if !lc && !rc then do
      let l ← evalPrepare one l none
      let r ← evalPrepare one r none
      let a ← only c l
      let b ← only c r
      let sum ← c.add a b
      let sum ← timesOpt c scalar sum
      return [("", none, some sum)]
    else do
      let el ← evalPrepare one l scalar
      let res ← mergeAll c one el []
      let er ← evalPrepare one r scalar
      mergeAll c one er res
  | .mul l lc r _, scalar =>
    if !lc then do
      let s ← evalPrepare one l none
      let s ← only c s
      let s ← timesOpt c scalar s
      evalPrepare one r (some s)
    else do
      let s ← evalPrepare one r none
      let s ← only c s
      let s ← timesOpt c scalar s
      evalPrepare one l (some s)

/-- evaluation.rs lines 198-200. -/
def addAll : List c.P → c.P → c.m c.P
  | [], acc => return acc
  | p :: l, acc => do
    let acc ← c.pAdd acc p
    addAll l acc

/-- `.map(|b| b.2.unwrap())`; evaluation.rs lines 179-182. -/
def scalarOf : Option (Entry c) → c.m (Option c.S)
  | none => return none
  | some b => do
    let v ← unwrap c b.2.2
    return some v

/-- evaluation.rs lines 172-203. -/
def evalSchema (one : c.S) (s : Schema c.P c.S) : c.m (c.P × Option c.S × List String) := do
  let points ← evalPrepare c one s none
  let names := points.map fun b => b.1
  let e ← scalarOf c (points.find? fun b => b.1 = "")
  let woScalar := points.filterMap fun b => if b.2.2.isNone then b.2.1 else none
  let withScalar := points.filterMap fun b => b.2.1.bind fun p => b.2.2.map fun s => (p, s)
  let acc ← c.multiExp (withScalar.map Prod.fst) (withScalar.map Prod.snd)
  let acc ← addAll c woScalar acc
  return (acc, e, names)

/-! ### Specification -/

variable {c} [Field F] [AddCommGroup G] [Module F G] {gen : G}

/-- The combination a schema describes: a group element and a scalar. Scalars commute with everything and the product of two
group elements is zero (it does not occur). `K` says which group element a key denotes. -/
def Schema.sem {P S : Type} (K : String → G) (v : S → F) : Schema P S → G × F
  | .commitment q => (K q.key, 0)
  | .eval q => (0, (q.eval.map v).getD 0)
  | .scalar s => (0, v s)
  | .add l _ r _ => ((l.sem K v).1 + (r.sem K v).1, (l.sem K v).2 + (r.sem K v).2)
  | .mul l _ r _ => ((l.sem K v).2 • (r.sem K v).1 + (r.sem K v).2 • (l.sem K v).1, (l.sem K v).2 * (r.sem K v).2)

/-- Well-formed schemas: flags as the operators set them, no product of two commitment-bearing parts, values present, keys not
empty, and every commitment is the one its key denotes. -/
def Schema.WF {P S : Type} (pv : P → G → Prop) (K : String → G) : Schema P S → Prop
  | .commitment q => q.key ≠ "" ∧ ∃ p, q.commitment = some p ∧ pv p (K q.key)
  | .eval q => q.eval.isSome
  | .scalar _ => True
  | .add l lc r rc => l.WF pv K ∧ r.WF pv K ∧ lc = l.hasCommitment ∧ rc = r.hasCommitment
  | .mul l lc r rc => l.WF pv K ∧ r.WF pv K ∧ lc = l.hasCommitment ∧ rc = r.hasCommitment ∧ (lc && rc) = false

/-- Some commitment gets a coefficient: it stands below a product. -/
def Schema.Scaled {P S : Type} : Bool → Schema P S → Prop
  | b, .commitment _ => b = true
  | _, .eval _ => False
  | _, .scalar _ => False
  | b, .add l _ r _ => l.Scaled b ∨ r.Scaled b
  | _, .mul l _ r _ => l.Scaled true ∨ r.Scaled true

/-! ### Proofs -/

section
variable {P S : Type} {pv : P → G → Prop} {K : String → G} {v : S → F} {a b : Schema P S}

@[simp] theorem Schema.sem_add : (a + b).sem K v = ((a.sem K v).1 + (b.sem K v).1, (a.sem K v).2 + (b.sem K v).2) := rfl
@[simp] theorem Schema.sem_mul : (a * b).sem K v =
    ((a.sem K v).2 • (b.sem K v).1 + (b.sem K v).2 • (a.sem K v).1, (a.sem K v).2 * (b.sem K v).2) := rfl
@[simp] theorem Schema.hasCommitment_add : (a + b).hasCommitment = (a.hasCommitment || b.hasCommitment) := rfl
@[simp] theorem Schema.hasCommitment_mul : (a * b).hasCommitment = (a.hasCommitment || b.hasCommitment) := rfl
theorem Schema.wf_add : (a + b).WF pv K ↔ a.WF pv K ∧ b.WF pv K :=
  ⟨fun h => ⟨h.1, h.2.1⟩, fun h => ⟨h.1, h.2, rfl, rfl⟩⟩
theorem Schema.wf_mul : (a * b).WF pv K ↔ a.WF pv K ∧ b.WF pv K ∧ (a.hasCommitment && b.hasCommitment) = false :=
  ⟨fun h => ⟨h.1, h.2.1, h.2.2.2.2⟩, fun h => ⟨h.1, h.2.1, rfl, rfl, h.2.2⟩⟩
theorem Schema.scaled_add {x : Bool} : (a + b).Scaled x ↔ a.Scaled x ∨ b.Scaled x := Iff.rfl
theorem Schema.scaled_mul {x : Bool} : (a * b).Scaled x ↔ a.Scaled true ∨ b.Scaled true := Iff.rfl

theorem Schema.sem_noCommitment (h : a.WF pv K) (hf : a.hasCommitment = false) : (a.sem K v).1 = 0 := by
  induction a with
  | commitment q => simp [Schema.hasCommitment] at hf
  | eval q => rfl
  | scalar s => rfl
  | add l lc r rc hl hr =>
    obtain ⟨h1, h2, rfl, rfl⟩ := h
    simp only [Schema.hasCommitment, Bool.or_eq_false_iff] at hf
    simp only [Schema.sem, hl h1 hf.1, hr h2 hf.2, add_zero]
  | mul l lc r rc hl hr =>
    obtain ⟨h1, h2, rfl, rfl, -⟩ := h
    simp only [Schema.hasCommitment, Bool.or_eq_false_iff] at hf
    simp only [Schema.sem, hl h1 hf.1, hr h2 hf.2, smul_zero, add_zero]

theorem Schema.not_scaled (h : a.WF pv K) (hf : a.hasCommitment = false) : ∀ x, ¬ a.Scaled x := by
  induction a with
  | commitment q => simp [Schema.hasCommitment] at hf
  | eval q => exact fun _ h => h
  | scalar s => exact fun _ h => h
  | add l lc r rc hl hr =>
    obtain ⟨h1, h2, rfl, rfl⟩ := h
    simp only [Schema.hasCommitment, Bool.or_eq_false_iff] at hf
    exact fun x h => h.elim (hl h1 hf.1 x) (hr h2 hf.2 x)
  | mul l lc r rc hl hr =>
    obtain ⟨h1, h2, rfl, rfl, -⟩ := h
    simp only [Schema.hasCommitment, Bool.or_eq_false_iff] at hf
    exact fun x h => h.elim (hl h1 hf.1 true) (hr h2 hf.2 true)
end

namespace Logic
variable (L : Logic c gen) (K : String → G)

/-- The coefficient of a row; none means one. -/
def coef (e : Entry c) : F := (e.2.2.map L.sv).getD 1

/-- What a row contributes to the group part and the scalar part. -/
def rowP (e : Entry c) : G := if e.1 = "" then 0 else L.coef e • K e.1
def rowS (e : Entry c) : F := if e.1 = "" then L.coef e else 0

/-- Rows are scalars under the empty key, or points under the key that denotes them. -/
def RowOk (e : Entry c) : Prop :=
  (e.1 = "" ∧ e.2.1 = none ∧ ∃ s, e.2.2 = some s) ∨ (e.1 ≠ "" ∧ ∃ p, e.2.1 = some p ∧ L.pv p (K e.1))

/-- A point row with a coefficient. -/
def HasScaled (l : List (Entry c)) : Prop := ∃ e ∈ l, (∃ p, e.2.1 = some p) ∧ ∃ s, e.2.2 = some s

/-- The rows describe the group element `P` and the scalar `k`. -/
structure Rows (l : List (Entry c)) (P : G) (k : F) : Prop where
  nodup : (l.map Prod.fst).Nodup
  ok : ∀ e ∈ l, L.RowOk K e
  group : (l.map (L.rowP K)).sum = P
  scalar : (l.map L.rowS).sum = k

variable {K}

theorem rowOk_key {p e : Entry c} (hp : L.RowOk K p) (he : L.RowOk K e) (hk : p.1 = e.1) (s : c.S) :
    L.RowOk K (p.1, p.2.1, some s) := by
  rcases hp with ⟨h1, h2, -⟩ | ⟨h1, h2⟩
  · exact .inl ⟨h1, h2, s, rfl⟩
  · exact .inr ⟨h1, h2⟩

theorem mergeOne {one : c.S} (h1 : L.sv one = 1) (e : Entry c) (he : L.RowOk K e) : ∀ {l : List (Entry c)} {P : G} {k : F},
    L.Rows K l P k → L.Ens (Api.mergeOne c one e l) fun r => L.Rows K r (P + L.rowP K e) (k + L.rowS e) ∧
      (∀ x, x ∈ r.map Prod.fst ↔ x ∈ l.map Prod.fst ∨ x = e.1) ∧
      (HasScaled l ∨ ((∃ p, e.2.1 = some p) ∧ ∃ s, e.2.2 = some s) → HasScaled r)
  | [], P, k, h => L.pure ⟨⟨by simp, by simpa using he, by rw [← h.group]; simp, by rw [← h.scalar]; simp⟩, by simp, by
      rintro (⟨_, h, _⟩ | h)
      · simp at h
      · exact ⟨e, by simp, h⟩⟩
  | p :: l, P, k, h => by
    have hsub : L.Rows K l (P - L.rowP K p) (k - L.rowS p) := by
      refine ⟨(List.nodup_cons.1 (by simpa using h.nodup)).2, fun e he => h.ok e (by simp [he]), ?_, ?_⟩
      · rw [← h.group]; simp
      · rw [← h.scalar]; simp
    have hpok := h.ok p (by simp)
    unfold Api.mergeOne
    split
    · next hk =>
      refine L.bind (L.add _ _) fun s hs => L.pure ?_
      have hcoef : L.sv s = L.coef p + L.coef e := by
        rw [hs]
        have : ∀ x : Entry c, L.sv (x.2.2.getD one) = L.coef x := by
          rintro ⟨x, y, z⟩
          cases z <;> simp [coef, h1]
        rw [this, this]
      refine ⟨⟨by simpa using h.nodup, ?_, ?_, ?_⟩, ?_, ?_⟩
      · rintro x hx
        rcases List.mem_cons.1 hx with rfl | hx
        · exact L.rowOk_key hpok he hk s
        · exact h.ok x (by simp [hx])
      · rw [List.map_cons, List.sum_cons, hsub.group]
        simp only [rowP, coef, Option.map_some, Option.getD_some, ← hk]
        split
        · simp
        · rw [hcoef, add_smul]
          simp only [coef]
          abel
      · rw [List.map_cons, List.sum_cons, hsub.scalar]
        simp only [rowS, coef, Option.map_some, Option.getD_some, ← hk]
        split
        · rw [hcoef]
          simp only [coef]
          ring
        · ring
      · intro x
        simp only [List.map_cons, List.mem_cons]
        constructor
        · rintro (h | h)
          · exact .inl (.inl h)
          · exact .inl (.inr h)
        · rintro ((h | h) | h)
          · exact .inl h
          · exact .inr h
          · exact .inl (by rw [h, hk])
      · have hmem : ∀ q, p.2.1 = some q → HasScaled ((p.1, p.2.1, some s) :: l) := fun q hq =>
          ⟨(p.1, p.2.1, some s), by simp, ⟨q, hq⟩, s, rfl⟩
        rintro (⟨x, hx, h2, h3⟩ | ⟨⟨q, hq⟩, h3⟩)
        · rcases List.mem_cons.1 hx with rfl | hx
          · obtain ⟨q, hq⟩ := h2
            exact hmem q hq
          · exact ⟨x, by simp [hx], h2, h3⟩
        · rcases hpok with ⟨h4, h5, -⟩ | ⟨h4, q', h5, -⟩
          · rcases he with ⟨-, h6, -⟩ | ⟨h6, -⟩
            · rw [h6] at hq; cases hq
            · exact absurd (hk ▸ h4) h6
          · exact hmem q' h5
    · next hk =>
      refine L.bind (mergeOne h1 e he hsub) fun r hr => L.pure ?_
      obtain ⟨hr, hkeys, hsc⟩ := hr
      refine ⟨⟨?_, ?_, ?_, ?_⟩, ?_, ?_⟩
      · rw [List.map_cons, List.nodup_cons]
        refine ⟨fun hmem => ?_, hr.nodup⟩
        rcases (hkeys _).1 hmem with h2 | h2
        · have := h.nodup
          rw [List.map_cons, List.nodup_cons] at this
          exact this.1 h2
        · exact hk h2
      · intro x hx
        rcases List.mem_cons.1 hx with rfl | hx
        · exact hpok
        · exact hr.ok x hx
      · rw [List.map_cons, List.sum_cons, hr.group]
        abel
      · rw [List.map_cons, List.sum_cons, hr.scalar]
        ring
      · intro x
        rw [List.map_cons, List.mem_cons, hkeys, List.map_cons, List.mem_cons, or_assoc]
      · rintro (⟨x, hx, h2⟩ | h2)
        · rcases List.mem_cons.1 hx with rfl | hx
          · exact ⟨x, by simp, h2⟩
          · obtain ⟨y, hy, h3⟩ := hsc (.inl ⟨x, hx, h2⟩)
            exact ⟨y, by simp [hy], h3⟩
        · obtain ⟨y, hy, h3⟩ := hsc (.inr h2)
          exact ⟨y, by simp [hy], h3⟩

theorem mergeAll {one : c.S} (h1 : L.sv one = 1) : ∀ {es l : List (Entry c)} {P : G} {k : F}, (∀ e ∈ es, L.RowOk K e) →
    L.Rows K l P k → L.Ens (Api.mergeAll c one es l) fun r =>
      L.Rows K r (P + (es.map (L.rowP K)).sum) (k + (es.map L.rowS).sum) ∧ (HasScaled l ∨ HasScaled es → HasScaled r)
  | [], l, P, k, _, h => L.pure ⟨by simpa using h, by
      rintro (h | ⟨_, h, _⟩)
      · exact h
      · simp at h⟩
  | e :: es, l, P, k, hes, h => by
    refine L.bind (L.mergeOne h1 e (hes e (by simp)) h) fun r hr => ?_
    refine L.mono (mergeAll h1 (fun e he => hes e (by simp [he])) hr.1) fun r' hr' => ⟨?_, ?_⟩
    · rw [List.map_cons, List.sum_cons, List.map_cons, List.sum_cons, ← add_assoc, ← add_assoc]
      exact hr'.1
    · rintro (h2 | ⟨x, hx, h2⟩)
      · exact hr'.2 (.inl (hr.2.2 (.inl h2)))
      · rcases List.mem_cons.1 hx with rfl | hx
        · exact hr'.2 (.inl (hr.2.2 (.inr h2)))
        · exact hr'.2 (.inr ⟨x, hx, h2⟩)

/-- The coefficient in force. -/
def optVal (scalar : Option c.S) : F := (scalar.map L.sv).getD 1

theorem timesOpt (scalar : Option c.S) (s : c.S) :
    L.Ens (Api.timesOpt c scalar s) fun r => L.sv r = L.optVal scalar * L.sv s := by
  cases scalar with
  | none => exact L.pure (by simp [optVal])
  | some k => exact L.mono (L.mul k s) fun r hr => by rw [hr]; rfl

theorem optTimes (scalar : Option c.S) (s : c.S) :
    L.Ens (Api.optTimes c scalar s) fun r => L.sv r = L.optVal scalar * L.sv s := by
  cases scalar with
  | none => exact L.pure (by simp [optVal])
  | some k => exact L.mono (L.mul s k) fun r hr => by rw [hr, mul_comm]; rfl

theorem unwrap {α : Type} {o : Option α} {a : α} (h : o = some a) : L.Ens (Api.unwrap c o) fun r => r = a := by
  subst h
  exact L.pure rfl

/-- A single row under the empty key. -/
def Single (l : List (Entry c)) (k : F) : Prop := ∃ s, l = [("", none, some s)] ∧ L.sv s = k

theorem single_rows {l : List (Entry c)} {k : F} (h : L.Single l k) : L.Rows K l 0 k := by
  obtain ⟨s, rfl, hs⟩ := h
  refine ⟨by simp, ?_, by simp [rowP], by simp [rowS, coef, hs]⟩
  rintro e he
  rw [List.mem_singleton] at he
  subst he
  exact .inl ⟨rfl, rfl, s, rfl⟩

theorem only {l : List (Entry c)} {k : F} (h : L.Single l k) : L.Ens (Api.only c l) fun r => L.sv r = k := by
  obtain ⟨s, rfl, hs⟩ := h
  exact L.mono (L.unwrap rfl) fun r hr => by rw [hr]; exact hs

theorem rows_nil : L.Rows K [] 0 0 := ⟨by simp, by simp, by simp, by simp⟩

/-- `eval_prepare`. -/
theorem evalPrepare {one : c.S} (h1 : L.sv one = 1) : ∀ (s : Schema c.P c.S) (scalar : Option c.S), s.WF L.pv K →
    L.Ens (Api.evalPrepare c one s scalar) fun r =>
      L.Rows K r (L.optVal scalar • (s.sem K L.sv).1) (L.optVal scalar * (s.sem K L.sv).2) ∧
      (s.hasCommitment = false → L.Single r (L.optVal scalar * (s.sem K L.sv).2)) ∧
      (s.Scaled scalar.isSome → HasScaled r)
  | .commitment q, scalar, h => by
    obtain ⟨hk, p, hp, hpv⟩ := h
    refine L.bind (L.unwrap hp) fun r hr => L.pure ?_
    subst hr
    refine ⟨⟨by simp, ?_, ?_, ?_⟩, by simp [Schema.hasCommitment], ?_⟩
    · rintro e he
      rw [List.mem_singleton] at he
      subst he
      exact .inr ⟨hk, r, rfl, hpv⟩
    · simp [rowP, hk, coef, optVal, Schema.sem]
    · simp [rowS, hk, Schema.sem]
    · intro hs
      have hs : scalar.isSome = true := hs
      rw [Option.isSome_iff_exists] at hs
      exact ⟨(q.key, some r, scalar), by simp, ⟨r, rfl⟩, hs⟩
  | .eval q, scalar, h => by
    obtain ⟨a, ha⟩ := Option.isSome_iff_exists.1 (show q.eval.isSome = true from h)
    refine L.bind (L.unwrap ha) fun x hx => L.bind (L.timesOpt scalar x) fun y hy => L.pure ?_
    subst hx
    have hs : L.Single [("", none, some y)] (L.optVal scalar * ((Schema.eval q).sem K L.sv).2) :=
      ⟨y, rfl, by rw [hy]; simp [Schema.sem, ha]⟩
    refine ⟨?_, fun _ => hs, fun h => h.elim⟩
    simpa [Schema.sem] using L.single_rows hs
  | .scalar s, scalar, _ => by
    refine L.bind (L.optTimes scalar s) fun y hy => L.pure ?_
    have hs : L.Single [("", none, some y)] (L.optVal scalar * ((Schema.scalar s : Schema c.P c.S).sem K L.sv).2) := ⟨y, rfl, hy⟩
    refine ⟨?_, fun _ => hs, fun h => h.elim⟩
    simpa [Schema.sem] using L.single_rows hs
  | .add l lc r rc, scalar, h => by
    obtain ⟨hl, hr, rfl, rfl⟩ := h
    unfold Api.evalPrepare
    split
    · next hf =>
      simp only [Bool.and_eq_true, Bool.not_eq_true'] at hf
      refine L.bind (evalPrepare h1 l none hl) fun xl hxl => L.bind (evalPrepare h1 r none hr) fun xr hxr => ?_
      refine L.bind (L.only (hxl.2.1 hf.1)) fun a ha => L.bind (L.only (hxr.2.1 hf.2)) fun b hb => ?_
      refine L.bind (L.add a b) fun s hs => L.bind (L.timesOpt scalar s) fun y hy => L.pure ?_
      have hs' : L.Single [("", none, some y)]
          (L.optVal scalar * ((Schema.add l l.hasCommitment r r.hasCommitment).sem K L.sv).2) :=
        ⟨y, rfl, by rw [hy, hs, ha, hb]; simp [Schema.sem, optVal]⟩
      refine ⟨?_, fun _ => hs', fun h => ?_⟩
      · have := L.single_rows (K := K) hs'
        simpa [Schema.sem, Schema.sem_noCommitment hl hf.1, Schema.sem_noCommitment hr hf.2] using this
      · exact (Schema.not_scaled (a := .add l l.hasCommitment r r.hasCommitment) (pv := L.pv) (K := K) ⟨hl, hr, rfl, rfl⟩
          (show (l.hasCommitment || r.hasCommitment) = false by simp [hf]) _ h).elim
    · next hf =>
      refine L.bind (evalPrepare h1 l scalar hl) fun xl hxl => ?_
      refine L.bind (L.mergeAll h1 hxl.1.ok L.rows_nil) fun res hres => ?_
      refine L.bind (evalPrepare h1 r scalar hr) fun xr hxr => ?_
      refine L.mono (L.mergeAll h1 hxr.1.ok hres.1) fun res2 hres2 => ?_
      have hrows := hres2.1
      rw [hxl.1.group, hxl.1.scalar, hxr.1.group, hxr.1.scalar, zero_add, zero_add, ← smul_add, ← mul_add] at hrows
      refine ⟨hrows, fun h => ?_, fun h => ?_⟩
      · rw [show (Schema.add l l.hasCommitment r r.hasCommitment).hasCommitment = (l.hasCommitment || r.hasCommitment) from rfl,
          Bool.or_eq_false_iff] at h
        simp [h] at hf
      · rcases h with h | h
        · exact hres2.2 (.inl (hres.2 (.inr (hxl.2.2 h))))
        · exact hres2.2 (.inr (hxr.2.2 h))
  | .mul l lc r rc, scalar, h => by
    obtain ⟨hl, hr, rfl, rfl, hlr⟩ := h
    unfold Api.evalPrepare
    split
    · next hf =>
      simp only [Bool.not_eq_true'] at hf
      refine L.bind (evalPrepare h1 l none hl) fun xl hxl => ?_
      refine L.bind (L.only (hxl.2.1 hf)) fun a ha => L.bind (L.timesOpt scalar a) fun y hy => ?_
      refine L.mono (evalPrepare h1 r (some y) hr) fun res hres => ?_
      have hopt : L.optVal (some y) = L.optVal scalar * (l.sem K L.sv).2 := by
        have : L.optVal (some y) = L.sv y := rfl
        rw [this, hy, ha]
        simp [optVal]
      have hp : L.optVal (some y) • (r.sem K L.sv).1 =
          L.optVal scalar • ((Schema.mul l l.hasCommitment r r.hasCommitment).sem K L.sv).1 := by
        simp only [Schema.sem, Schema.sem_noCommitment hl hf, smul_zero, add_zero]
        rw [hopt, mul_smul]
      have hk : L.optVal (some y) * (r.sem K L.sv).2 =
          L.optVal scalar * ((Schema.mul l l.hasCommitment r r.hasCommitment).sem K L.sv).2 := by
        simp only [Schema.sem]
        rw [hopt, mul_assoc]
      rw [hp, hk] at hres
      refine ⟨hres.1, fun h => hres.2.1 ?_, fun h => ?_⟩
      · rw [show (Schema.mul l l.hasCommitment r r.hasCommitment).hasCommitment = (l.hasCommitment || r.hasCommitment) from rfl,
          Bool.or_eq_false_iff] at h
        exact h.2
      · rcases h with h | h
        · exact (Schema.not_scaled hl hf _ h).elim
        · exact hres.2.2 h
    · next hf =>
      simp only [Bool.not_eq_true', Bool.not_eq_false] at hf
      have hrf : r.hasCommitment = false := by simpa [hf] using hlr
      refine L.bind (evalPrepare h1 r none hr) fun xr hxr => ?_
      refine L.bind (L.only (hxr.2.1 hrf)) fun a ha => L.bind (L.timesOpt scalar a) fun y hy => ?_
      refine L.mono (evalPrepare h1 l (some y) hl) fun res hres => ?_
      have hopt : L.optVal (some y) = L.optVal scalar * (r.sem K L.sv).2 := by
        have : L.optVal (some y) = L.sv y := rfl
        rw [this, hy, ha]
        simp [optVal]
      have hp : L.optVal (some y) • (l.sem K L.sv).1 =
          L.optVal scalar • ((Schema.mul l l.hasCommitment r r.hasCommitment).sem K L.sv).1 := by
        simp only [Schema.sem, Schema.sem_noCommitment hr hrf, smul_zero, zero_add]
        rw [hopt, mul_smul]
      have hk : L.optVal (some y) * (l.sem K L.sv).2 =
          L.optVal scalar * ((Schema.mul l l.hasCommitment r r.hasCommitment).sem K L.sv).2 := by
        simp only [Schema.sem]
        rw [hopt]
        ring
      rw [hp, hk] at hres
      refine ⟨hres.1, fun h => ?_, fun h => ?_⟩
      · rw [show (Schema.mul l l.hasCommitment r r.hasCommitment).hasCommitment = (l.hasCommitment || r.hasCommitment) from rfl,
          hf] at h
        simp at h
      · rcases h with h | h
        · exact hres.2.2 h
        · exact (Schema.not_scaled hr hrf _ h).elim

theorem addAll : ∀ {l : List c.P} {Ps : List G} {acc : c.P} {A : G}, List.Forall₂ L.pv l Ps → L.pv acc A →
    L.Ens (Api.addAll c l acc) fun r => L.pv r (A + Ps.sum)
  | [], _, acc, A, .nil, h => L.pure (by simpa using h)
  | p :: l, _, acc, A, .cons (b := P) (l₂ := Ps) hp hl, h =>
    L.bind (L.pAdd h hp) fun r hr => L.mono (addAll hl hr) fun r' hr' => by
      rw [List.sum_cons, ← add_assoc]
      exact hr'

/-- The group elements of the rows without and with coefficient. -/
def plain (e : Entry c) : Option c.P := if e.2.2.isNone then e.2.1 else none
def scaled (e : Entry c) : Option (c.P × c.S) := e.2.1.bind fun p => e.2.2.map fun s => (p, s)

theorem split_rows : ∀ {l : List (Entry c)}, (∀ e ∈ l, L.RowOk K e) → ∃ A B : List G,
    List.Forall₂ L.pv (l.filterMap plain) A ∧ List.Forall₂ L.pv ((l.filterMap scaled).map Prod.fst) B ∧
      dot ((l.filterMap scaled).map fun x => L.sv x.2) B + A.sum = (l.map (L.rowP K)).sum
  | [], _ => ⟨[], [], .nil, .nil, by simp [dot]⟩
  | e :: l, h => by
    obtain ⟨A, B, hA, hB, hsum⟩ := split_rows (l := l) fun e he => h e (by simp [he])
    rcases h e (by simp) with ⟨h1, h2, s, h3⟩ | ⟨h1, p, h2, h3⟩
    · refine ⟨A, B, ?_, ?_, ?_⟩
      · simpa [plain, h2, h3] using hA
      · simpa [scaled, h2] using hB
      · rw [List.map_cons, List.sum_cons, rowP, if_pos h1, zero_add, ← hsum]
        simp [scaled, h2]
    · cases h4 : e.2.2 with
      | none =>
        refine ⟨K e.1 :: A, B, ?_, ?_, ?_⟩
        · rw [List.filterMap_cons_some (b := p) (by simp [plain, h4, h2])]
          exact .cons h3 hA
        · rw [List.filterMap_cons_none (by simp [scaled, h4])]
          exact hB
        · rw [List.filterMap_cons_none (by simp [scaled, h4]), List.map_cons (f := L.rowP K), List.sum_cons, List.sum_cons, rowP,
            if_neg h1, ← hsum]
          simp only [coef, h4, Option.map_none, Option.getD_none, one_smul]
          abel
      | some s =>
        refine ⟨A, K e.1 :: B, ?_, ?_, ?_⟩
        · rw [List.filterMap_cons_none (by simp [plain, h4])]
          exact hA
        · rw [List.filterMap_cons_some (b := (p, s)) (by simp [scaled, h4, h2])]
          exact .cons h3 hB
        · rw [List.filterMap_cons_some (b := (p, s)) (by simp [scaled, h4, h2]), List.map_cons (f := L.rowP K), List.sum_cons, rowP,
            if_neg h1, ← hsum]
          simp only [coef, h4, Option.map_some, Option.getD_some, dot, List.map_cons, List.zipWith_cons_cons, List.sum_cons]
          abel

theorem rowS_none {l : List (Entry c)} (h : ∀ e ∈ l, e.1 ≠ "") : (l.map L.rowS).sum = 0 := by
  rw [List.sum_eq_zero]
  intro x hx
  obtain ⟨e, he, rfl⟩ := List.mem_map.1 hx
  exact if_neg (h e he)

/-- The row under the empty key carries the whole scalar part. -/
theorem find_scalar : ∀ {l : List (Entry c)}, (l.map Prod.fst).Nodup → (∀ e ∈ l, L.RowOk K e) →
    (l.find? (fun b => b.1 = "") = none ∧ (l.map L.rowS).sum = 0) ∨
    ∃ b s, l.find? (fun b => b.1 = "") = some b ∧ b.2.2 = some s ∧ L.sv s = (l.map L.rowS).sum
  | [], _, _ => .inl ⟨rfl, rfl⟩
  | e :: l, hn, h => by
    rw [List.map_cons, List.nodup_cons] at hn
    by_cases he : e.1 = ""
    · rcases h e (by simp) with ⟨-, -, s, hs⟩ | ⟨h1, -⟩
      · refine .inr ⟨e, s, by simp [he], hs, ?_⟩
        rw [List.map_cons, List.sum_cons, L.rowS_none, rowS, if_pos he, add_zero, coef, hs]
        · rfl
        · intro x hx hx0
          exact hn.1 (by rw [he, ← hx0]; exact List.mem_map_of_mem hx)
      · exact absurd he h1
    · rw [List.find?_cons_of_neg (by simp [he]), List.map_cons, List.sum_cons, rowS, if_neg he, zero_add]
      exact find_scalar hn.2 fun e he => h e (by simp [he])

/-- `eval`. -/
theorem evalSchema {one : c.S} (h1 : L.sv one = 1) {s : Schema c.P c.S} (h : s.WF L.pv K) (hs : s.Scaled false) :
    L.Ens (Api.evalSchema c one s) fun r => L.pv r.1 (s.sem K L.sv).1 ∧ (r.2.1.map L.sv).getD 0 = (s.sem K L.sv).2 ∧
      r.2.2.Nodup := by
  refine L.bind (L.evalPrepare h1 s none h) fun l hl => ?_
  obtain ⟨hrows, -, hsc⟩ := hl
  simp only [optVal, Option.map_none, Option.getD_none, one_smul, one_mul] at hrows
  refine L.bind (Q := fun (o : Option c.S) => (o.map L.sv).getD 0 = (s.sem K L.sv).2) ?_ fun o ho => ?_
  · rcases L.find_scalar hrows.nodup hrows.ok with ⟨h2, h3⟩ | ⟨b, k, h2, h3, h4⟩
    · rw [h2]
      exact L.pure (by rw [← hrows.scalar, h3]; rfl)
    · rw [h2]
      refine L.bind (L.unwrap h3) fun v hv => L.pure ?_
      rw [hv, ← hrows.scalar, ← h4]
      rfl
  · obtain ⟨A, B, hA, hB, hsum⟩ := L.split_rows hrows.ok
    have hne : ((l.filterMap scaled).map Prod.fst) ≠ [] := by
      obtain ⟨e, he, ⟨p, hp⟩, k, hk⟩ := hsc hs
      intro h0
      rw [List.map_eq_nil_iff, List.filterMap_eq_nil_iff] at h0
      have := h0 e he
      simp [scaled, hp, hk] at this
    refine L.bind (L.multiExp (ss := (l.filterMap scaled).map Prod.snd) hB (by rw [List.length_map, List.length_map]; rfl) hne) fun acc hacc => ?_
    refine L.bind (L.addAll hA hacc) fun acc2 hacc2 => L.pure ⟨?_, ho, hrows.nodup⟩
    rw [← hrows.group, ← hsum]
    rw [List.map_map] at hacc2
    exact hacc2

end Logic

end Verif.Api
