import Verif.Api.Chip

/-!
# The mock chip

`halo2-snark-aggregator-api/src/mock/arith/{field,ecc}.rs`: assigned values are the values themselves. `none` is a panic. It is the
native verifier: with total correctness as its logic, every theorem about the generic code becomes "does not panic and returns the
right value".
-/

namespace Verif.Api

variable {F G : Type} [Field F] [AddCommGroup G] [Module F G]

/-- mock/arith/ecc.rs lines 106-129 (the same loop as the trait's default, arith/ecc.rs lines 42-60): `None` at the start,
`unwrap` at the end. -/
def mockMultiExp (acc : Option G) : List G → List F → Option G
  | p :: ps, s :: ss => mockMultiExp (some (match acc with | none => s • p | some a => a + s • p)) ps ss
  | _, _ => acc

/-- mock/arith/field.rs lines 124-135. -/
def mockSum (acc : F) : List (F × F) → F
  | [] => acc
  | (x, k) :: l => mockSum (acc + x * k) l

/-- mock/arith/field.rs lines 33-146, mock/arith/ecc.rs lines 24-130. `gen` is `C::CurveExt::generator()`. -/
noncomputable def mock (F : Type) [Field F] {G : Type} [AddCommGroup G] [Module F G] (gen : G) : Chip F G where
  m := Option
  monad := inferInstance
  S := F
  P := G
  panic := none
  add a b := some (a + b)
  sub a b := some (a - b)
  mul a b := some (a * b)
  div a b := open Classical in if b = 0 then none else some (a * b⁻¹)
  square a := some (a * a)
  sumWithCoeff l k := some (mockSum k l)
  mulAddConstant a b k := some (a * b + k)
  assignZero := some 0
  assignOne := some 1
  assignConst k := some k
  assignVar k := some k
  toValue v := some v
  pAdd a b := some (a + b)
  pSub a b := some (a - b)
  pAssignZero := some 0
  pAssignOne := some gen
  pAssignConst P := some P
  pAssignVar P := some P
  normalize a := some a
  scalarMul s a := some (s • a)
  scalarMulConstant s P := some (s • P)
  multiExp ps ss := mockMultiExp none ps ss

theorem mockSum_eq : ∀ (l : List (F × F)) (acc : F), mockSum acc l = acc + (l.map fun p => p.2 * p.1).sum
  | [], acc => by simp [mockSum]
  | (x, k) :: l, acc => by
    rw [mockSum, mockSum_eq l]
    simp only [List.map_cons, List.sum_cons]
    ring

theorem mockMultiExp_some : ∀ (ps : List G) (ss : List F) (a : G), mockMultiExp (some a) ps ss = some (a + dot ss ps)
  | [], ss, a => by cases ss <;> simp [mockMultiExp, dot]
  | p :: ps, [], a => by simp [mockMultiExp, dot]
  | p :: ps, s :: ss, a => by
    rw [mockMultiExp, mockMultiExp_some ps ss]
    simp [dot, add_assoc]

theorem mockMultiExp_none {p : G} {ps : List G} {s : F} {ss : List F} :
    mockMultiExp none (p :: ps) (s :: ss) = some (dot (s :: ss) (p :: ps)) := by
  rw [mockMultiExp, mockMultiExp_some]
  simp [dot]

theorem mock_div (gen : G) (a b : F) (h : b ≠ 0) : ∃ r, (mock F gen).div a b = some r ∧ r = a / b :=
  ⟨a * b⁻¹, by simp only [mock, if_neg h], (div_eq_mul_inv a b).symm⟩

theorem mock_multiExp (gen : G) {ps Ps : List G} {ss : List F} (h : List.Forall₂ (fun p P => p = P) ps Ps)
    (hl : ps.length = ss.length) (hne : ps ≠ []) :
    ∃ r, (mock F gen).multiExp ps ss = some r ∧ r = dot (ss.map id) Ps := by
  have : ps = Ps := List.forall₂_eq_eq_eq ▸ h
  subst this
  match ps, ss with
  | [], _ => exact absurd rfl hne
  | p :: ps, [] => simp at hl
  | p :: ps, s :: ss => exact ⟨_, mockMultiExp_none, by rw [List.map_id]⟩

/-- Total correctness of the mock chip. -/
noncomputable def mockLogic (F : Type) [Field F] {G : Type} [AddCommGroup G] [Module F G] (gen : G) : Logic (mock F gen) gen where
  Ens x post := ∃ r, x = some r ∧ post r
  sv := id
  pv p P := p = P
  known := fun (s : F) (k : F) => s = k
  wit := fun (s : F) (k : F) => s = k
  pwit p P := p = P
  pure h := ⟨_, rfl, h⟩
  bind := by
    rintro α β x f Q R ⟨a, rfl, ha⟩ hf
    obtain ⟨r, h1, h2⟩ := hf a ha
    exact ⟨r, h1, h2⟩
  mono := fun ⟨r, h1, h2⟩ h => ⟨r, h1, h r h2⟩
  all := fun {α ι} hι x Q h => by
    obtain ⟨r, h1, -⟩ := h hι.some
    refine ⟨r, h1, fun i => ?_⟩
    obtain ⟨r', h2, h3⟩ := h i
    have e : some r = some r' := h1.symm.trans h2
    rw [Option.some.injEq] at e
    exact e ▸ h3
  add a b := ⟨_, rfl, rfl⟩
  sub a b := ⟨_, rfl, rfl⟩
  mul a b := ⟨_, rfl, rfl⟩
  div := fun (a b : F) (h : b ≠ 0) => mock_div gen a b h
  square a := ⟨_, rfl, rfl⟩
  sumWithCoeff := fun (l : List (F × F)) (k : F) => ⟨_, rfl, mockSum_eq l k⟩
  mulAddConstant a b k := ⟨_, rfl, rfl⟩
  assignZero := ⟨_, rfl, rfl⟩
  assignOne := ⟨_, rfl, rfl⟩
  assignConst k := ⟨_, rfl, rfl⟩
  known_sv h := h
  toValue h := ⟨_, rfl, h⟩
  assignVar k := ⟨_, rfl, rfl⟩
  pAdd := by rintro a b P Q rfl rfl; exact ⟨_, rfl, rfl⟩
  pSub := by rintro a b P Q rfl rfl; exact ⟨_, rfl, rfl⟩
  pAssignZero := ⟨_, rfl, rfl⟩
  pAssignOne := ⟨_, rfl, rfl⟩
  pAssignConst P := ⟨_, rfl, rfl⟩
  pAssignVar P := ⟨_, rfl, rfl⟩
  normalize := by rintro a P rfl; exact ⟨_, rfl, rfl⟩
  scalarMul := by rintro s a P rfl; exact ⟨_, rfl, rfl⟩
  scalarMulConstant s P := ⟨_, rfl, rfl⟩
  multiExp := fun h hl hne => mock_multiExp gen h hl hne

theorem of_total {α : Type} {x : Option α} {post : α → Prop} (h : ∃ r, x = some r ∧ post r) : ∀ r, x = some r → post r := by
  obtain ⟨r, h1, h2⟩ := h
  intro r' h'
  rw [h1, Option.some.injEq] at h'
  exact h' ▸ h2

/-- Partial correctness of the mock chip: if the call returns, the result is right. -/
noncomputable def mockPartial (F : Type) [Field F] {G : Type} [AddCommGroup G] [Module F G] (gen : G) : Logic (mock F gen) gen where
  Ens := fun {α} (x : Option α) post => ∀ r, x = some r → post r
  sv := id
  pv p P := p = P
  known := fun (s : F) (k : F) => s = k
  wit := fun (s : F) (k : F) => s = k
  pwit p P := p = P
  pure h := of_total ⟨_, rfl, h⟩
  bind := fun {α β} (x : Option α) f Q R hx hf r hr => by
    obtain ⟨a, h1, h2⟩ := Option.bind_eq_some_iff.1 hr
    exact hf a (hx a h1) r h2
  mono := fun h1 h2 r hr => h2 r (h1 r hr)
  all h := fun r hr i => h i r hr
  add a b := of_total ((mockLogic F gen).add a b)
  sub a b := of_total ((mockLogic F gen).sub a b)
  mul a b := of_total ((mockLogic F gen).mul a b)
  div a b h := of_total ((mockLogic F gen).div a b h)
  square a := of_total ((mockLogic F gen).square a)
  sumWithCoeff l k := of_total ((mockLogic F gen).sumWithCoeff l k)
  mulAddConstant a b k := of_total ((mockLogic F gen).mulAddConstant a b k)
  assignZero := of_total (mockLogic F gen).assignZero
  assignOne := of_total (mockLogic F gen).assignOne
  assignConst k := of_total ((mockLogic F gen).assignConst k)
  known_sv h := h
  toValue h := of_total ((mockLogic F gen).toValue h)
  assignVar k := of_total ((mockLogic F gen).assignVar k)
  pAdd h1 h2 := of_total ((mockLogic F gen).pAdd h1 h2)
  pSub h1 h2 := of_total ((mockLogic F gen).pSub h1 h2)
  pAssignZero := of_total (mockLogic F gen).pAssignZero
  pAssignOne := of_total (mockLogic F gen).pAssignOne
  pAssignConst P := of_total ((mockLogic F gen).pAssignConst P)
  pAssignVar P := of_total ((mockLogic F gen).pAssignVar P)
  normalize h := of_total ((mockLogic F gen).normalize h)
  scalarMul s _ _ h := of_total ((mockLogic F gen).scalarMul s h)
  scalarMulConstant s P := of_total ((mockLogic F gen).scalarMulConstant s P)
  multiExp := fun h hl hne => of_total ((mockLogic F gen).multiExp h hl hne)

end Verif.Api
