import Verif.Api.LinkRead

/-!
# The native verifier with checks

The chips that the code generator and the contract compute with do not have all points: the generator unwraps the coordinates of the
sample points, and `ecc_sub` of the contract fails when the identity is subtracted. `checked` is the mock chip with such checks: `res` of
the results of point operations, `arg` of the point that is subtracted. Without checks it is the mock chip (`checked_eq_mock`), and
where it returns, the mock chip returns the same (`Checked.link`).

Division takes the inverse from a function `inv` and tests it; so the chip can be run on examples.
-/

namespace Verif.Api

variable {F G G' : Type} [Field F] [AddCommGroup G] [Module F G] [AddCommGroup G'] [Module F G']

def keep (res : G → Bool) (P : G) : Option G := if res P then some P else none

/-- `mockMultiExp` with each step checked. -/
def checkedMultiExp (res : G → Bool) : Option G → List G → List F → Option G
  | acc, p :: ps, s :: ss =>
    (keep res (s • p)).bind fun cur =>
      match acc with
      | none => checkedMultiExp res (some cur) ps ss
      | some a => (keep res (a + cur)).bind fun a => checkedMultiExp res (some a) ps ss
  | acc, _, _ => acc

/-- `mock` with checks. -/
def checked (F : Type) [Field F] [DecidableEq F] {G : Type} [AddCommGroup G] [Module F G] (gen : G) (inv : F → F) (res arg : G → Bool) : Chip F G where
  m := Option
  monad := inferInstance
  S := F
  P := G
  panic := none
  add a b := some (a + b)
  sub a b := some (a - b)
  mul a b := some (a * b)
  div a b := if b * inv b = 1 then some (a * inv b) else none
  square a := some (a * a)
  sumWithCoeff l k := some (mockSum k l)
  mulAddConstant a b k := some (a * b + k)
  assignZero := some 0
  assignOne := some 1
  assignConst k := some k
  assignVar k := some k
  toValue v := some v
  pAdd a b := keep res (a + b)
  pSub a b := if arg b then keep res (a - b) else none
  pAssignZero := some 0
  pAssignOne := some gen
  pAssignConst P := some P
  pAssignVar P := some P
  normalize a := some a
  scalarMul s a := keep res (s • a)
  scalarMulConstant s P := keep res (s • P)
  multiExp ps ss := checkedMultiExp res none ps ss

theorem keep_some {res : G → Bool} {P Q : G} (h : keep res P = some Q) : Q = P ∧ res P = true := by
  unfold keep at h
  split at h
  · next e => exact ⟨(Option.some.inj h).symm, e⟩
  · cases h

theorem keep_of {res : G → Bool} {P : G} (h : res P = true) : keep res P = some P := if_pos h

theorem checkedMultiExp_true : ∀ (ps : List G) (ss : List F) (acc : Option G), checkedMultiExp (fun _ => true) acc ps ss = mockMultiExp acc ps ss
  | [], ss, acc => by cases ss <;> rfl
  | p :: ps, [], acc => rfl
  | p :: ps, s :: ss, acc => by
    cases acc with
    | none => exact checkedMultiExp_true ps ss _
    | some a => exact checkedMultiExp_true ps ss _

/-- Without checks it is the mock chip. -/
theorem checked_eq_mock [DecidableEq F] (gen : G) : checked F gen (fun x => x⁻¹) (fun _ => true) (fun _ => true) = mock F gen := by
  unfold checked mock
  congr 1
  · funext a b
    by_cases h : b = 0
    · rw [if_pos h, h, zero_mul, if_neg zero_ne_one]
    · rw [if_neg h, mul_inv_cancel₀ h, if_pos rfl]
  · funext ps ss
    exact checkedMultiExp_true ps ss none

/-! ### Where it returns, the one with fewer checks returns the same -/

namespace Checked
variable [DecidableEq F] {gen : G} {gen' : G'} {inv inv' : F → F} {res arg : G → Bool} {res' arg' : G' → Bool}

def R {α α' : Type} (x : Option α) (x' : Option α') (Q : α → α' → Prop) : Prop := ∀ a, x = some a → ∃ a', x' = some a' ∧ Q a a'

theorem R.some {α α' : Type} {a : α} {a' : α'} {Q : α → α' → Prop} (h : Q a a') : R (.some a) (.some a') Q := fun _ e => by
  cases e
  exact ⟨a', rfl, h⟩

theorem R.bind {α α' β β' : Type} {x : Option α} {x' : Option α'} {f : α → Option β} {f' : α' → Option β'} {Q : α → α' → Prop} {S : β → β' → Prop}
    (hx : R x x' Q) (h : ∀ a a', Q a a' → R (f a) (f' a') S) : R (x.bind f) (x'.bind f') S := fun b e => by
  obtain ⟨a, h1, h2⟩ := Option.bind_eq_some_iff.1 e
  obtain ⟨a', h3, h4⟩ := hx a h1
  obtain ⟨b', h5, h6⟩ := h a a' h4 b h2
  exact ⟨b', by rw [h3]; exact h5, h6⟩

variable (φ : G →ₗ[F] G')

theorem R.keep (hres : ∀ P, res P = true → res' (φ P) = true) {P : G} {P' : G'} (h : P' = φ P) :
    R (Api.keep res P) (Api.keep res' P') fun a a' => a' = φ a := fun a e => by
  obtain ⟨rfl, h1⟩ := keep_some e
  subst h
  exact ⟨_, keep_of (hres _ h1), rfl⟩

theorem R.multiExp (hres : ∀ P, res P = true → res' (φ P) = true) : ∀ {ps : List G} {ss : List F} {acc : Option G},
    R (checkedMultiExp res acc ps ss) (checkedMultiExp res' (acc.map φ) (ps.map φ) ss) fun a a' => a' = φ a
  | [], ss, acc => by
    intro a e
    have : acc = Option.some a := by cases ss <;> exact e
    subst this
    exact ⟨_, by cases ss <;> rfl, rfl⟩
  | p :: ps, [], acc => by
    intro a e
    have : acc = Option.some a := e
    subst this
    exact ⟨_, rfl, rfl⟩
  | p :: ps, s :: ss, acc => by
    refine R.bind (R.keep φ hres (map_smul φ s p).symm) fun cur cur' hc => ?_
    subst hc
    cases acc with
    | none => exact R.multiExp hres (acc := Option.some cur)
    | some a =>
      refine R.bind (R.keep φ hres (map_add φ a cur).symm) fun r r' hr => ?_
      subst hr
      exact R.multiExp hres (acc := Option.some r)

theorem R.div (hinv : ∀ b, b * inv b = 1 → b * inv' b = 1) (a b : F) :
    R ((checked F gen inv res arg).div a b) ((checked F gen' inv' res' arg').div a b) fun (r r' : F) => r' = r := fun r hr => by
  change (if b * inv b = 1 then Option.some (a * inv b) else none) = _ at hr
  split at hr
  · next e =>
    have e' := hinv _ e
    refine ⟨a * inv' b, if_pos e', ?_⟩
    rw [← Option.some.inj hr, eq_inv_of_mul_eq_one_right e, eq_inv_of_mul_eq_one_right e']
  · cases hr

theorem R.sub (hres : ∀ P, res P = true → res' (φ P) = true) (harg : ∀ P, arg P = true → arg' (φ P) = true) (a b : G) :
    R ((checked F gen inv res arg).pSub a b) ((checked F gen' inv' res' arg').pSub (φ a) (φ b)) fun (r : G) (r' : G') => r' = φ r := fun r hr => by
  change (if arg b then Api.keep res (a - b) else none) = _ at hr
  split at hr
  · next e =>
    obtain ⟨r', h1, h2⟩ := R.keep φ hres (map_sub φ a b).symm r hr
    exact ⟨r', (if_pos (harg _ e)).trans h1, h2⟩
  · cases hr

theorem map_of {A B : Type} {f : A → B} {l : List A} {l' : List B} (h : List.Forall₂ (fun a a' => a' = f a) l l') : l' = l.map f := by
  induction h with
  | nil => rfl
  | cons h _ ih => rw [ih, h, List.map_cons]

theorem eq_of {A : Type} {l l' : List A} (h : List.Forall₂ (fun a a' => a' = a) l l') : l' = l := by
  rw [map_of (f := id) h, List.map_id]

/-- The points are mapped by `φ`; what passes the checks of the first chip passes those of the second. -/
def link (hg : gen' = φ gen) (hinv : ∀ b, b * inv b = 1 → b * inv' b = 1) (hres : ∀ P, res P = true → res' (φ P) = true)
    (harg : ∀ P, arg P = true → arg' (φ P) = true) : Link (checked F gen inv res arg) (checked F gen' inv' res' arg') φ where
  W := Unit
  le _ _ := True
  refl _ := trivial
  trans _ _ := trivial
  R _ x x' Q := R x x' (Q ())
  s _ a a' := a' = a
  p _ a a' := a' = φ a
  n _ a a' := a' = φ a
  o _ a a' := a' = φ a
  known _ k a a' := a = k ∧ a' = k
  s_up _ h := h
  p_up _ h := h
  n_up _ h := h
  o_up _ h := h
  n_p h := h
  p_o h := h
  known_up _ h := h
  known_s h := h.2.trans h.1.symm
  pure h := R.some h
  bind hx h := R.bind hx fun a a' ha => h () a a' trivial ha
  mono hx h := fun a e => by
    obtain ⟨a', h1, h2⟩ := hx a e
    exact ⟨a', h1, h () a a' trivial h2⟩
  panic := fun a e => by cases e
  add := by rintro w a b a' b' rfl rfl; exact R.some rfl
  sub := by rintro w a b a' b' rfl rfl; exact R.some rfl
  mul := by rintro w a b a' b' rfl rfl; exact R.some rfl
  div := by rintro w a b a' b' rfl rfl; exact R.div hinv _ _
  square := by rintro w a a' rfl; exact R.some rfl
  sumWithCoeff h := by
    have := eq_of (h.imp fun (a b : F × F) h => (Prod.ext h.1 h.2.symm : b = a))
    subst this
    exact R.some rfl
  assignZero := R.some rfl
  assignOne := R.some rfl
  assignConst k := R.some ⟨rfl, rfl⟩
  toValue h := R.some (h.1.trans h.2.symm)
  pAdd := by
    intro w (a : G) (b : G) a' b' h1 h2
    subst h1
    subst h2
    exact R.keep φ hres (map_add φ a b).symm
  pSub := by rintro w a b a' b' rfl rfl; exact R.sub φ hres harg _ _
  pAssignOne := R.some hg
  pAssignConst P := R.some rfl
  normalize h := R.some h
  scalarMul := by
    intro w (k : F) k' (a : G) a' h1 h2
    subst h1
    subst h2
    exact R.keep φ hres (map_smul φ _ a).symm
  scalarMulConstant := by
    intro w (k : F) k' (P : G) h1
    subst h1
    exact R.keep φ hres (map_smul φ _ P).symm
  multiExp hp hs := by
    have e1 := map_of hp
    have e2 := eq_of hs
    subst e1
    subst e2
    exact R.multiExp φ hres (acc := none)

end Checked
end Verif.Api
