import Verif.Api.LinkPoseidon
import Verif.Top.TinyContract
import Verif.Ecc.SmallMultiples

/-!
# The generator with field elements for the points

To see what the generator records for a key and a sample, it is run with field elements for the points, where it can be evaluated. The coordinates of the
points the transcript gets are not known then; they have no effect on what is recorded.
-/

namespace Verif.Top.Tally
open Verif.Circuit Verif.Ecc Verif.Api Verif.Sol
open TinyContract (inv toCurve toCurve_apply toCurve_ne digest squeezed)

/-! ### Both record the same -/

/-- If the first returns, so does the second, with the same context. -/
def R {α α' : Type} (x : Gen α) (x' : Gen α') (Q : α → α' → Prop) : Prop := ∀ k a k1, x.1 k = some (a, k1) → ∃ a', x'.1 k = some (a', k1) ∧ Q a a'

theorem R.pure {α α' : Type} {a : α} {a' : α'} {Q : α → α' → Prop} (h : Q a a') : R (Pure.pure a) (Pure.pure a') Q := fun k b k1 e => by
  cases e
  exact ⟨a', rfl, h⟩

theorem R.bind {α α' β β' : Type} {x : Gen α} {x' : Gen α'} {f : α → Gen β} {f' : α' → Gen β'} {Q : α → α' → Prop} {S : β → β' → Prop}
    (hx : R x x' Q) (h : ∀ a a', Q a a' → R (f a) (f' a') S) : R (x >>= f) (x' >>= f') S := fun k b k2 e => by
  obtain ⟨r, h1, h2⟩ := Option.bind_eq_some_iff.1 (show (x.1 k).bind (fun r => (f r.1).1 r.2) = some (b, k2) from e)
  obtain ⟨a', h3, h4⟩ := hx k r.1 r.2 h1
  obtain ⟨b', h5, h6⟩ := h _ _ h4 _ _ _ h2
  refine ⟨b', ?_, h6⟩
  show (x'.1 k).bind _ = _
  rw [h3]
  exact h5

theorem R.mono {α α' : Type} {x : Gen α} {x' : Gen α'} {Q S : α → α' → Prop} (hx : R x x' Q) (h : ∀ a a', Q a a' → S a a') : R x x' S := fun k a k1 e => by
  obtain ⟨a', h1, h2⟩ := hx k a k1 e
  exact ⟨a', h1, h a a' h2⟩

theorem R.fail {α α' : Type} {x' : Gen α'} {Q : α → α' → Prop} : R (Gen.fail : Gen α) x' Q := fun k a k1 e => by cases e

theorem R.same {α : Type} (x : Gen α) : R x x Eq := fun k a k1 e => ⟨a, e, rfl⟩

/-! ### The simulated hash -/

/-- The same expression, and the same value where it is a constant. -/
def Weak (a a' : SVal) : Prop := a'.expr = a.expr ∧ a'.isConst = a.isConst ∧ (a.isConst = true → a'.v = a.v)

theorem Weak.refl (a : SVal) : Weak a a := ⟨rfl, rfl, fun _ => rfl⟩

theorem weak_scalar {e e' : Sol.Expr} (h : e' = e) (v v' : N) : R (Gen.scalar e v) (Gen.scalar e' v') Weak := by
  subst h
  exact .bind (.same _) fun o o' ho => .pure ⟨by rw [← ho], rfl, nofun⟩

theorem R.ite {α α' : Type} {c c' : Prop} [Decidable c] [Decidable c'] {x y : Gen α} {x' y' : Gen α'} {Q : α → α' → Prop} (hc : c' ↔ c) (h1 : c → R x x' Q)
    (h2 : ¬ c → R y y' Q) : R (if c then x else y) (if c' then x' else y') Q := by
  by_cases h : c
  · rw [if_pos h, if_pos (hc.2 h)]
    exact h1 h
  · rw [if_neg h, if_neg fun h' => h (hc.1 h')]
    exact h2 h

theorem Weak.is {a a' : SVal} (h : Weak a a') (k : N) : a'.isConst = true ∧ a'.v = k ↔ a.isConst = true ∧ a.v = k := by
  rw [h.2.1]
  exact and_congr_right fun hc => by rw [h.2.2 hc]

theorem Weak.both {a b a' b' : SVal} (ha : Weak a a') (hb : Weak b b') : a'.isConst = true ∧ b'.isConst = true ↔ a.isConst = true ∧ b.isConst = true := by
  rw [ha.2.1, hb.2.1]

theorem weak_const {v v' : N} (h : v' = v) : R (return SVal.const v) (return SVal.const v') Weak := .pure (by rw [h]; exact .refl _)

theorem weak_add {a b a' b' : SVal} (ha : Weak a a') (hb : Weak b b') : R (a.add b) (a'.add b') Weak :=
  .ite (ha.both hb) (fun h => weak_const (by rw [ha.2.2 h.1, hb.2.2 h.2])) fun _ => .ite (ha.is 0) (fun _ => .pure hb) fun _ => .ite (hb.is 0) (fun _ => .pure ha) fun _ =>
    weak_scalar (by rw [ha.1, hb.1]) _ _

theorem weak_sub {a b a' b' : SVal} (ha : Weak a a') (hb : Weak b b') : R (a.sub b) (a'.sub b') Weak :=
  .ite (ha.both hb) (fun h => weak_const (by rw [ha.2.2 h.1, hb.2.2 h.2])) fun _ => .ite (hb.is 0) (fun _ => .pure ha) fun _ => weak_scalar (by rw [ha.1, hb.1]) _ _

theorem weak_mul {a b a' b' : SVal} (ha : Weak a a') (hb : Weak b b') : R (a.mul b) (a'.mul b') Weak :=
  .ite (ha.both hb) (fun h => weak_const (by rw [ha.2.2 h.1, hb.2.2 h.2])) fun _ => .ite (ha.is 1) (fun _ => .pure hb) fun _ => .ite (hb.is 1) (fun _ => .pure ha) fun _ =>
    weak_scalar (by rw [ha.1, hb.1]) _ _

theorem weak_square {a a' : SVal} (ha : Weak a a') : R a.square a'.square Weak := by
  obtain ⟨a1, a2, a3⟩ := ha
  unfold SVal.square
  rw [a2]
  split
  · next ca =>
    rw [a3 ca]
    exact .pure (.refl _)
  · exact weak_scalar (by rw [a1]) _ _

theorem weak_sum {l l' : List (SVal × N)} (h : List.Forall₂ (fun x x' => Weak x.1 x'.1 ∧ x.2 = x'.2) l l') : ∀ {acc acc' : SVal}, Weak acc acc' →
    R (SVal.sumLoop l acc) (SVal.sumLoop l' acc') Weak := by
  induction h with
  | nil => exact fun ha => .pure ha
  | @cons x x' l l' hx _ ih =>
    intro acc acc' ha
    obtain ⟨x, k⟩ := x
    obtain ⟨x', k'⟩ := x'
    obtain ⟨hx, rfl⟩ : Weak x x' ∧ k = k' := hx
    exact .bind (weak_mul hx (.refl _)) fun m m' hm => .bind (weak_add ha hm) fun r r' hr => ih hr

/-- The scalars of the generator, without division. -/
noncomputable def scalars : Chip N Pt where
  m := Gen
  monad := inferInstance
  S := SVal
  P := PVal
  panic := Gen.fail
  add := SVal.add
  sub := SVal.sub
  mul := SVal.mul
  div _ _ := Gen.fail
  square := SVal.square
  sumWithCoeff l k := SVal.sumLoop l (.const k)
  mulAddConstant a b k := return a.mulAddConstant b k
  assignZero := return .const 0
  assignOne := return .const 1
  assignConst k := return .const k
  assignVar := Gen.scalarVar
  toValue s := return s.v
  pAdd _ _ := Gen.fail
  pSub _ _ := Gen.fail
  pAssignZero := Gen.fail
  pAssignOne := Gen.fail
  pAssignConst _ := Gen.fail
  pAssignVar _ := Gen.fail
  normalize _ := Gen.fail
  scalarMul _ _ := Gen.fail
  scalarMulConstant _ _ := Gen.fail
  multiExp _ _ := Gen.fail

noncomputable def weakLink : Link scalars genChip (id : Pt → Pt) where
  W := Unit
  le _ _ := True
  refl _ := trivial
  trans _ _ := trivial
  R _ x x' Q := R x x' (Q ())
  s _ a a' := Weak a a'
  p _ _ _ := True
  n _ _ _ := True
  o _ _ _ := True
  known _ k a a' := a = .const k ∧ a' = .const k
  s_up _ h := h
  p_up _ h := h
  n_up _ h := h
  o_up _ h := h
  n_p h := h
  p_o h := h
  known_up _ h := h
  known_s h := by
    rw [h.1, h.2]
    exact .refl _
  pure h := R.pure h
  bind hx h := R.bind hx fun a a' ha => h () a a' trivial ha
  mono hx h := R.mono hx fun a a' ha => h () a a' trivial ha
  panic := R.fail
  add := weak_add
  sub := weak_sub
  mul := weak_mul
  div _ _ := R.fail
  square := weak_square
  sumWithCoeff h := weak_sum h (.refl _)
  assignZero := R.pure (.refl _)
  assignOne := R.pure (.refl _)
  assignConst k := R.pure ⟨rfl, rfl⟩
  toValue h := R.pure (by rw [h.1, h.2])
  pAdd _ _ := R.fail
  pSub _ _ := R.fail
  pAssignOne := R.fail
  pAssignConst _ := R.fail
  normalize _ := R.fail
  scalarMul _ _ := R.fail
  scalarMulConstant _ _ := R.fail
  multiExp _ _ := R.fail

theorem weak_mulAdd : weakLink.MulAdd := fun k ha hb => R.pure ⟨by simp only [SVal.mulAddConstant, ha.1, hb.1], rfl, nofun⟩

/-- Sponges whose words are the same but for the values that are not constants. -/
def WeakSponge {rate : ℕ} (st st' : Api.Sponge SVal rate) : Prop := (∀ i, Weak (st.s i) (st'.s i)) ∧ List.Forall₂ Weak st.absorbing st'.absorbing

theorem WeakSponge.refl {rate : ℕ} (st : Api.Sponge SVal rate) : WeakSponge st st := ⟨fun _ => .refl _, List.forall₂_same.2 fun _ _ => .refl _⟩

theorem WeakSponge.update {rate : ℕ} {st st' : Api.Sponge SVal rate} (h : WeakSponge st st') {l l' : List SVal} (hl : List.Forall₂ Weak l l') :
    WeakSponge (Api.Sponge.update (c := genChip) st l) (Api.Sponge.update (c := genChip) st' l') := ⟨h.1, List.rel_append h.2 hl⟩

/-! The sponge does not use division or points. -/

section
variable {rate : ℕ}

/-- Both do the same. -/
def Same {α : Type} (x y : Gen α) : Prop := x = y

theorem Same.rfl {α : Type} {x : Gen α} : Same x x := Eq.refl x

theorem Same.bind {α β : Type} {x y : Gen α} {f g : α → Gen β} (h : Same x y) (hf : ∀ a, Same (f a) (g a)) : Same (x >>= f) (y >>= g) := by
  obtain rfl : f = g := funext hf
  obtain rfl : x = y := h
  exact .rfl

theorem Same.ite {α : Type} {c : Prop} [Decidable c] {x y x' y' : Gen α} (h : Same x x') (h' : Same y y') : Same (if c then x else y) (if c then x' else y') := by
  obtain rfl : x = x' := h
  obtain rfl : y = y' := h'
  exact .rfl

theorem Same.tab {α : Type} : ∀ {n : ℕ} {f g : Fin n → Gen α}, (∀ i, Same (f i) (g i)) → Same (Api.tabM scalars f : Gen _) (Api.tabM genChip g : Gen _)
  | 0, _, _, _ => .rfl
  | _ + 1, _, _, h => .bind (h 0) fun _ => .bind (Same.tab fun i => h i.succ) fun _ => .rfl

theorem same_power (x : SVal) (k : N) : Same (Api.xPower5 scalars x k : Gen _) (Api.xPower5 genChip x k : Gen _) := .bind .rfl fun _ => .bind .rfl fun _ => .rfl

theorem same_sbox (ks : Fin (rate + 1) → N) (s : Fin (rate + 1) → SVal) : Same (Api.sboxFull scalars ks s : Gen _) (Api.sboxFull genChip ks s : Gen _) :=
  .tab fun _ => same_power _ _

theorem same_mds (m : Fin (rate + 1) → Fin (rate + 1) → N) (s : Fin (rate + 1) → SVal) : Same (Api.applyMds scalars m s : Gen _) (Api.applyMds genChip m s : Gen _) :=
  .tab fun _ => .rfl

theorem same_full (m : Fin (rate + 1) → Fin (rate + 1) → N) : ∀ (l : List (Fin (rate + 1) → N)) (s : Fin (rate + 1) → SVal),
    Same (Api.fullRounds scalars m l s : Gen _) (Api.fullRounds genChip m l s : Gen _)
  | [], _ => .rfl
  | k :: l, s => .bind (same_sbox k s) fun s => .bind (same_mds m s) fun s => same_full m l s

theorem same_partial : ∀ (l : List (N × ((Fin (rate + 1) → N) × (Fin rate → N)))) (s : Fin (rate + 1) → SVal),
    Same (Api.partialRounds scalars l s : Gen _) (Api.partialRounds genChip l s : Gen _)
  | [], _ => .rfl
  | (_, _) :: l, _ => .bind (.bind (same_power _ _) fun _ => .rfl) fun (s : Fin (rate + 1) → SVal) =>
      .bind (.bind .rfl fun _ => .bind (.tab fun _ => .rfl) fun _ => .rfl) fun s => same_partial l s

theorem word_some {c : Chip N Pt} {l : List c.S} {i : ℕ} {y : c.S} (h : l[i]? = some y) (x : c.S) (k : N) :
    Api.absorbWord c l i x k = Api.sumWithConstant c [x, y] k := by
  unfold Api.absorbWord
  rw [h]

theorem word_none {c : Chip N Pt} {l : List c.S} {i : ℕ} (h : l[i]? = none) (x : c.S) (k : N) :
    Api.absorbWord c l i x k = Api.sumWithConstant c [x] (if i = l.length then k + 1 else k) := by
  unfold Api.absorbWord
  rw [h]

theorem same_word (l : List SVal) (i : ℕ) (x : SVal) (k : N) : Same (Api.absorbWord scalars l i x k : Gen _) (Api.absorbWord genChip l i x k : Gen _) := by
  cases h : l[i]? with
  | none => exact (word_none (c := scalars) h x k).trans (word_none (c := genChip) h x k).symm
  | some y => exact (word_some (c := scalars) h x k).trans (word_some (c := genChip) h x k).symm

theorem same_absorb (l : List SVal) (ks : Fin (rate + 1) → N) (s : Fin (rate + 1) → SVal) :
    Same (Api.absorbPre scalars l ks s : Gen _) (Api.absorbPre genChip l ks s : Gen _) := by
  refine .ite (.bind .rfl fun _ => .bind (.tab fun i => same_word _ _ _ _) fun _ => .rfl) .rfl

theorem same_permutation (ps : PoseidonSpec N rate) (l : List SVal) (s : Fin (rate + 1) → SVal) :
    Same (Api.permutation scalars ps l s : Gen _) (Api.permutation genChip ps l s : Gen _) := by
  refine .bind ?_ fun _ => .bind (same_absorb _ _ _) fun _ => ?_
  · unfold Api.index
    split <;> exact .rfl
  have hu : Same (Api.unwrap scalars ps.start.getLast? : Gen _) (Api.unwrap genChip ps.start.getLast? : Gen _) := by
    unfold Api.unwrap
    split <;> exact .rfl
  dsimp only
  split <;>
  exact .bind .rfl fun _ => .bind (same_full _ _ _) fun _ => .bind hu fun _ => .bind (same_sbox _ _) fun _ => .bind (same_mds _ _) fun _ =>
      .bind (same_partial _ _) fun _ => .bind (same_full _ _ _) fun _ => .bind (same_sbox _ _) fun _ => same_mds _ _

theorem same_loop (ps : PoseidonSpec N rate) : ∀ (l : List (List SVal)) (off : ℕ) (s : Fin (rate + 1) → SVal),
    Same (Api.squeezeLoop scalars ps l off s : Gen _) (Api.squeezeLoop genChip ps l off s : Gen _)
  | [], _, _ => .rfl
  | _ :: l, _, _ => .bind (same_permutation _ _ _) fun _ => same_loop ps l _ _

theorem scalars_squeeze (ps : PoseidonSpec N rate) (st : Api.Sponge SVal rate) :
    Same (Api.spongeSqueeze scalars ps st : Gen _) (Api.spongeSqueeze genChip ps st : Gen _) := by
  refine .bind ?_ fun _ => .bind (same_loop _ _ _ _) fun r => .bind ?_ fun _ => .rfl
  · unfold Api.chunksM
    split <;> exact .rfl
  · unfold Api.squeezeEnd
    split
    · exact same_permutation _ _ _
    · exact .rfl

end

theorem weak_squeeze {rate : ℕ} (ps : PoseidonSpec N rate) {st st' : Api.Sponge SVal rate} (h : WeakSponge st st') :
    R (Api.spongeSqueeze genChip ps st : Gen _) (Api.spongeSqueeze genChip ps st' : Gen _) fun r r' => Weak r.1 r'.1 ∧ WeakSponge r.2 r'.2 := by
  rw [← show (Api.spongeSqueeze scalars ps st : Gen (SVal × Api.Sponge SVal rate)) = (Api.spongeSqueeze genChip ps st : Gen _) from scalars_squeeze ps st]
  exact Link.spongeSqueeze (X := weakLink) weak_mulAdd ps (w := ()) (st := st) (st' := st') h

/-! ### The points -/

/-- A multiple of the generator. -/
structure PNum where
  expr : Sol.Expr
  v : N
  isConst : Bool

/-- The literals that are needed are those of small multiples. -/
def literal (k : N) : Gen Sol.Expr :=
  if 1 ≤ k.val ∧ k.val ≤ 64 then return .point (Verif.Circuit.Small.coords k.val).1 (Verif.Circuit.Small.coords k.val).2 else Gen.fail

theorem literal_ok {k : N} {c : Ctx} {e : Sol.Expr} {c1 : Ctx} (h : (literal k).1 c = some (e, c1)) : e = pointExpr (toCurve k) ∧ c1 = c := by
  unfold literal at h
  split at h
  · next hk =>
    obtain ⟨rfl, rfl⟩ := Gen.pure_some h
    refine ⟨?_, rfl⟩
    have e : toCurve k = k.val • gen := by rw [toCurve_apply, ← Nat.cast_smul_eq_nsmul N, ZMod.natCast_zmod_val]
    obtain ⟨h1, h2⟩ := Verif.Circuit.Small.coords_eq hk.1 hk.2
    unfold pointExpr
    rw [e, h1, h2]
  · cases h

namespace PNum

def const (k : N) : Gen PNum := do
  let e ← literal k
  return ⟨e, k, true⟩

def computed (e : Sol.Expr) (v : N) : Gen PNum :=
  if v = 0 then Gen.fail
  else do
    let o ← Gen.assignMemory e
    return ⟨.memory o .point, v, false⟩

def add (a b : PNum) : Gen PNum := if a.isConst ∧ b.isConst then const (a.v + b.v) else computed (.add a.expr b.expr .point) (a.v + b.v)

def sub (a b : PNum) : Gen PNum := if a.isConst ∧ b.isConst then const (a.v - b.v) else computed (.sub a.expr b.expr .point) (a.v - b.v)

def mul (s : SVal) (a : PNum) : Gen PNum := if s.isConst ∧ a.isConst then const (s.v * a.v) else computed (.mul s.expr a.expr .point) (s.v * a.v)

def mulConstant (s : SVal) (k : N) : Gen PNum :=
  if s.isConst then const (s.v * k)
  else do
    let e ← literal k
    computed (.mul s.expr e .point) (s.v * k)

def multiExp : Option PNum → List PNum → List SVal → Gen PNum
  | acc, p :: ps, s :: ss => do
    let cur ← mul s p
    match acc with
    | none => multiExp (some cur) ps ss
    | some a => do
      let a ← a.add cur
      multiExp (some a) ps ss
  | some acc, _, _ => return acc
  | none, _, _ => Gen.fail

def var (k : N) : Gen PNum := do
  let e ← Gen.newVar .point
  return ⟨e, k, false⟩

end PNum

/-- `SVal.div` with another way to compute the inverse. -/
def div (a b : SVal) : Gen SVal :=
  if b.v = 0 then Gen.fail
  else if a.isConst ∧ b.isConst then return .const (a.v * inv b.v)
  else if b.isConst ∧ b.v = 1 then return a
  else Gen.scalar (.div a.expr b.expr .scalar) (a.v * inv b.v)

theorem inv_eq {a : N} (h : a ≠ 0) : inv a = a⁻¹ := by
  unfold inv
  rw [powMod_eq _ _ _ _ (by decide +kernel), ZMod.natCast_mod, Nat.cast_pow, ZMod.natCast_zmod_val]
  refine eq_inv_of_mul_eq_one_left ?_
  rw [← pow_succ, show frMod - 2 + 1 = frMod - 1 by decide +kernel]
  exact ZMod.pow_card_sub_one_eq_one h

theorem div_eq (a b : SVal) : div a b = a.div b := by
  unfold div SVal.div
  split
  · rfl
  · next h => rw [inv_eq h]

/-- The generator. -/
def tally : Chip N N where
  m := Gen
  monad := inferInstance
  S := SVal
  P := PNum
  panic := Gen.fail
  add := SVal.add
  sub := SVal.sub
  mul := SVal.mul
  div := div
  square := SVal.square
  sumWithCoeff l k := SVal.sumLoop l (.const k)
  mulAddConstant a b k := return a.mulAddConstant b k
  assignZero := return .const 0
  assignOne := return .const 1
  assignConst k := return .const k
  assignVar := Gen.scalarVar
  toValue s := return s.v
  pAdd := PNum.add
  pSub := PNum.sub
  pAssignZero := Gen.fail
  pAssignOne := PNum.const 1
  pAssignConst := PNum.const
  pAssignVar := PNum.var
  normalize a := return a
  scalarMul := PNum.mul
  scalarMulConstant := PNum.mulConstant
  multiExp := PNum.multiExp none

/-- The same expression, and the point of this number. -/
def P (a : PNum) (a' : PVal) : Prop := a'.expr = a.expr ∧ a'.v = toCurve a.v ∧ a'.isConst = a.isConst

theorem const_rel (k : N) {p : Pt} (h : p = toCurve k) : R (PNum.const k) (return PVal.const p) P := fun c a c1 e => by
  obtain ⟨x, c2, h1, h2⟩ := Gen.bind_some e
  obtain ⟨rfl, rfl⟩ := literal_ok h1
  obtain ⟨rfl, rfl⟩ := Gen.pure_some h2
  exact ⟨_, rfl, by rw [h]; rfl, h, rfl⟩

theorem computed_rel {e e' : Sol.Expr} (he : e' = e) (v : N) {p : Pt} (h : p = toCurve v) : R (PNum.computed e v) (Gen.point e' p) P := by
  subst he
  unfold PNum.computed Gen.point
  split
  · exact .fail
  · next hv =>
    rw [if_neg (by rw [h]; exact toCurve_ne hv)]
    exact .bind (.same _) fun o o' ho => .pure ⟨by rw [← ho], h, rfl⟩

theorem add_rel {a b : PNum} {a' b' : PVal} (ha : P a a') (hb : P b b') : R (a.add b) (a'.add b') P := by
  unfold PNum.add PVal.add
  rw [ha.2.2, hb.2.2]
  split
  · exact const_rel _ (by rw [ha.2.1, hb.2.1, map_add])
  · exact computed_rel (by rw [ha.1, hb.1]) _ (by rw [ha.2.1, hb.2.1, map_add])

theorem sub_rel {a b : PNum} {a' b' : PVal} (ha : P a a') (hb : P b b') : R (a.sub b) (a'.sub b') P := by
  unfold PNum.sub PVal.sub
  rw [ha.2.2, hb.2.2]
  split
  · exact const_rel _ (by rw [ha.2.1, hb.2.1, map_sub])
  · exact computed_rel (by rw [ha.1, hb.1]) _ (by rw [ha.2.1, hb.2.1, map_sub])

theorem smul_toCurve (s k : N) : s • toCurve k = toCurve (s * k) := by rw [← map_smul, smul_eq_mul]

theorem mul_rel (s : SVal) {a : PNum} {a' : PVal} (ha : P a a') : R (PNum.mul s a) (PVal.mul s a') P := by
  unfold PNum.mul PVal.mul
  rw [ha.2.2]
  split
  · exact const_rel _ (by rw [ha.2.1, smul_toCurve])
  · exact computed_rel (by rw [ha.1]) _ (by rw [ha.2.1, smul_toCurve])

theorem mulConstant_rel (s : SVal) (k : N) : R (PNum.mulConstant s k) (PVal.mulConstant s (toCurve k)) P := by
  unfold PNum.mulConstant PVal.mulConstant
  split
  · exact const_rel _ (smul_toCurve _ _)
  · intro c a c1 e
    obtain ⟨x, c2, h1, h2⟩ := Gen.bind_some e
    obtain ⟨rfl, rfl⟩ := literal_ok h1
    exact computed_rel rfl _ (smul_toCurve _ _) _ _ _ h2

theorem multiExp_rel {ps : List PNum} : ∀ {ps' : List PVal} {ss : List SVal} {acc : Option PNum} {acc' : Option PVal},
    List.Forall₂ P ps ps' → Option.Rel P acc acc' → R (PNum.multiExp acc ps ss) (PVal.multiExp acc' ps' ss) P := by
  induction ps with
  | nil =>
    intro ps' ss acc acc' hp ha
    cases hp
    unfold PNum.multiExp PVal.multiExp
    cases ha with
    | none => exact .fail
    | some h => exact .pure h
  | cons p ps ih =>
    intro ps' ss acc acc' hp ha
    cases hp with | cons hp hps =>
    cases ss with
    | nil =>
      cases ha with
      | none => exact R.fail
      | some h => exact R.pure h
    | cons s ss =>
      refine R.bind (mul_rel s hp) fun cur cur' hc => ?_
      cases ha with
      | none => exact ih hps (.some hc)
      | some h => exact R.bind (add_rel h hc) fun r r' hr => ih hps (.some hr)

theorem var_rel (k : N) : R (PNum.var k) (Gen.pointVar (toCurve k)) P := fun c a c1 e => by
  obtain ⟨x, c2, h1, h2⟩ := Gen.bind_some e
  obtain ⟨rfl, rfl⟩ := Gen.pure_some h2
  refine ⟨⟨if c.inInstance then .inst c.inst .point else .transcript c.transcript .point, toCurve k, false, by split <;> rfl, nofun⟩, ?_, ?_, rfl, rfl⟩
  · show ((Gen.newVar .point).1 c).map _ = _
    rw [h1]
    rfl
  · change (if c.mock = true then none else some _) = _ at h1
    split at h1
    · cases h1
    · cases h1
      rfl

noncomputable def link : Link tally genChip toCurve where
  W := Unit
  le _ _ := True
  refl _ := trivial
  trans _ _ := trivial
  R _ x x' Q := R x x' (Q ())
  s _ a a' := a = a'
  p _ a a' := P a a'
  n _ a a' := P a a'
  o _ a a' := P a a'
  known _ k a a' := a = SVal.const k ∧ a = a'
  s_up _ h := h
  p_up _ h := h
  n_up _ h := h
  o_up _ h := h
  n_p h := h
  p_o h := h
  known_up _ h := h
  known_s h := h.2
  pure h := R.pure h
  bind hx h := R.bind hx fun a a' ha => h () a a' trivial ha
  mono hx h := R.mono hx fun a a' ha => h () a a' trivial ha
  panic := R.fail
  add := by
    rintro w a b _ _ rfl rfl
    exact R.same _
  sub := by
    rintro w a b _ _ rfl rfl
    exact R.same _
  mul := by
    rintro w a b _ _ rfl rfl
    exact R.same _
  div := by
    rintro w a b _ _ rfl rfl
    show R (div a b) (SVal.div a b) Eq
    exact (div_eq a b) ▸ R.same _
  square := by
    rintro w a _ rfl
    exact R.same _
  sumWithCoeff := fun {w k l l'} h => by
    have e : l = l' := List.forall₂_eq_eq_eq ▸ (h.imp fun x x' hx => Prod.ext hx.1 hx.2)
    subst e
    exact R.same _
  assignZero := R.same _
  assignOne := R.same _
  assignConst k := R.pure ⟨rfl, rfl⟩
  toValue h := R.pure (by rw [h.2])
  pAdd := add_rel
  pSub := sub_rel
  pAssignOne := const_rel 1 (by rw [toCurve_apply, one_smul])
  pAssignConst k := const_rel k rfl
  normalize h := R.pure h
  scalarMul := by
    rintro w k _ a a' rfl ha
    exact mul_rel k ha
  scalarMulConstant := by
    rintro w k _ Q rfl
    exact mulConstant_rel k Q
  multiExp := fun {w ps ps' ss ss'} hp hs => by
    have e : ss = ss' := List.forall₂_eq_eq_eq ▸ hs
    subst e
    exact multiExp_rel hp .none

/-! ### The transcript -/

noncomputable def transcript {rate : ℕ} (ps : PoseidonSpec N rate) : Transcript tally where
  St := Api.Sponge SVal rate
  commonPoint st p := (do
    let x ← Gen.tmpVar 0
    let y ← Gen.tmpVar 0
    Gen.update (PNum.expr p) 3
    return Api.Sponge.update (c := genChip) st [x, y] : Gen (Api.Sponge SVal rate))
  commonScalar st s := (do
    Gen.update (SVal.expr s) 2
    return Api.Sponge.update (c := genChip) st [s] : Gen (Api.Sponge SVal rate))
  squeeze st := (do
    let r ← Gen.squeeze digest ps ⟨st, []⟩
    return (⟨r.1.expr, 5, false, r.1.form, nofun⟩, r.2.sponge) : Gen (SVal × Api.Sponge SVal rate))

theorem tmp_rel (a a' : N) : R (Gen.tmpVar a) (Gen.tmpVar a') Weak := fun k b k1 e => by
  obtain ⟨r, h1, h2⟩ := Option.map_eq_some_iff.1 (show (Gen.newTmp.1 k).map _ = some (b, k1) from e)
  cases h2
  refine ⟨⟨.tmpBuf k.tmp .scalar, a', false, rfl, nofun⟩, ?_, rfl, rfl, nofun⟩
  show (Gen.newTmp.1 k).map _ = _
  rw [h1]
  rfl

theorem sval_eq {a b : SVal} (h1 : a.expr = b.expr) (h2 : a.v = b.v) (h3 : a.isConst = b.isConst) : a = b := by
  cases a
  cases b
  cases h1
  cases h2
  cases h3
  rfl

theorem squeeze_rel {rate : ℕ} (ps : PoseidonSpec N rate) {st : Api.Sponge SVal rate} {st' : HashSt rate} (h : WeakSponge st st'.sponge) :
    R ((transcript ps).squeeze st : Gen (SVal × Api.Sponge SVal rate)) (Gen.squeeze digest ps st') fun r r' => r.1 = r'.1 ∧ WeakSponge r.2 r'.2.sponge := fun k b k1 e => by
  obtain ⟨r, k2, h1, h2⟩ := Gen.bind_some e
  obtain ⟨rfl, rfl⟩ := Gen.pure_some h2
  change (if k.mock = true then none else _) = _ at h1
  split at h1
  · cases h1
  · next hm =>
    obtain ⟨q, h3, h4⟩ := Option.bind_eq_some_iff.1 h1
    obtain ⟨q', h5, h6, h7⟩ := weak_squeeze ps h _ _ _ h3
    split at h4
    · cases h4
    · next hc =>
      cases h4
      refine ⟨(⟨.memory q.2.memory .scalar, (shaSqueeze digest st'.sha).2, false, rfl, nofun⟩, ⟨q'.2, (shaSqueeze digest st'.sha).1⟩), ?_, ?_, h7⟩
      · show (if k.mock = true then none else _) = _
        rw [if_neg hm, h5]
        show (if q'.1.isConst = true then none else _) = _
        rw [h6.2.1, if_neg hc]
      · exact sval_eq rfl (squeezed _).symm rfl

noncomputable def same {rate : ℕ} (ps : PoseidonSpec N rate) : SameBytes link (transcript ps) (codegenTranscript digest ps) TinyContract.codec shaCodec where
  st _ a a' := WeakSponge a a'.sponge
  st_up _ h := h
  commonPoint := fun {w p p' a a'} hp h => by
    refine R.bind (tmp_rel _ _) fun x x' hx => R.bind (tmp_rel _ _) fun y y' hy => R.bind (Q := fun _ _ => True) ?_ fun _ _ _ =>
      R.pure (WeakSponge.update h (.cons hx (.cons hy .nil)))
    rw [hp.1]
    exact (R.same _).mono fun _ _ _ => trivial
  commonScalar := fun {w s s' a a'} hs h => by
    obtain rfl : s = s' := hs
    exact R.bind (Q := fun _ _ => True) ((R.same _).mono fun _ _ _ => trivial) fun _ _ _ => R.pure (WeakSponge.update h (.cons (.refl _) .nil))
  squeeze h := squeeze_rel ps h
  assignVar k := R.same _
  pAssignVar k := var_rel k
  ok := TinyContract.Words
  point := TinyContract.read_point
  scalar _ := rfl
  ok_point := TinyContract.point_words
  ok_scalar := TinyContract.scalar_words

/-- What the generator records. -/
noncomputable def record {rate : ℕ} (ps : PoseidonSpec N rate) (key : VK N N) (ins : List N) (proof : List UInt8) : Gen (PNum × PNum) := do
  let sp : Api.Sponge SVal rate ← (Api.spongeNew genChip ps : Gen _)
  Gen.setInstance true
  let i : List SVal × List (List PNum) ← (Api.assignInstanceCommitment (c := tally) key [[ins]] : Gen _)
  Gen.setInstance false
  let r : (MultiOpen tally × List PNum) × Reader (transcript ps) ←
    (verifyNoEval (c := tally) (T := transcript ps) TinyContract.codec key i.2 "" ⟨proof, sp, []⟩ : Gen _)
  (evaluateMultiopen tally r.1.1 : Gen (PNum × PNum))

/-- The program, and the number of instances. -/
noncomputable def program {rate : ℕ} (ps : PoseidonSpec N rate) (key : VK N N) (ins : List N) (proof : List UInt8) : Option (Prog × ℕ) :=
  ((record ps key ins proof).1 Ctx.new).map fun r => (⟨r.2.stmts, [r.1.1.expr, r.1.2.expr], r.2.memory, max r.2.absorbing r.2.maxAbsorbing⟩, r.2.inst)

/-- The generator records this program. -/
theorem recorded {rate : ℕ} {ps : PoseidonSpec N rate} {key : VK N N} {ins : List N} {proof : List UInt8} (hw : TinyContract.Words proof) {p : Prog} {n : ℕ}
    (h : program ps key ins proof = some (p, n)) :
    ∃ r k, (⟨digest, ps, shaCodec, key.map toCurve, [[ins]], proof⟩ : Job rate).record.1 Ctx.new = some (r, k) ∧ k.prog r.left r.right = p ∧ k.inst = n := by
  have hR : R (record ps key ins proof) (⟨digest, ps, shaCodec, key.map toCurve, [[ins]], proof⟩ : Job rate).record
      fun e rec => P e.1 rec.left ∧ P e.2 rec.right := by
    refine .bind (Q := fun sp sp' => sp = sp') (.same _) fun sp sp' hsp => .bind (Q := fun _ _ => True) ((R.same _).mono fun _ _ _ => trivial) fun _ _ _ =>
      .bind (Q := fun i i' => List.Forall₂ (List.Forall₂ P) i.2 i'.2) ?_ fun i i' hi =>
      .bind (Q := fun _ _ => True) ((R.same _).mono fun _ _ _ => trivial) fun _ _ _ => .bind (Q := fun a a' => link.Open () a.1.1 a'.1.1) ?_ fun r r' hr => ?_
    · exact R.mono (Link.assignInstanceCommitment (X := link) (w := ()) (map_zero _) (fun _ k => R.same _) key [[ins]]) fun a a' h => h.2
    · subst hsp
      refine R.mono ((same ps).link.rel.verifyNoEval (w := ()) key hi "" ⟨proof, sp, []⟩ ⟨proof, ⟨sp, []⟩, []⟩ ⟨⟨rfl, hw, rfl⟩, ?_⟩) fun a a' h => h.1.1
      exact .refl _
    · have := Link.evaluateMultiopen (X := link) (w := ()) hr
      intro k a k1 e
      obtain ⟨a', h1, h2⟩ := this k a k1 e
      refine ⟨⟨i'.1, i'.2, a'.1, a'.2, r'.2⟩, ?_, h2⟩
      exact Option.bind_eq_some_iff.2 ⟨_, h1, rfl⟩
  obtain ⟨⟨e, k⟩, h1, h2⟩ := Option.map_eq_some_iff.1 h
  obtain ⟨r, h3, h4, h5⟩ := hR _ _ _ h1
  refine ⟨r, k, h3, ?_, congrArg Prod.snd h2⟩
  refine Eq.trans ?_ (congrArg Prod.fst h2)
  unfold Ctx.prog
  rw [h4.1, h5.1]

end Verif.Top.Tally
