import Verif.Ecc.Measure
import Verif.Api.LinkPoseidon
import Verif.Api.PoseidonCircuit

/-!
# The verifier in shape mode

The chips of the circuit when the context is in shape mode. Only multi-exponentiation asks for the mode. Side by side with the circuit chip:
if both passes return, the measuring pass has counted at least as many rows as the other has written, and the points that they return have
the same overflow counters.
-/

namespace Verif.Api
open Verif.Circuit Verif.Ecc

/-- chips/scalar_chip.rs lines 18-127, chips/ecc_chip.rs lines 28-133, with a context in shape mode. -/
noncomputable def measureChip : Chip N Pt where
  m := M N
  monad := inferInstance
  S := AV N
  P := APt
  panic := fun _ => none
  add a b := Circuit.add a b
  sub a b := Circuit.sub a b
  mul a b := Circuit.mul a b
  div a b := Circuit.divUnsafe a b
  square a := Circuit.mul a a
  sumWithCoeff l k := Circuit.sumWithConstant l k
  mulAddConstant a b k := Circuit.mulAddConstant a b k
  assignZero := Circuit.assignConstant 0
  assignOne := Circuit.assignConstant 1
  assignConst k := Circuit.assignConstant k
  assignVar k := Circuit.assign k
  toValue v := pure v.value
  pAdd a b := Prod.fst <$> Circuit.pAdd a b
  pSub a b := Prod.fst <$> Circuit.pSub a b
  pAssignZero := Circuit.assignIdentity
  pAssignOne := Circuit.assignConstantPointFromScalar 1
  pAssignConst P := Circuit.assignConstantPoint P
  pAssignVar P := Circuit.assignPoint P
  normalize a := Prod.fst <$> Circuit.pReduce a
  scalarMul s a := Circuit.pMul a s
  scalarMulConstant s P := Circuit.constantMul P s
  multiExp ps ss := Circuit.shamirShape ps ss

/-- halo2-snark-aggregator-circuit/src/chips/encode_chip.rs lines 14-51. -/
noncomputable def measureEncode : Encode measureChip where
  point p := do
    let x ← (Circuit.native (APt.x p) : M N _)
    let y ← (Circuit.native (APt.y p) : M N _)
    return [x.1, y.1]
  scalar s := return [s]
  decode s := return s

namespace Measure

/-- If both return, the second has taken at least as many rows as the first. -/
def Meas {α α' : Type} (x : M N α) (x' : M N α') (Q : α → α' → Prop) : Prop :=
  ∀ c a d c' a' d', x c = some (a, d) → x' c' = some (a', d') → d.offset + c'.offset ≤ d'.offset + c.offset ∧ Q a a'

section
variable {α α' β β' : Type}

theorem Meas.pure {a : α} {a' : α'} {Q : α → α' → Prop} (h : Q a a') : Meas (Pure.pure a) (Pure.pure a') Q := by
  intro c b d c' b' d' h1 h2
  cases h1
  cases h2
  exact ⟨by omega, h⟩

theorem Meas.bind {x : M N α} {x' : M N α'} {f : α → M N β} {f' : α' → M N β'} {Q : α → α' → Prop} {S : β → β' → Prop} (h : Meas x x' Q)
    (hf : ∀ a a', Q a a' → Meas (f a) (f' a') S) : Meas (x >>= f) (x' >>= f') S := by
  intro c b d c' b' d' h1 h2
  simp only [Bind.bind, StateT.bind, Option.bind_eq_some_iff, Prod.exists] at h1 h2
  obtain ⟨a, e, h1, g1⟩ := h1
  obtain ⟨a', e', h2, g2⟩ := h2
  obtain ⟨k1, q1⟩ := h _ _ _ _ _ _ h1 h2
  obtain ⟨k2, q2⟩ := hf a a' q1 _ _ _ _ _ _ g1 g2
  exact ⟨by omega, q2⟩

theorem Meas.mono {x : M N α} {x' : M N α'} {Q S : α → α' → Prop} (h : Meas x x' Q) (hi : ∀ a a', Q a a' → S a a') : Meas x x' S :=
  fun c a d c' a' d' h1 h2 => ⟨(h c a d c' a' d' h1 h2).1, hi _ _ (h c a d c' a' d' h1 h2).2⟩

theorem Meas.panic {x' : M N α'} {Q : α → α' → Prop} : Meas (fun _ => none : M N α) x' Q := fun _ _ _ _ _ _ h => by cases h

/-- Known numbers of rows. -/
theorem Meas.of {γ γ' : Type} {x : M N α} {x' : M N α'} {y : Cnt γ} {y' : Cnt γ'} {R : α → γ → Prop} {R' : α' → γ' → Prop} (h : Takes x y R)
    (h' : Takes x' y' R') (hle : y.2 ≤ y'.2) : Meas x x' fun a a' => R a y.1 ∧ R' a' y'.1 := by
  intro c a d c' a' d' h1 h2
  obtain ⟨e1, r1⟩ := h.run _ _ _ h1
  obtain ⟨e2, r2⟩ := h'.run _ _ _ h2
  exact ⟨by omega, r1, r2⟩

/-- Operations on cells. -/
theorem Meas.cells {x : M N α} {x' : M N α'} {k : ℕ} (h : Takes x (tick k) Any) (h' : Takes x' (tick k) Any) : Meas x x' fun _ _ => True :=
  (Meas.of h h' (le_refl _)).mono fun _ _ _ => trivial

end

/-- The same counters and caches. -/
def Like (p p' : APt) : Prop := ∃ v, SP p v ∧ SP p' v

/-- The same caches, and reduced. -/
def LikeRead (p p' : APt) : Prop := ∃ f, SP p (flat f) ∧ SP p' (flat f)

theorem LikeRead.like {p p' : APt} (h : LikeRead p p') : Like p p' := let ⟨_, h⟩ := h; ⟨_, h⟩

/-- The same operation in both passes. -/
theorem Meas.points {x x' : M N APt} {y : Cnt PSh} (h : Takes x y SP) (h' : Takes x' y SP) : Meas x x' Like :=
  (Meas.of h h' (le_refl _)).mono fun _ _ h => ⟨_, h⟩

theorem Meas.fst {β β' : Type} {x : M N (APt × β)} {x' : M N (APt × β')} {Q : APt → APt → Prop} (h : Meas x x' fun r r' => Q r.1 r'.1) :
    Meas (Prod.fst <$> x) (Prod.fst <$> x') Q := by
  rw [map_eq_pure_bind, map_eq_pure_bind]
  exact Meas.bind h fun _ _ h => Meas.pure h

theorem Meas.points_fst {x x' : M N (APt × APt)} {y : Cnt (PSh × PSh)} (h : Takes x y fun a b => SP a.1 b.1 ∧ SP a.2 b.2)
    (h' : Takes x' y fun a b => SP a.1 b.1 ∧ SP a.2 b.2) : Meas (Prod.fst <$> x) (Prod.fst <$> x') Like :=
  Meas.fst ((Meas.of h h' (le_refl _)).mono fun _ _ h => ⟨_, h.1.1, h.2.1⟩)

theorem reduce_o (a : ISh) : (Count.reduce a).1.o = 0 := by
  unfold Count.reduce
  split
  · assumption
  · rfl

/-- A normalized point has been reduced. -/
theorem pReduce_flat (v : PSh) : (Count.pReduce v).1.1 = flat (false, false) := by
  show (⟨⟨max 0 (Count.reduce v.x).1.o, false⟩, ⟨max 0 (Count.reduce v.y).1.o, false⟩, none⟩ : PSh) = _
  rw [reduce_o, reduce_o]
  rfl

theorem assignPoint_flat : Count.assignPoint.1 = flat (true, true) := by decide +kernel

/-- The flags of points in both passes. -/
theorem flags {ps ps' : List APt} (h : List.Forall₂ LikeRead ps ps') : ∃ fs, List.Forall₂ (fun p f => SP p (flat f)) ps fs ∧
    List.Forall₂ (fun p f => SP p (flat f)) ps' fs := by
  induction h with
  | nil => exact ⟨[], .nil, .nil⟩
  | cons h _ ih =>
    obtain ⟨f, h1, h2⟩ := h
    obtain ⟨fs, g1, g2⟩ := ih
    exact ⟨f :: fs, .cons h1 g1, .cons h2 g2⟩

/-- Multi-exponentiation. -/
theorem Meas.shamir {ps ps' : List APt} (h : List.Forall₂ LikeRead ps ps') (ss ss' : List (AV N)) : Meas (Circuit.shamir ps ss) (shamirShape ps' ss') Like := by
  obtain ⟨fs, h1, h2⟩ := flags h
  exact (Meas.of (Takes.shamir h1 ss) (Takes.shamirShape h2 ss') (shamirRows_le fs)).mono fun _ _ h => ⟨_, h⟩

theorem assignConstant_known (k : N) : Meas (Circuit.assignConstant k) (Circuit.assignConstant k) fun a a' => a.value = k ∧ a'.value = k :=
  fun c a d c' a' d' h1 h2 => ⟨(Meas.cells (Takes.assignConstant k) (Takes.assignConstant k) c a d c' a' d' h1 h2).1, assignConstant_value h1, assignConstant_value h2⟩

/-- The assigning pass and the measuring pass. -/
noncomputable def link : Link circuitChip measureChip (id : Pt → Pt) where
  W := Unit
  le _ _ := True
  refl _ := trivial
  trans _ _ := trivial
  R _ x x' Q := Meas x.1 x' (Q ())
  s _ _ _ := True
  p _ := Like
  n _ := LikeRead
  o _ := Like
  known _ k a a' := AV.value a = k ∧ AV.value a' = k
  s_up _ h := h
  p_up _ h := h
  n_up _ h := h
  o_up _ h := h
  n_p h := h.like
  p_o h := h
  known_up _ h := h
  known_s _ := trivial
  pure h := Meas.pure h
  bind hx h := Meas.bind hx fun a a' ha => h () a a' trivial ha
  mono hx h := Meas.mono hx fun a a' ha => h () a a' trivial ha
  panic := Meas.panic
  add _ _ := Meas.cells (Takes.add _ _) (Takes.add _ _)
  sub _ _ := Meas.cells (Takes.sub _ _) (Takes.sub _ _)
  mul _ _ := Meas.cells (Takes.mul _ _) (Takes.mul _ _)
  div _ _ := Meas.cells (Takes.divUnsafe _ _) (Takes.divUnsafe _ _)
  square _ := Meas.cells (Takes.mul _ _) (Takes.mul _ _)
  sumWithCoeff {w k l l'} h := by
    have h2 := Takes.sumWithConstant (l' : List (AV N × N)) k
    have e : List.length (α := AV N × N) l' = List.length (α := AV N × N) l := h.length_eq.symm
    rw [e] at h2
    exact Meas.cells (Takes.sumWithConstant l k) h2
  assignZero := Meas.cells (Takes.assignConstant _) (Takes.assignConstant _)
  assignOne := Meas.cells (Takes.assignConstant _) (Takes.assignConstant _)
  assignConst k := assignConstant_known k
  toValue h := Meas.pure (h.1.trans h.2.symm)
  pAdd := fun {w a b a' b'} ⟨_, ha, ha'⟩ ⟨_, hb, hb'⟩ => Meas.points_fst (Takes.pAdd ha hb) (Takes.pAdd ha' hb')
  pSub := fun {w a b a' b'} ⟨_, ha, ha'⟩ ⟨_, hb, hb'⟩ => Meas.points_fst (Takes.pSub ha hb) (Takes.pSub ha' hb')
  pAssignOne := Meas.points (Takes.assignConstantPoint _) (Takes.assignConstantPoint _)
  pAssignConst P := (Meas.of (Takes.assignConstantPoint P) (Takes.assignConstantPoint P) (le_refl _)).mono fun _ _ h => ⟨(false, false), h⟩
  normalize := fun {w a a'} ⟨v, ha, ha'⟩ => Meas.fst ((Meas.of (Takes.pReduce ha) (Takes.pReduce ha') (le_refl _)).mono fun _ _ h =>
    ⟨(false, false), by rw [← pReduce_flat v]; exact h.1.1, by rw [← pReduce_flat v]; exact h.2.1⟩)
  scalarMul := fun {w k k' a a'} _ ⟨_, ha, ha'⟩ => Meas.points (Takes.pMul ha k) (Takes.pMul ha' k')
  scalarMulConstant {w k k'} P _ := Meas.points (Takes.constantMul P k) (Takes.constantMul P k')
  multiExp {w ps ps' ss ss'} hp _ := Meas.shamir hp ss ss'

theorem mulAdd : link.MulAdd := fun _ _ _ => Meas.cells (Takes.mulAddConstant _ _ _) (Takes.mulAddConstant _ _ _)

theorem words : link.SameWords circuitEncode measureEncode where
  point := fun {w p p'} ⟨f, h, h'⟩ => Meas.bind (Q := fun _ _ => True) ((Meas.of (Takes.native h.x) (Takes.native h'.x) (le_refl _)).mono fun _ _ _ => trivial)
    fun _ _ _ => Meas.bind (Q := fun _ _ => True) ((Meas.of (Takes.native h.y) (Takes.native h'.y) (le_refl _)).mono fun _ _ _ => trivial)
    fun _ _ _ => Meas.pure (.cons trivial (.cons trivial .nil))
  scalar _ := Meas.pure (.cons trivial .nil)
  decode _ := Meas.pure trivial

theorem assignVar (w : link.W) (k : N) : link.R w (circuitChip.assignVar k) (measureChip.assignVar k) link.s :=
  Meas.cells (Takes.assign k) (Takes.assign k)

theorem pAssignVar (w : link.W) (P : Pt) : link.R w (circuitChip.pAssignVar P) (measureChip.pAssignVar P) link.n :=
  (Meas.of (Takes.assignPoint P) (Takes.assignPoint P) (le_refl _)).mono fun _ _ h =>
    ⟨(true, true), by rw [← assignPoint_flat]; exact h.1, by rw [← assignPoint_flat]; exact h.2⟩

/-- Both passes read the same proofs. -/
noncomputable def bytes {rate : ℕ} (ps : PoseidonSpec N rate) (d : Codec N Pt) :
    SameBytes link (poseidonTranscript circuitChip ps circuitEncode) (poseidonTranscript measureChip ps measureEncode) d d :=
  poseidonBytes mulAdd ps words (fun k => assignVar _ k) (fun P => pAssignVar _ P) (fun b => by simp) fun b => rfl

end Measure
end Verif.Api
