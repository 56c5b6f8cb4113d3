import Verif.Api.LinkPoseidon
import Verif.Api.PoseidonCircuit
import Verif.Ecc.Shape

/-!
# The verifier builds the same circuit for every proof of the same form

The circuit chip side by side with itself, on different values: if both runs return, they emit the same rows and copies, and what they
return are the same cells.
-/

namespace Verif.Api
open Verif.Circuit Verif.Ecc

namespace Shape

/-- Both runs of a builder, from the same circuit. -/
def Both {α α' : Type} (x : Build α) (x' : Build α') (Q : α → α' → Prop) : Prop := Rel x.1 x'.1 Q

theorem Both.of {α α' : Type} {x : M N α} {x' : M N α'} {post : Advice N → α → Prop} {post' : Advice N → α' → Prop} {h : Spec tables x post}
    {h' : Spec tables x' post'} [Grows x] [Grows x'] {Q : α → α' → Prop} (hr : Rel x x' Q) : Both (Build.of x h) (Build.of x' h') Q := hr

theorem Both.of' {α α' : Type} {x : M N α} {x' : M N α'} {post : Advice N → α → Prop} {post' : Advice N → α' → Prop} {h : Spec tables x post}
    {h' : Spec tables x' post'} {g : Grows x} {g' : Grows x'} {Q : α → α' → Prop} (hr : Rel x x' Q) :
    Both (Build.of x h (g := g)) (Build.of x' h' (g := g')) Q := hr

theorem Both.pure {α α' : Type} {a : α} {a' : α'} {Q : α → α' → Prop} (h : Q a a') : Both (Pure.pure a) (Pure.pure a') Q := Rel.pure h

theorem Both.bind {α α' β β' : Type} {x : Build α} {x' : Build α'} {f : α → Build β} {f' : α' → Build β'} {Q : α → α' → Prop} {S : β → β' → Prop}
    (h : Both x x' Q) (hf : ∀ a a', Q a a' → Both (f a) (f' a') S) : Both (x >>= f) (x' >>= f') S :=
  Rel.bind (k := fun a => (f a).1) (k' := fun a => (f' a).1) h hf

theorem Both.mono {α α' : Type} {x : Build α} {x' : Build α'} {Q S : α → α' → Prop} (h : Both x x' Q) (hi : ∀ a a', Q a a' → S a a') : Both x x' S :=
  Rel.mono h hi

theorem Both.fst {α α' β β' : Type} {x : Build (α × β)} {x' : Build (α' × β')} {Q : α → α' → Prop} {S : β → β' → Prop}
    (h : Both x x' fun r r' => Q r.1 r'.1 ∧ S r.2 r'.2) : Both (Prod.fst <$> x) (Prod.fst <$> x') Q :=
  Both.bind (f := fun r => Pure.pure r.1) (f' := fun r => Pure.pure r.1) h fun _ _ h => Both.pure h.1

theorem Both.panic {α α' : Type} {x' : Build α'} {Q : α → α' → Prop} : Both (circuitChip.panic : Build α) x' Q :=
  ⟨fun _ _ _ _ _ _ _ h => by cases h⟩

theorem Both.panic' {α α' : Type} {x : Build α} {Q : α → α' → Prop} : Both x (circuitChip.panic : Build α') Q :=
  ⟨fun _ _ _ _ _ _ _ _ h => by cases h⟩

/-- The same constant. -/
theorem Rel.assignConstant_known (k : N) : Rel (Circuit.assignConstant k) (Circuit.assignConstant k)
    fun a a' => SameCell a a' ∧ a.value = k ∧ a'.value = k :=
  ⟨fun c c' h r d r' d' h1 h2 =>
    let ⟨e1, e2⟩ := (Circuit.Rel.assignConstant k).run c c' h r d r' d' h1 h2
    ⟨e1, e2, assignConstant_value h1, assignConstant_value h2⟩⟩

/-- The circuit chip and itself. -/
noncomputable def link : Link circuitChip circuitChip (id : Pt → Pt) where
  W := Unit
  le _ _ := True
  refl _ := trivial
  trans _ _ := trivial
  R _ x x' Q := Both x x' (Q ())
  s _ := SameCell
  p _ := SamePt
  n _ := SamePt
  o _ := SamePt
  known _ k a a' := SameCell (F := N) a a' ∧ AV.value a = k ∧ AV.value a' = k
  s_up _ h := h
  p_up _ h := h
  n_up _ h := h
  o_up _ h := h
  n_p h := h
  p_o h := h
  known_up _ h := h
  known_s h := h.1
  pure h := Both.pure h
  bind hx h := Both.bind hx fun a a' ha => h () a a' trivial ha
  mono hx h := Both.mono hx fun a a' ha => h () a a' trivial ha
  panic := Both.panic
  add ha hb := Rel.add ha hb
  sub ha hb := Rel.sub ha hb
  mul ha hb := Rel.mul ha hb
  div ha hb := Rel.divUnsafe ha hb
  square ha := Rel.mul ha ha
  sumWithCoeff h := Rel.sumWithConstant h _
  assignZero := Rel.assignConstant 0
  assignOne := Rel.assignConstant 1
  assignConst k := Rel.assignConstant_known k
  toValue h := Both.pure (h.2.1.trans h.2.2.symm)
  pAdd ha hb := Both.fst (Both.of' (Rel.pAdd ha hb))
  pSub ha hb := Both.fst (Both.of' (Rel.pSub ha hb))
  pAssignOne := Rel.assignConstantPoint _
  pAssignConst P := Rel.assignConstantPoint P
  normalize ha := Both.fst (Both.of' (Rel.pReduce ha))
  scalarMul hk ha := Rel.pMul ha hk
  scalarMulConstant P hk := Rel.constantMul P hk
  multiExp hp hs := Rel.shamir hp hs

theorem mulAdd : link.MulAdd := fun k ha hb => Rel.mulAddConstant ha hb k

theorem words : link.SameWords circuitEncode circuitEncode where
  point := fun {w p p'} h => by
    have h : SamePt p p' := h
    exact Both.bind (Both.of (Rel.native h.x)) fun x x' hx => Both.bind (Both.of (Rel.native h.y)) fun y y' hy => Both.pure (.cons hx.1 (.cons hy.1 .nil))
  scalar h := Both.pure (.cons h .nil)
  decode h := Both.pure h

variable {rate : ℕ} {ps : PoseidonSpec N rate} {d : Codec N Pt}

/-- The Poseidon transcript of the circuit. -/
noncomputable abbrev T (ps : PoseidonSpec N rate) : Transcript circuitChip := poseidonTranscript circuitChip ps circuitEncode

/-- Transcripts in the same cells; the bytes that are left may differ. -/
def Near (r r' : Reader (T ps)) : Prop := link.Sponge () r.st r'.st

/-- Both sides use the transcript. -/
def Uses {α α' : Type} (x : Rd (T ps) α) (x' : Rd (T ps) α') (Q : α → α' → Prop) : Prop :=
  ∀ r r', Near r r' → Both (x r) (x' r') fun a a' => Q a.1 a'.1 ∧ Near a.2 a'.2

theorem Uses.bind {α α' β β' : Type} {x : Rd (T ps) α} {x' : Rd (T ps) α'} {f : α → Rd (T ps) β} {f' : α' → Rd (T ps) β'}
    {Q : α → α' → Prop} {S : β → β' → Prop} (hx : Uses x x' Q) (h : ∀ a a', Q a a' → Uses (f a) (f' a') S) : Uses (x >>= f) (x' >>= f') S :=
  fun r r' hr => Both.bind (hx r r' hr) fun _ _ ha => h _ _ ha.1 _ _ ha.2

theorem Uses.ret {α α' : Type} {a : α} {a' : α'} {Q : α → α' → Prop} (h : Q a a') : Uses (ps := ps) (pure a) (pure a') Q :=
  fun _ _ hr => Both.pure ⟨h, hr⟩

theorem Uses.mono {α α' : Type} {x : Rd (T ps) α} {x' : Rd (T ps) α'} {Q S : α → α' → Prop} (hx : Uses x x' Q)
    (h : ∀ a a', Q a a' → S a a') : Uses x x' S :=
  fun r r' hr => (hx r r' hr).mono fun _ _ ha => ⟨h _ _ ha.1, ha.2⟩

theorem Uses.lift {α α' : Type} {x : Build α} {x' : Build α'} {Q : α → α' → Prop} (h : Both x x' Q) :
    Uses (ps := ps) (Rd.lift x) (Rd.lift x') Q :=
  fun _ _ hr => Both.bind h fun _ _ ha => Both.pure ⟨ha, hr⟩

theorem commonPoint {r r' : Reader (T ps)} {p p' : APt} (hp : SamePt p p') (hr : Near r r') :
    Both ((T ps).commonPoint r.st p) ((T ps).commonPoint r'.st p') (link.Sponge ()) :=
  Both.bind (words.point (w := ()) hp) fun _ _ hl => Both.pure (Link.update hr hl)

theorem commonScalar {r r' : Reader (T ps)} {p p' : AV N} (hp : SameCell p p') (hr : Near r r') :
    Both ((T ps).commonScalar r.st p) ((T ps).commonScalar r'.st p') (link.Sponge ()) :=
  Both.bind (words.scalar (w := ()) hp) fun _ _ hl => Both.pure (Link.update hr hl)

theorem Uses.absorbPoint {p p' : APt} (hp : SamePt p p') (e e' : APt → Event APt (AV N)) :
    Uses (ps := ps) (Rd.absorbPoint e p) (Rd.absorbPoint e' p') fun _ _ => True :=
  fun _ _ hr => Both.bind (commonPoint hp hr) fun _ _ h => Both.pure ⟨trivial, h⟩

theorem Uses.absorbScalar {p p' : AV N} (hp : SameCell p p') (e e' : AV N → Event APt (AV N)) :
    Uses (ps := ps) (Rd.absorbScalar e p) (Rd.absorbScalar e' p') fun _ _ => True :=
  fun _ _ hr => Both.bind (commonScalar hp hr) fun _ _ h => Both.pure ⟨trivial, h⟩

theorem squeezed {r r' : Reader (T ps)} (hr : Near r r') :
    Both ((T ps).squeeze r.st) ((T ps).squeeze r'.st) fun a a' => SameCell (F := N) a.1 a'.1 ∧ link.Sponge (rate := rate) () a.2 a'.2 :=
  Both.bind (Link.spongeSqueeze mulAdd ps (w := ()) hr) fun _ _ hr => Both.bind (words.decode (w := ()) hr.1) fun _ _ hk => Both.pure ⟨hk, hr.2⟩

theorem Uses.squeeze : Uses (ps := ps) Rd.squeeze Rd.squeeze SameCell := fun _ _ hr =>
  Both.bind (squeezed hr) fun _ _ h => Both.pure ⟨h.1, h.2⟩

theorem Uses.acceptPoint (P P' : Pt) : Uses (ps := ps) (Rd.acceptPoint P) (Rd.acceptPoint P') SamePt :=
  Uses.bind (Uses.lift (Both.of (h := Spec.assignPoint P) (h' := Spec.assignPoint P') (Rel.assignPointRaw _ _ _ _ _ _))) fun _ _ hp =>
    Uses.bind (Uses.absorbPoint hp _ _) fun _ _ _ => Uses.ret hp

theorem Uses.acceptScalar (k k' : N) : Uses (ps := ps) (Rd.acceptScalar k) (Rd.acceptScalar k') SameCell :=
  Uses.bind (Uses.lift (Both.of (h := Spec.assign k) (h' := Spec.assign k') (Rel.assign _ _))) fun _ _ hp =>
    Uses.bind (Uses.absorbScalar hp _ _) fun _ _ _ => Uses.ret hp

/-- What is read may differ. -/
theorem Uses.nextPoint : Uses (ps := ps) (Rd.nextPoint d) (Rd.nextPoint d) fun _ _ => True := fun r r' hr => by
  unfold Rd.nextPoint
  split <;> split <;> exact Both.pure ⟨trivial, hr⟩

theorem Uses.nextScalar : Uses (ps := ps) (Rd.nextScalar d) (Rd.nextScalar d) fun _ _ => True := fun r r' hr => by
  unfold Rd.nextScalar
  split <;> split <;> exact Both.pure ⟨trivial, hr⟩

theorem Uses.readPoint : Uses (ps := ps) (Rd.readPoint d) (Rd.readPoint d) SamePt :=
  Uses.bind Uses.nextPoint fun o o' _ => by
    cases o with
    | none => exact fun _ _ _ => Both.panic
    | some P =>
      cases o' with
      | none => exact fun _ _ _ => Both.panic'
      | some P' => exact Uses.acceptPoint P P'

theorem Uses.readScalar : Uses (ps := ps) (Rd.readScalar d) (Rd.readScalar d) SameCell :=
  Uses.bind Uses.nextScalar fun o o' _ => by
    cases o with
    | none => exact fun _ _ _ => Both.panic
    | some P =>
      cases o' with
      | none => exact fun _ _ _ => Both.panic'
      | some P' => exact Uses.acceptScalar P P'

/-- If both sides read opening proofs to the end, either they read different numbers of points, or they still are in the same circuit. -/
def ReadsAll (c c' : Ctx N) (a a' : List APt × Reader (T ps)) : Prop :=
  a.1.length ≠ a'.1.length ∨ (SameCircuit c c' ∧ List.Forall₂ SamePt a.1 a'.1 ∧ Near a.2 a'.2)

theorem build_bind {α β : Type} {x : Build α} {f : α → Build β} {ctx ctx' : Ctx N} {b : β} (h : (x >>= f).1 ctx = some (b, ctx')) :
    ∃ a c1, x.1 ctx = some (a, c1) ∧ (f a).1 c1 = some (b, ctx') := by
  have h' : (x.1 >>= fun a => (f a).1) ctx = some (b, ctx') := h
  simp only [Bind.bind, StateT.bind, Option.bind_eq_some_iff] at h'
  obtain ⟨⟨a, c1⟩, h1, h2⟩ := h'
  exact ⟨a, c1, h1, h2⟩

/-- One step of reading points to the end. -/
theorem readAll_cases {n : ℕ} {r : Reader (T ps)} {ctx e : Ctx N} {a : List APt × Reader (T ps)}
    (h : (Rd.readAll d n r : Build (List APt × Reader (T ps))).1 ctx = some (a, e)) :
    (a.1 = [] ∧ a.2.st = r.st ∧ e = ctx) ∨
      ∃ m P p r1 c1 l, (Rd.acceptPoint P ⟨(d.readPoint r.bytes).elim [] Prod.snd, r.st, r.trace⟩ : Build (APt × Reader (T ps))).1 ctx = some ((p, r1), c1) ∧
        (Rd.readAll d m r1 : Build (List APt × Reader (T ps))).1 c1 = some ((l, a.2), e) ∧ a.1 = p :: l := by
  cases n with
  | zero =>
    cases h
    exact .inl ⟨rfl, rfl, rfl⟩
  | succ n =>
    obtain ⟨⟨o, r0⟩, c0, h0, h⟩ := build_bind h
    cases hr : d.readPoint r.bytes with
    | none =>
      have : (Rd.nextPoint d r : Build (Option Pt × Reader (T ps))) = pure (none, r) := by
        unfold Rd.nextPoint
        rw [hr]
      rw [this] at h0
      cases h0
      cases h
      exact .inl ⟨rfl, rfl, rfl⟩
    | some x =>
      obtain ⟨P, rest⟩ := x
      have : (Rd.nextPoint d r : Build (Option Pt × Reader (T ps))) = pure (some P, ⟨rest, r.st, r.trace⟩) := by
        unfold Rd.nextPoint
        rw [hr]
      rw [this] at h0
      cases h0
      obtain ⟨⟨p, r1⟩, c1, h1, h⟩ := build_bind h
      obtain ⟨⟨l, r2⟩, c2, h2, h⟩ := build_bind h
      cases h
      exact .inr ⟨n, P, p, r1, c1, l, h1, h2, rfl⟩

theorem readAll : ∀ (n n' : ℕ) {r r' : Reader (T ps)} {c c' e e' : Ctx N} {a a' : List APt × Reader (T ps)}, SameCircuit c c' → Near r r' →
    (Rd.readAll d n r : Build (List APt × Reader (T ps))).1 c = some (a, e) →
    (Rd.readAll d n' r' : Build (List APt × Reader (T ps))).1 c' = some (a', e') → ReadsAll e e' a a' := by
  intro n n' r r' c c' e e' a a' hc hr h h'
  obtain ⟨l, ra⟩ := a
  induction l generalizing n n' r r' c c' a' with
  | nil =>
    rcases readAll_cases h with ⟨-, h2, rfl⟩ | ⟨m, P, p, r1, c1, l, -, -, h3⟩
    · rcases readAll_cases h' with ⟨k1, k2, rfl⟩ | ⟨m, P, p, r1, c1, l, -, -, h3⟩
      · refine .inr ⟨hc, by rw [k1]; exact .nil, ?_⟩
        unfold Near
        rw [h2, k2]
        exact hr
      · refine .inl ?_
        rw [h3]
        simp
    · cases h3
  | cons p l ih =>
    rcases readAll_cases h with ⟨h1, -, -⟩ | ⟨m, P, q, r1, c1, l1, h1, h2, h3⟩
    · cases h1
    · cases h3
      rcases readAll_cases h' with ⟨k1, -, -⟩ | ⟨m', P', q', r1', c1', l', k1, k2, k3⟩
      · refine .inl ?_
        rw [k1]
        simp
      · obtain ⟨q1, q2, q3⟩ := (Uses.acceptPoint P P' _ _ (by exact hr)).run _ _ hc _ _ _ _ h1 k1
        rcases ih m m' q1 q3 k2 h2 with h4 | ⟨h4, h5, h6⟩
        · refine .inl ?_
          rw [k3]
          exact fun he => h4 (Nat.succ.inj he)
        · refine .inr ⟨h4, ?_, h6⟩
          rw [k3]
          exact .cons q2 h5

/-! ### The number of opening proofs

A run that returns has read as many opening proofs as there are points of evaluation. That number is known only after all is read; until
then the two circuits may be different. -/

/-- Before the opening proofs are read; after both sides have read as many; after one side has read more. -/
inductive Stage
  | before
  | read
  | apart
  deriving DecidableEq

/-- From the same circuit, unless the numbers are different. -/
def At {α α' : Type} (w : Stage) (x : Build α) (x' : Build α') (Q : α → α' → Prop) : Prop := ∀ c c' r e r' e', (w ≠ .apart → SameCircuit c c') →
  x.1 c = some (r, e) → x'.1 c' = some (r', e') → (w ≠ .apart → SameCircuit e e') ∧ Q r r'

theorem At.op {α α' : Type} {w : Stage} {x : Build α} {x' : Build α'} {Q : α → α' → Prop} (h : w ≠ .apart → Both x x' Q) :
    At w x x' fun a a' => w ≠ .apart → Q a a' := fun c c' r e r' e' hc h1 h2 =>
  ⟨fun hw => ((h hw).run c c' (hc hw) r e r' e' h1 h2).1, fun hw => ((h hw).run c c' (hc hw) r e r' e' h1 h2).2⟩

/-- The circuit chip and itself, at a stage. -/
noncomputable def staged : Link circuitChip circuitChip (id : Pt → Pt) where
  W := Stage
  le w w' := w = .before ∨ w = w'
  refl _ := .inr rfl
  trans h h' := by
    rcases h with h | rfl
    · exact .inl h
    · exact h'
  R w x x' Q := At w x x' (Q w)
  s w a a' := w ≠ .apart → SameCell a a'
  p w a a' := w ≠ .apart → SamePt a a'
  n w a a' := w ≠ .apart → SamePt a a'
  o w a a' := w ≠ .apart → SamePt a a'
  known w k a a' := (w ≠ .apart → SameCell (F := N) a a') ∧ AV.value a = k ∧ AV.value a' = k
  s_up h e := by
    rcases h with rfl | rfl
    · exact fun _ => e (by decide)
    · exact e
  p_up h e := by
    rcases h with rfl | rfl
    · exact fun _ => e (by decide)
    · exact e
  n_up h e := by
    rcases h with rfl | rfl
    · exact fun _ => e (by decide)
    · exact e
  o_up h e := by
    rcases h with rfl | rfl
    · exact fun _ => e (by decide)
    · exact e
  n_p h := h
  p_o h := h
  known_up h e := by
    rcases h with rfl | rfl
    · exact ⟨fun _ => e.1 (by decide), e.2⟩
    · exact e
  known_s h := h.1
  pure h := fun c c' r e r' e' hc h1 h2 => by
    cases h1
    cases h2
    exact ⟨hc, h⟩
  bind hx h := fun c c' r e r' e' hc h1 h2 => by
    obtain ⟨a, c1, k1, k2⟩ := build_bind h1
    obtain ⟨a', c1', k1', k2'⟩ := build_bind h2
    obtain ⟨q1, q2⟩ := hx c c' _ _ _ _ hc k1 k1'
    exact h _ _ _ (.inr rfl) q2 _ _ _ _ _ _ q1 k2 k2'
  mono hx h := fun c c' r e r' e' hc h1 h2 => (hx c c' r e r' e' hc h1 h2).imp_right (h _ _ _ (.inr rfl))
  panic := fun _ _ _ _ _ _ _ h => by cases h
  add ha hb := At.op fun h => link.add (w := ()) (ha h) (hb h)
  sub ha hb := At.op fun h => link.sub (w := ()) (ha h) (hb h)
  mul ha hb := At.op fun h => link.mul (w := ()) (ha h) (hb h)
  div ha hb := At.op fun h => link.div (w := ()) (ha h) (hb h)
  square ha := At.op fun h => link.square (w := ()) (ha h)
  sumWithCoeff hl := At.op fun h => link.sumWithCoeff (w := ()) (hl.imp fun _ _ e => ⟨e.1 h, e.2⟩)
  assignZero := At.op fun _ => link.assignZero (w := ())
  assignOne := At.op fun _ => link.assignOne (w := ())
  assignConst k := fun c c' r e r' e' hc h1 h2 =>
    let ⟨q1, q2⟩ := At.op (x := circuitChip.assignConst k) (x' := circuitChip.assignConst k) (Q := SameCell) (fun _ => Circuit.Rel.assignConstant k) c c' r e r' e' hc h1 h2
    ⟨q1, q2, assignConstant_value h1, assignConstant_value h2⟩
  toValue h := fun c c' r e r' e' hc h1 h2 => by
    cases h1
    cases h2
    exact ⟨hc, h.2.1.trans h.2.2.symm⟩
  pAdd ha hb := At.op fun h => link.pAdd (w := ()) (ha h) (hb h)
  pSub ha hb := At.op fun h => link.pSub (w := ()) (ha h) (hb h)
  pAssignOne := At.op fun _ => link.pAssignOne (w := ())
  pAssignConst P := At.op fun _ => link.pAssignConst (w := ()) P
  normalize ha := At.op fun h => link.normalize (w := ()) (ha h)
  scalarMul hk ha := At.op fun h => link.scalarMul (w := ()) (hk h) (ha h)
  scalarMulConstant P hk := At.op fun h => link.scalarMulConstant (w := ()) P (hk h)
  multiExp hp hs := At.op fun h => link.multiExp (w := ()) (hp.imp fun _ _ e => e h) (hs.imp fun _ _ e => e h)

/-- At this stage the opening proofs may be read as often as `ks` says: at most once. -/
def Allowed (ks : List Kind) (w : Stage) : Prop := ks.count .stop = 0 ∨ (w = .before ∧ ks.count .stop ≤ 1)

def Steps {α α' : Type} (ks : List Kind) (w : Stage) (x : Rd (T ps) α) (x' : Rd (T ps) α') (Q : Stage → α → α' → Prop) : Prop :=
  Allowed ks w → ∀ r r' c c' a e a' e', (w ≠ .apart → Near r r' ∧ SameCircuit c c') → (x r).1 c = some (a, e) → (x' r').1 c' = some (a', e') →
    ∃ w', (w = .before ∨ w = w') ∧ (ks.count .stop = 0 → w' = w) ∧ (w' ≠ .apart → Near a.2 a'.2 ∧ SameCircuit e e') ∧ Q w' a.1 a'.1

theorem Steps.op {α α' : Type} {ks : List Kind} (hk : ks.count .stop = 0) {w : Stage} {x : Rd (T ps) α} {x' : Rd (T ps) α'} {Q : α → α' → Prop} (h : w ≠ .apart → Uses x x' Q) :
    Steps ks w x x' fun w a a' => w ≠ .apart → Q a a' := fun _ r r' c c' a e a' e' hc h1 h2 => by
  refine ⟨w, .inr rfl, fun _ => rfl, fun hw => ?_, fun hw => ?_⟩
  · obtain ⟨q1, -, q2⟩ := (h hw r r' (hc hw).1).run c c' (hc hw).2 _ _ _ _ h1 h2
    exact ⟨q2, q1⟩
  · exact ((h hw r r' (hc hw).1).run c c' (hc hw).2 _ _ _ _ h1 h2).2.1

theorem Steps.lift {α α' : Type} {w : Stage} {x : Build α} {x' : Build α'} {Q : Stage → α → α' → Prop} (h : At w x x' (Q w)) :
    Steps (ps := ps) [] w (Rd.lift x) (Rd.lift x') Q := fun _ r r' c c' a e a' e' hc h1 h2 => by
  obtain ⟨b, c1, k1, k2⟩ := build_bind h1
  obtain ⟨b', c1', k1', k2'⟩ := build_bind h2
  cases k2
  cases k2'
  obtain ⟨q1, q2⟩ := h c c' _ _ _ _ (fun hw => (hc hw).2) k1 k1'
  exact ⟨w, .inr rfl, fun _ => rfl, fun hw => ⟨(hc hw).1, q1 hw⟩, q2⟩

/-- How the opening proofs are related: they are not yet read; they are the same; there are more of one. -/
def Opened (w : Stage) (l l' : List APt) : Prop := match w with
  | .before => False
  | .read => List.Forall₂ SamePt l l'
  | .apart => l.length ≠ l'.length

instance opened_up {l l' : List circuitChip.P} : Up staged.le fun w => Opened w l l' := ⟨fun h e => by
  rcases h with rfl | rfl
  · exact e.elim
  · exact e⟩

/-- Reading, step by step. -/
noncomputable def core (ps : PoseidonSpec N rate) (d : Codec N Pt) : RdCore staged (T ps) (T ps) d d where
  R ks w x x' Q := Steps ks w x x' Q
  ret h := fun _ r r' c c' a e a' e' hc h1 h2 => by
    cases h1
    cases h2
    exact ⟨_, .inr rfl, fun _ => rfl, hc, h⟩
  bind := fun {α α' β β' ks ks' w x x' f f' Q S} hx h hk r r' c c' b e b' e' hc h1 h2 => by
    obtain ⟨⟨a, r1⟩, c1, k1, k2⟩ := build_bind h1
    obtain ⟨⟨a', r1'⟩, c1', k1', k2'⟩ := build_bind h2
    unfold Allowed at hk
    rw [List.count_append] at hk
    have hk1 : Allowed ks w := by
      rcases hk with hk | ⟨hk, hk'⟩
      · exact .inl (by omega)
      · exact .inr ⟨hk, by omega⟩
    obtain ⟨w1, q1, q2, q3, q4⟩ := hx hk1 r r' c c' _ _ _ _ hc k1 k1'
    have hk2 : Allowed ks' w1 := by
      rcases hk with hk | ⟨hk, hk'⟩
      · exact .inl (by omega)
      · by_cases hz : ks.count .stop = 0
        · exact .inr ⟨(q2 hz).trans hk, by omega⟩
        · exact .inl (by omega)
    obtain ⟨w2, p1, p2, p3, p4⟩ := h w1 a a' q1 q4 hk2 r1 r1' c1 c1' _ _ _ _ q3 k2 k2'
    refine ⟨w2, ?_, fun hz => ?_, p3, p4⟩
    · rcases q1 with q1 | rfl
      · exact .inl q1
      · exact p1
    · rw [List.count_append] at hz
      rw [p2 (by omega), q2 (by omega)]
  mono hx h := fun hk r r' c c' a e a' e' hc h1 h2 => by
    obtain ⟨w1, q1, q2, q3, q4⟩ := hx hk r r' c c' _ _ _ _ hc h1 h2
    exact ⟨w1, q1, q2, q3, h _ _ _ q4⟩
  lift h := Steps.lift h
  commonPoint h := fun hk r r' c c' a e a' e' hc h1 h2 => by
    obtain ⟨w1, q1, q2, q3, -⟩ := Steps.op (ks := []) rfl (fun hw => Uses.absorbPoint (h hw) _ _) hk r r' c c' _ _ _ _ hc h1 h2
    exact ⟨w1, q1, q2, q3, trivial⟩
  commonScalar h := fun hk r r' c c' a e a' e' hc h1 h2 => by
    obtain ⟨w1, q1, q2, q3, -⟩ := Steps.op (ks := []) rfl (fun hw => Uses.absorbScalar (h hw) _ _) hk r r' c c' _ _ _ _ hc h1 h2
    exact ⟨w1, q1, q2, q3, trivial⟩
  squeeze := Steps.op rfl fun _ => Uses.squeeze
  readPoint := Steps.op rfl fun _ => Uses.readPoint
  readScalar := Steps.op rfl fun _ => Uses.readScalar

theorem readW {w : Stage} : (core ps d).R [.stop] w (Api.readW d) (Api.readW d) Opened := fun hk r r' c c' a e a' e' hc h1 h2 => by
  rcases hk with hk | ⟨rfl, -⟩
  · cases hk
  · obtain ⟨hn, hs⟩ := hc (by decide)
    rcases readAll _ _ hs hn h1 h2 with h | ⟨q1, q2, q3⟩
    · exact ⟨.apart, .inl rfl, fun h => (by cases h), fun h => (h rfl).elim, h⟩
    · exact ⟨.read, .inl rfl, fun h => (by cases h), fun _ => ⟨q3, q1⟩, q2⟩

theorem count_rep {n : ℕ} {ks : List Kind} (h : ks.count .stop = 0) : (rep n ks).count .stop = 0 := by
  rw [List.count_eq_zero] at *
  unfold rep
  rw [List.mem_flatten]
  rintro ⟨l, h1, h2⟩
  rw [(List.mem_replicate.1 h1).2] at h2
  exact h h2

theorem count_setKinds : ∀ n, (setKinds n).count Kind.stop = 0
  | 0 => rfl
  | n + 1 => by
    have := count_setKinds n
    rw [List.count_eq_zero] at *
    unfold setKinds
    split <;> simp [this]

theorem count_kinds (vk : VK N Pt) (np : ℕ) : (vk.kindsWith np [.stop]).count Kind.stop = 1 := by
  have h0 : ∀ phs : List ℕ, (phs.flatMap fun ph => rep np (rep (vk.advicePhase.count ph) [Kind.point])).count Kind.stop = 0 := fun phs => by
    rw [List.count_eq_zero]
    simp only [List.mem_flatMap, not_exists, not_and]
    exact fun _ _ => List.count_eq_zero.1 (count_rep (count_rep rfl))
  unfold VK.kindsWith
  simp only [List.count_append]
  rw [h0, count_rep (count_rep rfl), count_rep (count_rep rfl), count_rep (count_rep rfl), count_rep rfl, count_rep (count_rep rfl), count_rep (count_rep rfl),
    count_rep rfl, count_rep rfl, count_rep (count_setKinds _), count_rep (count_rep rfl)]
  rfl

/-- The points are grouped alike, so a run that has read another number of opening proofs panics. -/
theorem openParams {w : Stage} {q q' : Api.Params APt (AV N)} (hq : staged.Params w q q') (hw : Opened w q.w q'.w) :
    At w (Api.openParams (c := circuitChip) q) (Api.openParams (c := circuitChip) q') fun o o' => w = .read ∧ staged.Open w o o' := by
  cases w with
  | before => exact hw.elim
  | read => exact fun c c' r e r' e' hc h1 h2 => (Link.openParams hq (hw.imp fun _ _ h _ => h) c c' r e r' e' hc h1 h2).imp_right fun h => ⟨rfl, h⟩
  | apart =>
    intro c c' r e r' e' hc h1 h2
    exfalso
    obtain ⟨qs, c1, k1, k2⟩ := build_bind h1
    obtain ⟨qs', c1', k1', k2'⟩ := build_bind h2
    obtain ⟨-, h⟩ := Link.queries hq c c' _ _ _ _ hc k1 k1'
    obtain ⟨ps, c2, k3, -⟩ := build_bind k2
    obtain ⟨ps', c2', k3', -⟩ := build_bind k2'
    have hg := (Link.groupQueries h).length_eq
    unfold Api.getPointSchemas at k3 k3'
    dsimp only at k3 k3'
    split at k3
    · rename_i e1
      split at k3'
      · rename_i e2
        exact hw (e1.trans (hg.trans e2.symm))
      · cases k3'
    · cases k3

theorem verifyNoEval (vk : VK N Pt) {ics ics' : List (List APt)} (hics : List.Forall₂ (List.Forall₂ SamePt) ics ics') (key : String) :
    Uses (ps := ps) (Api.verifyNoEval d vk ics key) (Api.verifyNoEval d vk ics' key) fun r r' => link.Open () r.1 r'.1 ∧ List.Forall₂ SamePt r.2 r'.2 := by
  have key : (core ps d).R (vk.kindsWith ics.length [.stop]) Stage.before (Api.verifyNoEval d vk ics key) (Api.verifyNoEval d vk ics' key)
      fun w r r' => w = .read ∧ staged.Open w r.1 r'.1 ∧ List.Forall₂ (staged.p w) r.2 r'.2 := by
    have h := (core ps d).buildParams (w := Stage.before) vk (A := Opened) readW (ics := ics) (ics' := ics') (hics.imp fun _ _ h => h.imp fun _ _ h _ => h) key
    rw [show vk.map (id : Pt → Pt) = vk from by obtain ⟨⟩ := vk; simp [VK.map]] at h
    refine RdCore.bind1 _ h fun w p p' _ hp => ?_
    obtain ⟨hp, hw⟩ := hp
    refine RdCore.bind0 _ ((core ps d).lift (w := w) (Q := fun (w : Stage) o o' => w = Stage.read ∧ staged.Open w o o') (openParams hp hw)) fun w1 o o' hw1 ho => ?_
    obtain ⟨rfl, ho⟩ := ho
    clear hw
    up hw1
    refine RdCore.bind0 _ ((core ps d).lift (Link.index (Q := fun w => List.Forall₂ (staged.p w)) hp.adviceCommitments 0)) fun w2 a a' hw2 ha => ?_
    have hw2 : Stage.read = w2 := hw2.resolve_left (by decide)
    subst hw2
    exact (core ps d).ret ⟨rfl, ho, ha⟩
  refine fun r r' hr => ⟨fun c c' hc a e a' e' h1 h2 => ?_⟩
  obtain ⟨w, -, -, q1, rfl, q2, q3⟩ := key (.inr ⟨rfl, (count_kinds vk _).le⟩) r r' c c' a e a' e' (fun _ => ⟨hr, hc⟩) h1 h2
  obtain ⟨q4, q5⟩ := q1 (by decide)
  exact ⟨q5, ⟨⟨q2.wx.imp (fun _ _ h => h (by decide)) fun _ _ h => h (by decide), q2.wg.imp (fun _ _ h => h (by decide)) fun _ _ h => h (by decide)⟩, q3.imp fun _ _ h => h (by decide)⟩, q4⟩

/-! ### Proofs of the same form -/

/-- Instances with columns of the same lengths. -/
def SameLengths (l l' : List (List (List N))) : Prop := List.Forall₂ (List.Forall₂ fun c c' : List N => c.length = c'.length) l l'

theorem map_id (vk : VK N Pt) : vk.map (id : Pt → Pt) = vk := by
  obtain ⟨⟩ := vk
  simp [VK.map]

theorem all_of_length {α β : Type} : ∀ {l : List α} {l' : List β}, l.length = l'.length → List.Forall₂ (fun _ _ => True) l l'
  | [], [], _ => .nil
  | _ :: _, _ :: _, h => .cons trivial (all_of_length (Nat.succ.inj h))

theorem assignInstanceCommitment (vk : VK N Pt) {is is' : List (List (List N))} (h : SameLengths is is') :
    Both (Api.assignInstanceCommitment (c := circuitChip) vk is) (Api.assignInstanceCommitment (c := circuitChip) vk is')
      fun r r' => List.Forall₂ SameCell r.1 r'.1 ∧ List.Forall₂ (List.Forall₂ SamePt) r.2 r'.2 := by
  unfold Api.assignInstanceCommitment
  split
  · split
    · refine Both.bind (Link.mapM' (X := link) (w := ()) (A := fun _ => List.Forall₂ fun c c' : List N => c.length = c'.length)
        (Q := fun _ => List.Forall₂ (List.Forall₂ SameCell)) h fun _ _ a a' ha =>
        Link.mapM' (X := link) (A := fun _ (c c' : List N) => c.length = c'.length) (Q := fun _ => List.Forall₂ SameCell) ha fun _ _ a a' ha => ?_) fun as as' has => ?_
      · unfold Api.assignColumn
        split
        · split
          · exact Link.mapM' (X := link) (A := fun _ _ _ => True) (Q := fun _ => SameCell) (all_of_length ha) fun _ _ k k' _ => Rel.assign k k'
          · exact Both.panic'
        · exact Both.panic
      · refine Both.bind (Link.mapM' (X := link) (w := ()) (A := fun _ => List.Forall₂ (List.Forall₂ SameCell)) (Q := fun _ => List.Forall₂ SamePt) has fun _ _ a a' ha =>
          Link.mapM' (X := link) (A := fun _ => List.Forall₂ SameCell) (Q := fun _ => SamePt) ha fun _ _ a a' ha => ?_) fun cs cs' hcs => ?_
        · have := Link.columnCommitment (X := link) rfl vk (w := ()) ha
          rw [map_id] at this
          exact this
        · exact Both.pure ⟨rel_flatten (rel_flatten has), hcs⟩
    · exact Both.panic'
  · exact Both.panic

/-- The same name, as many instances, and readers at the same cells; the bytes may differ. -/
structure Alike (p p' : ProofData (T ps)) : Prop where
  key : p.key = p'.key
  instances : SameLengths p.instances p'.instances
  near : Near p.reader p'.reader

/-- What is kept of two proofs. -/
structure Kept (v v' : Api.Verified (T ps)) : Prop where
  instances : List.Forall₂ SameCell v.instances v'.instances
  proof : link.Open () v.proof v'.proof
  advice : List.Forall₂ SamePt v.advice v'.advice
  near : Near v.reader v'.reader

theorem verifyProof (vk : VK N Pt) {p p' : ProofData (T ps)} (h : Alike p p') : Both (Api.verifyProof d vk p) (Api.verifyProof d vk p') Kept := by
  unfold Api.verifyProof
  rw [← h.key]
  exact Both.bind (assignInstanceCommitment vk h.instances) fun i i' hi =>
    Both.bind (verifyNoEval vk hi.2 p.key _ _ h.near) fun r r' hr => Both.pure ⟨hi.1, hr.1.1, hr.1.2, hr.2⟩

theorem each {α α' β β' : Type} {A : α → α' → Prop} {Q : β → β' → Prop} {f : α → Rd (T ps) β} {f' : α' → Rd (T ps) β'}
    (h : ∀ a a', A a a' → Uses (f a) (f' a') Q) : ∀ {l : List α} {l' : List α'}, List.Forall₂ A l l' →
    Uses (Rd.each f l) (Rd.each f' l') (List.Forall₂ Q)
  | _, _, .nil => Uses.ret .nil
  | _, _, .cons ha hl => Uses.bind (h _ _ ha) fun _ _ hb => Uses.bind (each h hl) fun _ _ hbs => Uses.ret (.cons hb hbs)

theorem bindProof {v v' : Api.Verified (T ps)} (h : Kept v v') : Uses (Api.bindProof v) (Api.bindProof v') fun _ _ => True :=
  Uses.bind (Uses.lift (Q := fun a a' => SameCell a.1 a'.1 ∧ Near a.2 a'.2) (Both.bind (squeezed h.near) fun _ _ h => Both.pure h)) fun a a' h =>
    Uses.absorbScalar (p := a.1) (p' := a'.1) h.1 .commonScalar .commonScalar

/-- The same key, and proofs with as many instances. -/
structure AlikeAll (p p' : CircuitProof (T ps)) : Prop where
  vk : p'.vk = p.vk
  proofs : List.Forall₂ Alike p.proofs p'.proofs

theorem verifyCircuit {p p' : CircuitProof (T ps)} (h : AlikeAll p p') :
    Uses (Api.verifyCircuit d p) (Api.verifyCircuit d p') (List.Forall₂ Kept) := by
  unfold Api.verifyCircuit
  rw [h.vk]
  exact Uses.bind (Uses.lift (Link.mapM' (X := link) (w := ()) (A := fun _ => Alike) (Q := fun _ => Kept) h.proofs
    fun _ _ _ _ ha => verifyProof p.vk ha)) fun rs rs' hrs => Uses.bind (each (fun _ _ ha => bindProof ha) hrs) fun _ _ _ => Uses.ret hrs

/-- **Aggregation**: the circuit depends only on the keys and the numbers of instances. -/
theorem verifyAggregation {ps1 ps2 : List (CircuitProof (T ps))} (h : List.Forall₂ AlikeAll ps1 ps2) :
    Uses (Api.verifyAggregation d ps1) (Api.verifyAggregation d ps2) fun r r' => SamePt r.1 r'.1 ∧ SamePt r.2.1 r'.2.1 ∧
      List.Forall₂ SameCell r.2.2.1 r'.2.2.1 ∧ List.Forall₂ (List.Forall₂ SamePt) r.2.2.2 r'.2.2.2 := by
  refine Uses.bind (each (fun _ _ ha => verifyCircuit ha) h) fun rs rs' hrs => Uses.bind Uses.squeeze fun ch ch' hch => ?_
  refine Uses.bind (Uses.lift (Link.aggregate (X := link) (w := ()) hch (rel_map (q := link.Open _) (fun _ _ h => Kept.proof h) (rel_flatten hrs)))) fun e e' he => ?_
  exact Uses.ret ⟨he.1, he.2, rel_flatMap (fun _ _ h => Kept.instances h) (rel_flatten hrs), rel_map (fun _ _ h => Kept.advice h) (rel_flatten hrs)⟩

end Shape
end Verif.Api
