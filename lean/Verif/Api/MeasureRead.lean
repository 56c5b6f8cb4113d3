import Verif.Api.MeasureChip
import Verif.Api.LinkShape

/-!
# The measuring pass reads other proofs

The floor planner measures the circuit without witnesses, whose proofs are copies of the first. What is read in the two passes differs,
but the number of rows does not depend on it.
-/

namespace Verif.Api
open Verif.Circuit Verif.Ecc

namespace Measure
open Shape (Stage Allowed build_bind)

variable {rate : ℕ} {ps : PoseidonSpec N rate} {d : Codec N Pt}

/-- The Poseidon transcript of the circuit. -/
noncomputable abbrev T (ps : PoseidonSpec N rate) : Transcript circuitChip := poseidonTranscript circuitChip ps circuitEncode

/-- The Poseidon transcript of the measuring pass. -/
noncomputable abbrev T' (ps : PoseidonSpec N rate) : Transcript measureChip := poseidonTranscript measureChip ps measureEncode

theorem panic' {α α' : Type} {x : M N α} {Q : α → α' → Prop} : Meas x (fun _ => none : M N α') Q := fun _ _ _ _ _ _ _ h => by cases h

theorem m_bind {α β : Type} {x : M N α} {f : α → M N β} {ctx ctx' : Ctx N} {b : β} (h : (x >>= f) ctx = some (b, ctx')) :
    ∃ a c1, x ctx = some (a, c1) ∧ f a c1 = some (b, ctx') := by
  simp only [Bind.bind, StateT.bind, Option.bind_eq_some_iff] at h
  obtain ⟨⟨a, c1⟩, h1, h2⟩ := h
  exact ⟨a, c1, h1, h2⟩

theorem rd_bind {α β : Type} {x : Rd (T' ps) α} {f : α → Rd (T' ps) β} {r : Reader (T' ps)} {ctx ctx' : Ctx N} {b : β × Reader (T' ps)}
    (h : ((x >>= f) r : M N (β × Reader (T' ps))) ctx = some (b, ctx')) :
    ∃ a r1 c1, (x r : M N (α × Reader (T' ps))) ctx = some ((a, r1), c1) ∧ (f a r1 : M N (β × Reader (T' ps))) c1 = some (b, ctx') := by
  have h' : ((x r : M N (α × Reader (T' ps))) >>= fun a => (f a.1 a.2 : M N (β × Reader (T' ps)))) ctx = some (b, ctx') := h
  obtain ⟨⟨a, r1⟩, c1, h1, h2⟩ := m_bind h'
  exact ⟨a, r1, c1, h1, h2⟩

/-- Transcripts with as many words; the bytes that are left may differ. -/
def Near (r : Reader (T ps)) (r' : Reader (T' ps)) : Prop := link.Sponge () r.st r'.st

/-- Both sides use the transcript. -/
def Uses {α α' : Type} (x : Rd (T ps) α) (x' : Rd (T' ps) α') (Q : α → α' → Prop) : Prop :=
  ∀ r r', Near r r' → Meas (x r).1 (x' r') fun a a' => Q a.1 a'.1 ∧ Near a.2 a'.2

theorem Uses.bind {α α' β β' : Type} {x : Rd (T ps) α} {x' : Rd (T' ps) α'} {f : α → Rd (T ps) β} {f' : α' → Rd (T' ps) β'}
    {Q : α → α' → Prop} {S : β → β' → Prop} (hx : Uses x x' Q) (h : ∀ a a', Q a a' → Uses (f a) (f' a') S) : Uses (x >>= f) (x' >>= f') S :=
  fun r r' hr => Meas.bind (hx r r' hr) fun _ _ ha => h _ _ ha.1 _ _ ha.2

theorem Uses.ret {α α' : Type} {a : α} {a' : α'} {Q : α → α' → Prop} (h : Q a a') : Uses (ps := ps) (pure a) (pure a') Q :=
  fun _ _ hr => Meas.pure ⟨h, hr⟩

theorem Uses.lift {α α' : Type} {x : Build α} {x' : M N α'} {Q : α → α' → Prop} (h : Meas x.1 x' Q) :
    Uses (ps := ps) (Rd.lift x) (Rd.lift x') Q :=
  fun _ _ hr => Meas.bind h fun _ _ ha => Meas.pure ⟨ha, hr⟩

theorem commonPoint {r : Reader (T ps)} {r' : Reader (T' ps)} {p p' : APt} (hp : LikeRead p p') (hr : Near r r') :
    Meas ((T ps).commonPoint r.st p : Build _).1 ((T' ps).commonPoint r'.st p') (link.Sponge ()) :=
  Meas.bind (words.point (w := ()) hp) fun _ _ hl => Meas.pure (Link.update hr hl)

theorem commonScalar {r : Reader (T ps)} {r' : Reader (T' ps)} (p p' : AV N) (hr : Near r r') :
    Meas ((T ps).commonScalar r.st p : Build _).1 ((T' ps).commonScalar r'.st p') (link.Sponge ()) :=
  Meas.bind (words.scalar (w := ()) (s := p) (s' := p') trivial) fun _ _ hl => Meas.pure (Link.update hr hl)

theorem Uses.absorbPoint {p p' : APt} (hp : LikeRead p p') (e e' : APt → Event APt (AV N)) :
    Uses (ps := ps) (Rd.absorbPoint e p) (Rd.absorbPoint e' p') fun _ _ => True :=
  fun _ _ hr => Meas.bind (commonPoint hp hr) fun _ _ h => Meas.pure ⟨trivial, h⟩

theorem Uses.absorbScalar (p p' : AV N) (e e' : AV N → Event APt (AV N)) :
    Uses (ps := ps) (Rd.absorbScalar e p) (Rd.absorbScalar e' p') fun _ _ => True :=
  fun _ _ hr => Meas.bind (commonScalar p p' hr) fun _ _ h => Meas.pure ⟨trivial, h⟩

theorem squeezed {r : Reader (T ps)} {r' : Reader (T' ps)} (hr : Near r r') :
    Meas ((T ps).squeeze r.st : Build _).1 ((T' ps).squeeze r'.st) fun a a' => link.Sponge (rate := rate) () a.2 a'.2 :=
  Meas.bind (Link.spongeSqueeze mulAdd ps (w := ()) hr) fun _ _ hr => Meas.bind (words.decode (w := ()) hr.1) fun _ _ _ => Meas.pure hr.2

theorem Uses.squeeze : Uses (ps := ps) Rd.squeeze Rd.squeeze fun _ _ => True := fun _ _ hr =>
  Meas.bind (squeezed hr) fun _ _ h => Meas.pure ⟨trivial, h⟩

theorem assignPoints (P P' : Pt) : Meas (Circuit.assignPoint P) (Circuit.assignPoint P') LikeRead :=
  (Meas.of (Takes.assignPoint P) (Takes.assignPoint P') (le_refl _)).mono fun _ _ h =>
    ⟨(true, true), by rw [← assignPoint_flat]; exact h.1, by rw [← assignPoint_flat]; exact h.2⟩

theorem Uses.acceptPoint (P P' : Pt) : Uses (ps := ps) (Rd.acceptPoint P) (Rd.acceptPoint P') LikeRead :=
  Uses.bind (Uses.lift (x := circuitChip.pAssignVar P) (x' := measureChip.pAssignVar P') (assignPoints P P')) fun _ _ hp =>
    Uses.bind (Uses.absorbPoint hp _ _) fun _ _ _ => Uses.ret hp

theorem Uses.acceptScalar (k k' : N) : Uses (ps := ps) (Rd.acceptScalar k) (Rd.acceptScalar k') fun _ _ => True :=
  Uses.bind (Uses.lift (x := circuitChip.assignVar k) (x' := measureChip.assignVar k') (Meas.cells (Takes.assign k) (Takes.assign k'))) fun _ _ _ =>
    Uses.bind (Uses.absorbScalar _ _ _ _) fun _ _ _ => Uses.ret trivial

/-- What is read may differ. -/
theorem Uses.nextPoint : Uses (ps := ps) (Rd.nextPoint d) (Rd.nextPoint d) fun _ _ => True := fun r r' hr => by
  unfold Rd.nextPoint
  split <;> split <;> exact Meas.pure ⟨trivial, hr⟩

theorem Uses.nextScalar : Uses (ps := ps) (Rd.nextScalar d) (Rd.nextScalar d) fun _ _ => True := fun r r' hr => by
  unfold Rd.nextScalar
  split <;> split <;> exact Meas.pure ⟨trivial, hr⟩

theorem Uses.readPoint : Uses (ps := ps) (Rd.readPoint d) (Rd.readPoint d) LikeRead :=
  Uses.bind Uses.nextPoint fun o o' _ => by
    cases o with
    | none => exact fun _ _ _ => Meas.panic
    | some P =>
      cases o' with
      | none => exact fun _ _ _ => panic'
      | some P' => exact Uses.acceptPoint P P'

theorem Uses.readScalar : Uses (ps := ps) (Rd.readScalar d) (Rd.readScalar d) fun _ _ => True :=
  Uses.bind Uses.nextScalar fun o o' _ => by
    cases o with
    | none => exact fun _ _ _ => Meas.panic
    | some P =>
      cases o' with
      | none => exact fun _ _ _ => panic'
      | some P' => exact Uses.acceptScalar P P'

/-- The measuring pass has taken at least as many rows. -/
def Least (c d c' d' : Ctx N) : Prop := d.offset + c'.offset ≤ d'.offset + c.offset

/-- If both sides read opening proofs to the end, either they read different numbers of points, or the rows are still counted. -/
def ReadsAll (c d c' d' : Ctx N) (a : List APt × Reader (T ps)) (a' : List APt × Reader (T' ps)) : Prop :=
  a.1.length ≠ a'.1.length ∨ (Least c d c' d' ∧ List.Forall₂ LikeRead a.1 a'.1 ∧ Near a.2 a'.2)

/-- One step of reading points to the end. -/
theorem readAll_cases' {n : ℕ} {r : Reader (T' ps)} {ctx e : Ctx N} {a : List APt × Reader (T' ps)}
    (h : (Rd.readAll d n r : M N (List APt × Reader (T' ps))) ctx = some (a, e)) :
    (a.1 = [] ∧ a.2.st = r.st ∧ e = ctx) ∨
      ∃ m P p r1 c1 l, (Rd.acceptPoint P ⟨(d.readPoint r.bytes).elim [] Prod.snd, r.st, r.trace⟩ : M N (APt × Reader (T' ps))) ctx = some ((p, r1), c1) ∧
        (Rd.readAll d m r1 : M N (List APt × Reader (T' ps))) c1 = some ((l, a.2), e) ∧ a.1 = p :: l := by
  cases n with
  | zero =>
    cases h
    exact .inl ⟨rfl, rfl, rfl⟩
  | succ n =>
    unfold Rd.readAll at h
    obtain ⟨o, r0, c0, h0, h⟩ := rd_bind h
    cases hr : d.readPoint r.bytes with
    | none =>
      have : (Rd.nextPoint d r : M N (Option Pt × Reader (T' ps))) = pure (none, r) := by
        unfold Rd.nextPoint
        rw [hr]
      rw [this] at h0
      cases h0
      cases h
      exact .inl ⟨rfl, rfl, rfl⟩
    | some x =>
      obtain ⟨P, rest⟩ := x
      have : (Rd.nextPoint d r : M N (Option Pt × Reader (T' ps))) = pure (some P, ⟨rest, r.st, r.trace⟩) := by
        unfold Rd.nextPoint
        rw [hr]
      rw [this] at h0
      cases h0
      obtain ⟨p, r1, c1, h1, h⟩ := rd_bind h
      obtain ⟨l, r2, c2, h2, h⟩ := rd_bind h
      cases h
      exact .inr ⟨n, P, p, r1, c1, l, h1, h2, rfl⟩

theorem readAll : ∀ (n n' : ℕ) {r : Reader (T ps)} {r' : Reader (T' ps)} {c c' e e' : Ctx N} {a : List APt × Reader (T ps)} {a' : List APt × Reader (T' ps)},
    Near r r' → (Rd.readAll d n r : Build (List APt × Reader (T ps))).1 c = some (a, e) →
    (Rd.readAll d n' r' : M N (List APt × Reader (T' ps))) c' = some (a', e') → ReadsAll c e c' e' a a' := by
  intro n n' r r' c c' e e' a a' hr h h'
  obtain ⟨l, ra⟩ := a
  induction l generalizing n n' r r' c c' a' with
  | nil =>
    rcases Shape.readAll_cases h with ⟨-, h2, rfl⟩ | ⟨m, P, p, r1, c1, l, -, -, h3⟩
    · rcases readAll_cases' h' with ⟨k1, k2, rfl⟩ | ⟨m, P, p, r1, c1, l, -, -, h3⟩
      · refine .inr ⟨?_, by rw [k1]; exact .nil, ?_⟩
        · unfold Least
          omega
        · unfold Near
          rw [h2, k2]
          exact hr
      · refine .inl ?_
        rw [h3]
        simp
    · cases h3
  | cons p l ih =>
    rcases Shape.readAll_cases h with ⟨h1, -, -⟩ | ⟨m, P, q, r1, c1, l1, h1, h2, h3⟩
    · cases h1
    · cases h3
      rcases readAll_cases' h' with ⟨k1, -, -⟩ | ⟨m', P', q', r1', c1', l', k1, k2, k3⟩
      · refine .inl ?_
        rw [k1]
        simp
      · obtain ⟨q1, q2, q3⟩ := (Uses.acceptPoint P P' _ _ (by exact hr)) _ _ _ _ _ _ h1 k1
        rcases ih m m' q3 k2 h2 with h4 | ⟨h4, h5, h6⟩
        · refine .inl ?_
          rw [k3]
          exact fun he => h4 (Nat.succ.inj he)
        · refine .inr ⟨?_, ?_, h6⟩
          · unfold Least at h4 ⊢
            omega
          · rw [k3]
            exact .cons q2 h5

/-! ### The number of opening proofs -/

/-- Rows are counted, unless the numbers are different. -/
def At {α α' : Type} (w : Stage) (x : M N α) (x' : M N α') (Q : α → α' → Prop) : Prop := ∀ c r e c' r' e',
  x c = some (r, e) → x' c' = some (r', e') → (w ≠ .apart → Least c e c' e') ∧ Q r r'

theorem At.op {α α' : Type} {w : Stage} {x : M N α} {x' : M N α'} {Q : α → α' → Prop} (h : w ≠ .apart → Meas x x' Q) :
    At w x x' fun a a' => w ≠ .apart → Q a a' := fun c r e c' r' e' h1 h2 =>
  ⟨fun hw => (h hw c r e c' r' e' h1 h2).1, fun hw => (h hw c r e c' r' e' h1 h2).2⟩

theorem At.cells {α α' : Type} {w : Stage} {x : M N α} {x' : M N α'} (h : Meas x x' fun _ _ => True) : At w x x' fun _ _ => True :=
  fun c r e c' r' e' h1 h2 => ⟨fun _ => (h c r e c' r' e' h1 h2).1, trivial⟩

/-- The two passes, at a stage. -/
noncomputable def staged : Link circuitChip measureChip (id : Pt → Pt) where
  W := Stage
  le w w' := w = .before ∨ w = w'
  refl _ := .inr rfl
  trans h h' := by
    rcases h with h | rfl
    · exact .inl h
    · exact h'
  R w x x' Q := At w x.1 x' (Q w)
  s _ _ _ := True
  p w a a' := w ≠ .apart → Like a a'
  n w a a' := w ≠ .apart → LikeRead a a'
  o w a a' := w ≠ .apart → Like a a'
  known _ k a a' := AV.value a = k ∧ AV.value a' = k
  s_up _ e := e
  p_up h e := by
    rcases h with rfl | rfl
    · exact fun _ => e (by decide)
    · exact e
  n_up h e := by
    rcases h with rfl | rfl
    · exact fun _ => e (by decide)
    · exact e
  o_up h e := by
    rcases h with rfl | rfl
    · exact fun _ => e (by decide)
    · exact e
  n_p h := fun hw => (h hw).like
  p_o h := h
  known_up _ e := e
  known_s _ := trivial
  pure h := fun c r e c' r' e' h1 h2 => by
    cases h1
    cases h2
    exact ⟨fun _ => by unfold Least; omega, h⟩
  bind hx h := fun c r e c' r' e' h1 h2 => by
    obtain ⟨a, c1, k1, k2⟩ := build_bind h1
    obtain ⟨a', c1', k1', k2'⟩ := m_bind h2
    obtain ⟨q1, q2⟩ := hx _ _ _ _ _ _ k1 k1'
    obtain ⟨q3, q4⟩ := h _ _ _ (.inr rfl) q2 _ _ _ _ _ _ k2 k2'
    refine ⟨fun hw => ?_, q4⟩
    have g1 := q1 hw
    have g2 := q3 hw
    unfold Least at g1 g2 ⊢
    omega
  mono hx h := fun c r e c' r' e' h1 h2 => (hx c r e c' r' e' h1 h2).imp_right (h _ _ _ (.inr rfl))
  panic := fun _ _ _ _ _ _ h => by cases h
  add _ _ := At.cells (link.add (w := ()) trivial trivial)
  sub _ _ := At.cells (link.sub (w := ()) trivial trivial)
  mul _ _ := At.cells (link.mul (w := ()) trivial trivial)
  div _ _ := At.cells (link.div (w := ()) trivial trivial)
  square _ := At.cells (link.square (w := ()) trivial)
  sumWithCoeff hl := At.cells (link.sumWithCoeff (w := ()) hl)
  assignZero := At.cells (link.assignZero (w := ()))
  assignOne := At.cells (link.assignOne (w := ()))
  assignConst k := fun c r e c' r' e' h1 h2 => (assignConstant_known k c r e c' r' e' h1 h2).imp_left fun h _ => h
  toValue h := fun c r e c' r' e' h1 h2 => by
    cases h1
    cases h2
    exact ⟨fun _ => by unfold Least; omega, h.1.trans h.2.symm⟩
  pAdd ha hb := At.op fun h => link.pAdd (w := ()) (ha h) (hb h)
  pSub ha hb := At.op fun h => link.pSub (w := ()) (ha h) (hb h)
  pAssignOne := At.op fun _ => link.pAssignOne (w := ())
  pAssignConst P := At.op fun _ => link.pAssignConst (w := ()) P
  normalize ha := At.op fun h => link.normalize (w := ()) (ha h)
  scalarMul _ ha := At.op fun h => link.scalarMul (w := ()) trivial (ha h)
  scalarMulConstant P _ := At.op fun _ => link.scalarMulConstant (w := ()) P trivial
  multiExp hp hs := At.op fun h => link.multiExp (w := ()) (hp.imp fun _ _ e => e h) hs

def Steps {α α' : Type} (ks : List Kind) (w : Stage) (x : Rd (T ps) α) (x' : Rd (T' ps) α') (Q : Stage → α → α' → Prop) : Prop :=
  Allowed ks w → ∀ r r' c a e c' a' e', (w ≠ .apart → Near r r') → (x r).1 c = some (a, e) → x' r' c' = some (a', e') →
    ∃ w', (w = .before ∨ w = w') ∧ (ks.count .stop = 0 → w' = w) ∧ (w' ≠ .apart → Near a.2 a'.2 ∧ Least c e c' e') ∧ Q w' a.1 a'.1

theorem Steps.op {α α' : Type} {ks : List Kind} (hk : ks.count .stop = 0) {w : Stage} {x : Rd (T ps) α} {x' : Rd (T' ps) α'} {Q : α → α' → Prop}
    (h : w ≠ .apart → Uses x x' Q) : Steps ks w x x' fun w a a' => w ≠ .apart → Q a a' := fun _ r r' c a e c' a' e' hc h1 h2 => by
  refine ⟨w, .inr rfl, fun _ => rfl, fun hw => ?_, fun hw => ?_⟩
  · obtain ⟨q1, -, q2⟩ := h hw r r' (hc hw) _ _ _ _ _ _ h1 h2
    exact ⟨q2, q1⟩
  · exact (h hw r r' (hc hw) _ _ _ _ _ _ h1 h2).2.1

theorem Steps.cells {α α' : Type} {ks : List Kind} (hk : ks.count .stop = 0) {w : Stage} {x : Rd (T ps) α} {x' : Rd (T' ps) α'}
    (h : w ≠ .apart → Uses x x' fun _ _ => True) : Steps ks w x x' fun _ _ _ => True := fun hk' r r' c a e c' a' e' hc h1 h2 => by
  obtain ⟨w1, q1, q2, q3, -⟩ := Steps.op hk h hk' r r' c a e c' a' e' hc h1 h2
  exact ⟨w1, q1, q2, q3, trivial⟩

/-- How the opening proofs are related: they are not yet read; there are as many; there are more of one. -/
def Opened (w : Stage) (l l' : List APt) : Prop := match w with
  | .before => False
  | .read => List.Forall₂ LikeRead l l'
  | .apart => l.length ≠ l'.length

instance opened_up {l : List circuitChip.P} {l' : List measureChip.P} : Up staged.le fun w => Opened w l l' := ⟨fun h e => by
  rcases h with rfl | rfl
  · exact e.elim
  · exact e⟩

/-- Reading, step by step. -/
noncomputable def core (ps : PoseidonSpec N rate) (d : Codec N Pt) : RdCore staged (T ps) (T' ps) d d where
  R ks w x x' Q := Steps ks w x x' Q
  ret h := fun _ r r' c a e c' a' e' hc h1 h2 => by
    cases h1
    cases h2
    exact ⟨_, .inr rfl, fun _ => rfl, fun hw => ⟨hc hw, by unfold Least; omega⟩, h⟩
  bind := fun {α α' β β' ks ks' w x x' f f' Q S} hx h hk r r' c b e c' b' e' hc h1 h2 => by
    obtain ⟨⟨a, r1⟩, c1, k1, k2⟩ := build_bind h1
    obtain ⟨a', r1', c1', k1', k2'⟩ := rd_bind h2
    unfold Allowed at hk
    rw [List.count_append] at hk
    have hk1 : Allowed ks w := by
      rcases hk with hk | ⟨hk, hk'⟩
      · exact .inl (by omega)
      · exact .inr ⟨hk, by omega⟩
    obtain ⟨w1, q1, q2, q3, q4⟩ := hx hk1 r r' _ _ _ _ _ _ hc k1 k1'
    have hk2 : Allowed ks' w1 := by
      rcases hk with hk | ⟨hk, hk'⟩
      · exact .inl (by omega)
      · by_cases hz : ks.count .stop = 0
        · exact .inr ⟨(q2 hz).trans hk, by omega⟩
        · exact .inl (by omega)
    obtain ⟨w2, p1, p2, p3, p4⟩ := h w1 a a' q1 q4 hk2 r1 r1' _ _ _ _ _ _ (fun hw => (q3 hw).1) k2 k2'
    refine ⟨w2, ?_, fun hz => ?_, fun hw => ⟨(p3 hw).1, ?_⟩, p4⟩
    · rcases q1 with q1 | rfl
      · exact .inl q1
      · exact p1
    · rw [List.count_append] at hz
      rw [p2 (by omega), q2 (by omega)]
    · have hw1 : w1 ≠ .apart := by
        rcases p1 with rfl | rfl
        · decide
        · exact hw
      have g1 := (q3 hw1).2
      have g2 := (p3 hw).2
      unfold Least at g1 g2 ⊢
      omega
  mono hx h := fun hk r r' c a e c' a' e' hc h1 h2 => by
    obtain ⟨w1, q1, q2, q3, q4⟩ := hx hk r r' _ _ _ _ _ _ hc h1 h2
    exact ⟨w1, q1, q2, q3, h _ _ _ q4⟩
  lift := fun {α α' w x x' Q} h _ r r' c a e c' a' e' hc h1 h2 => by
    obtain ⟨b, c1, k1, k2⟩ := build_bind h1
    obtain ⟨b', c1', k1', k2'⟩ := m_bind h2
    cases k2
    cases k2'
    obtain ⟨q1, q2⟩ := h _ _ _ _ _ _ k1 k1'
    exact ⟨w, .inr rfl, fun _ => rfl, fun hw => ⟨hc hw, q1 hw⟩, q2⟩
  commonPoint h := Steps.cells rfl fun hw => Uses.absorbPoint (h hw) _ _
  commonScalar _ := Steps.cells rfl fun _ => Uses.absorbScalar _ _ _ _
  squeeze := Steps.cells rfl fun _ => Uses.squeeze
  readPoint := Steps.op rfl fun _ => Uses.readPoint
  readScalar := Steps.cells rfl fun _ => Uses.readScalar

theorem readW {w : Stage} : (core ps d).R [.stop] w (Api.readW d) (Api.readW d) Opened := fun hk r r' c a e c' a' e' hc h1 h2 => by
  rcases hk with hk | ⟨rfl, -⟩
  · cases hk
  · rcases readAll _ _ (hc (by decide)) h1 h2 with h | ⟨q1, q2, q3⟩
    · exact ⟨.apart, .inl rfl, fun h => (by cases h), fun h => (h rfl).elim, h⟩
    · exact ⟨.read, .inl rfl, fun h => (by cases h), fun _ => ⟨q3, q1⟩, q2⟩

/-- The points are grouped alike, so a run that has read another number of opening proofs panics. -/
theorem openParams {w : Stage} {q q' : Api.Params APt (AV N)} (hq : staged.Params w q q') (hw : Opened w q.w q'.w) :
    At w (Api.openParams (c := circuitChip) q : Build _).1 (Api.openParams (c := measureChip) q') fun o o' => w = .read ∧ staged.Open w o o' := by
  cases w with
  | before => exact hw.elim
  | read => exact fun c r e c' r' e' h1 h2 => (Link.openParams hq (hw.imp fun _ _ h _ => h) c r e c' r' e' h1 h2).imp_right fun h => ⟨rfl, h⟩
  | apart =>
    intro c r e c' r' e' h1 h2
    exfalso
    obtain ⟨qs, c1, k1, k2⟩ := build_bind h1
    obtain ⟨qs', c1', k1', k2'⟩ := m_bind h2
    obtain ⟨-, h⟩ := Link.queries hq _ _ _ _ _ _ k1 k1'
    obtain ⟨ps, c2, k3, -⟩ := build_bind k2
    obtain ⟨ps', c2', k3', -⟩ := m_bind k2'
    have hg := (Link.groupQueries h).length_eq
    unfold Api.getPointSchemas at k3 k3'
    dsimp only at k3 k3'
    split at k3
    · rename_i e1
      split at k3'
      · rename_i e2
        exact hw (e1.trans (hg.trans e2.symm))
      · cases k3'
    · cases k3

theorem verifyNoEval (vk : VK N Pt) {ics ics' : List (List APt)} (hics : List.Forall₂ (List.Forall₂ LikeRead) ics ics') (key : String) :
    Uses (ps := ps) (Api.verifyNoEval d vk ics key) (Api.verifyNoEval d vk ics' key) fun r r' => link.Open () r.1 r'.1 ∧ List.Forall₂ LikeRead r.2 r'.2 := by
  have key : (core ps d).R (vk.kindsWith ics.length [.stop]) Stage.before (Api.verifyNoEval d vk ics key) (Api.verifyNoEval d vk ics' key)
      fun w r r' => w = .read ∧ staged.Open w r.1 r'.1 ∧ List.Forall₂ (staged.n w) r.2 r'.2 := by
    have h := (core ps d).buildParams (w := Stage.before) vk (A := Opened) readW (ics := ics) (ics' := ics') (hics.imp fun _ _ h => h.imp fun _ _ h _ => h) key
    rw [Shape.map_id] at h
    refine RdCore.bind1 _ h fun w p p' _ hp => ?_
    obtain ⟨hp, hw⟩ := hp
    refine RdCore.bind0 _ ((core ps d).lift (w := w) (Q := fun (w : Stage) o o' => w = Stage.read ∧ staged.Open w o o') (openParams hp hw)) fun w1 o o' hw1 ho => ?_
    obtain ⟨rfl, ho⟩ := ho
    clear hw
    up hw1
    refine RdCore.bind0 _ ((core ps d).lift (Link.index (Q := fun w => List.Forall₂ (staged.n w)) hp.adviceCommitments 0)) fun w2 a a' hw2 ha => ?_
    have hw2 : Stage.read = w2 := hw2.resolve_left (by decide)
    subst hw2
    exact (core ps d).ret ⟨rfl, ho, ha⟩
  refine fun r r' hr c a e c' a' e' h1 h2 => ?_
  obtain ⟨w, -, -, q1, rfl, q2, q3⟩ := key (.inr ⟨rfl, (Shape.count_kinds vk _).le⟩) r r' c a e c' a' e' (fun _ => hr) h1 h2
  obtain ⟨q4, q5⟩ := q1 (by decide)
  exact ⟨q5, ⟨⟨q2.wx.imp (fun _ _ h => h (by decide)) fun _ _ h => h, q2.wg.imp (fun _ _ h => h (by decide)) fun _ _ h => h⟩, q3.imp fun _ _ h => h (by decide)⟩, q4⟩

/-! ### Proofs of the same form -/

theorem assignInstanceCommitment (vk : VK N Pt) {is is' : List (List (List N))} (h : Shape.SameLengths is is') :
    Meas (Api.assignInstanceCommitment (c := circuitChip) vk is : Build _).1 (Api.assignInstanceCommitment (c := measureChip) vk is')
      fun r r' => r.1.length = r'.1.length ∧ List.Forall₂ (List.Forall₂ LikeRead) r.2 r'.2 := by
  unfold Api.assignInstanceCommitment
  split
  · split
    · refine Meas.bind (Link.mapM' (X := link) (w := ()) (A := fun _ => List.Forall₂ fun c c' : List N => c.length = c'.length)
        (Q := fun _ => List.Forall₂ (List.Forall₂ fun (_ _ : AV N) => True)) h fun _ _ a a' ha =>
        Link.mapM' (X := link) (A := fun _ (c c' : List N) => c.length = c'.length) (Q := fun _ => List.Forall₂ fun (_ _ : AV N) => True) ha fun _ _ a a' ha => ?_) fun as as' has => ?_
      · unfold Api.assignColumn
        split
        · split
          · exact Link.mapM' (X := link) (A := fun _ _ _ => True) (Q := fun _ (_ _ : AV N) => True) (Shape.all_of_length ha) fun _ _ k k' _ =>
              Meas.cells (Takes.assign k) (Takes.assign k')
          · exact panic'
        · exact Meas.panic
      · refine Meas.bind (Link.mapM' (X := link) (w := ()) (A := fun _ => List.Forall₂ (List.Forall₂ fun (_ _ : AV N) => True)) (Q := fun _ => List.Forall₂ LikeRead) has fun _ _ a a' ha =>
          Link.mapM' (X := link) (A := fun _ => List.Forall₂ fun (_ _ : AV N) => True) (Q := fun _ => LikeRead) ha fun _ _ a a' ha => ?_) fun cs cs' hcs => ?_
        · have := Link.columnCommitment (X := link) rfl vk (w := ()) ha
          rw [Shape.map_id] at this
          exact this
        · exact Meas.pure ⟨(rel_flatten (rel_flatten has)).length_eq, hcs⟩
    · exact panic'
  · exact Meas.panic

/-- The same name, as many instances, and transcripts with as many words; the bytes may differ. -/
structure Alike (p : ProofData (T ps)) (p' : ProofData (T' ps)) : Prop where
  key : p.key = p'.key
  instances : Shape.SameLengths p.instances p'.instances
  near : Near p.reader p'.reader

/-- What is kept of two proofs. -/
structure Kept (v : Api.Verified (T ps)) (v' : Api.Verified (T' ps)) : Prop where
  proof : link.Open () v.proof v'.proof
  advice : List.Forall₂ LikeRead v.advice v'.advice
  near : Near v.reader v'.reader

theorem verifyProof (vk : VK N Pt) {p : ProofData (T ps)} {p' : ProofData (T' ps)} (h : Alike p p') :
    Meas (Api.verifyProof d vk p : Build _).1 (Api.verifyProof d vk p') Kept := by
  unfold Api.verifyProof
  rw [← h.key]
  exact Meas.bind (assignInstanceCommitment vk h.instances) fun i i' hi =>
    Meas.bind (verifyNoEval vk hi.2 p.key _ _ h.near) fun r r' hr => Meas.pure ⟨hr.1.1, hr.1.2, hr.2⟩

theorem each {α α' β β' : Type} {A : α → α' → Prop} {Q : β → β' → Prop} {f : α → Rd (T ps) β} {f' : α' → Rd (T' ps) β'}
    (h : ∀ a a', A a a' → Uses (f a) (f' a') Q) : ∀ {l : List α} {l' : List α'}, List.Forall₂ A l l' →
    Uses (Rd.each f l) (Rd.each f' l') (List.Forall₂ Q)
  | _, _, .nil => Uses.ret .nil
  | _, _, .cons ha hl => Uses.bind (h _ _ ha) fun _ _ hb => Uses.bind (each h hl) fun _ _ hbs => Uses.ret (.cons hb hbs)

theorem bindProof {v : Api.Verified (T ps)} {v' : Api.Verified (T' ps)} (h : Kept v v') : Uses (Api.bindProof v) (Api.bindProof v') fun _ _ => True :=
  Uses.bind (Uses.lift (Q := fun _ _ => True) (Meas.bind (squeezed h.near) fun _ _ _ => Meas.pure trivial)) fun a a' _ =>
    Uses.absorbScalar a.1 a'.1 .commonScalar .commonScalar

/-- The same key, and proofs with as many instances. -/
structure AlikeAll (p : CircuitProof (T ps)) (p' : CircuitProof (T' ps)) : Prop where
  vk : p'.vk = p.vk
  proofs : List.Forall₂ Alike p.proofs p'.proofs

theorem verifyCircuit {p : CircuitProof (T ps)} {p' : CircuitProof (T' ps)} (h : AlikeAll p p') :
    Uses (Api.verifyCircuit d p) (Api.verifyCircuit d p') (List.Forall₂ Kept) := by
  unfold Api.verifyCircuit
  rw [h.vk]
  exact Uses.bind (Uses.lift (Link.mapM' (X := link) (w := ()) (A := fun _ => Alike) (Q := fun _ => Kept) h.proofs
    fun _ _ _ _ ha => verifyProof p.vk ha)) fun rs rs' hrs => Uses.bind (each (fun _ _ ha => bindProof ha) hrs) fun _ _ _ => Uses.ret hrs

/-- **Aggregation**: the measuring pass has counted at least as many rows. -/
theorem verifyAggregation {ps1 : List (CircuitProof (T ps))} {ps2 : List (CircuitProof (T' ps))} (h : List.Forall₂ AlikeAll ps1 ps2) :
    Uses (Api.verifyAggregation d ps1) (Api.verifyAggregation d ps2) fun r r' => Like r.1 r'.1 ∧ Like r.2.1 r'.2.1 ∧
      List.Forall₂ (List.Forall₂ LikeRead) r.2.2.2 r'.2.2.2 := by
  refine Uses.bind (each (fun _ _ ha => verifyCircuit ha) h) fun rs rs' hrs => Uses.bind Uses.squeeze fun ch ch' _ => ?_
  refine Uses.bind (Uses.lift (Link.aggregate (X := link) (w := ()) (ch := ch) (ch' := ch') trivial (rel_map (q := link.Open _) (fun _ _ h => Kept.proof h) (rel_flatten hrs)))) fun e e' he => ?_
  exact Uses.ret ⟨he.1, he.2, rel_map (fun _ _ h => Kept.advice h) (rel_flatten hrs)⟩

end Measure
end Verif.Api
