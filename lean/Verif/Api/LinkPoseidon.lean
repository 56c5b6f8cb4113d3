import Verif.Api.LinkBytes
import Verif.Api.Poseidon

/-!
# Linked chips compute the Poseidon transcript alike
-/

namespace Verif.Api

variable {F G G' : Type} [Field F] {c : Chip F G} {c' : Chip F G'} {φ : G → G'} {rate : ℕ}

namespace Link
variable {X : Link c c' φ}

/-- Related words. -/
def Words (X : Link c c' φ) {n : ℕ} (w : X.W) (s : Fin n → c.S) (s' : Fin n → c'.S) : Prop := ∀ i, X.s w (s i) (s' i)

instance {n : ℕ} {s : Fin n → c.S} {s' : Fin n → c'.S} : Up X.le fun w => X.Words w s s' := ⟨fun h e i => X.s_up h (e i)⟩

omit [Field F] in
theorem Words.cons {w : X.W} {n : ℕ} {a : c.S} {a' : c'.S} {s : Fin n → c.S} {s' : Fin n → c'.S} (ha : X.s w a a') (hs : X.Words w s s') :
    X.Words w (Fin.cons a s : Fin (n + 1) → c.S) (Fin.cons a' s' : Fin (n + 1) → c'.S) := by
  intro i
  cases i using Fin.cases with
  | zero => exact ha
  | succ i => exact hs i

theorem tabM : ∀ {n : ℕ} {w : X.W} {f : Fin n → c.m c.S} {f' : Fin n → c'.m c'.S}, (∀ w', X.le w w' → ∀ i, X.R w' (f i) (f' i) X.s) →
    X.R w (Api.tabM c f) (Api.tabM c' f') X.Words
  | 0, _, _, _, _ => X.pure fun i => i.elim0
  | n + 1, w, f, f', h => by
    unfold Api.tabM
    bnd h _ (X.refl _) 0 with a a' ha
    bnd tabM (f := fun i => f i.succ) (f' := fun i => f' i.succ) fun w' hw i => h w' hw i.succ with l l' hl
    exact X.pure (Words.cons ha hl)

/-- `mul_add_constant`. It is only used for hashing. -/
def MulAdd (X : Link c c' φ) : Prop := ∀ {w a a' b b'} (k : F), X.s w a a' → X.s w b b' → X.R w (c.mulAddConstant a b k) (c'.mulAddConstant a' b' k) X.s

theorem xPower5 (hm : X.MulAdd) {w : X.W} {x : c.S} {x' : c'.S} (h : X.s w x x') (k : F) : X.R w (Api.xPower5 c x k) (Api.xPower5 c' x' k) X.s := by
  unfold Api.xPower5
  bnd X.mul h h with x2 x2' h2
  bnd X.mul h2 h2 with x4 x4' h4
  exact hm k h h4

theorem sboxFull (hm : X.MulAdd) {w : X.W} {s : Fin (rate + 1) → c.S} {s' : Fin (rate + 1) → c'.S} (h : X.Words w s s') (ks : Fin (rate + 1) → F) :
    X.R w (Api.sboxFull c ks s) (Api.sboxFull c' ks s') X.Words :=
  tabM fun _ hw i => xPower5 hm (X.s_up hw (h i)) (ks i)

theorem sboxPart (hm : X.MulAdd) {w : X.W} {s : Fin (rate + 1) → c.S} {s' : Fin (rate + 1) → c'.S} (h : X.Words w s s') (k : F) :
    X.R w (Api.sboxPart c k s) (Api.sboxPart c' k s') X.Words := by
  unfold Api.sboxPart
  bnd xPower5 hm (h 0) k with x x' hx
  exact X.pure (Words.cons hx fun i => h i.succ)

theorem absorbWord {w : X.W} {l : List c.S} {l' : List c'.S} (hl : List.Forall₂ (X.s w) l l') (i : ℕ) {x : c.S} {x' : c'.S} (hx : X.s w x x') (k : F) :
    X.R w (Api.absorbWord c l i x k) (Api.absorbWord c' l' i x' k) X.s := by
  unfold Api.absorbWord
  have h := rel_getElem? hl i
  rw [hl.length_eq]
  revert h
  cases l[i]? <;> cases l'[i]? <;> intro h
  · exact sumWithConstant (.cons hx .nil)
  · cases h
  · cases h
  · cases h with
    | some h => exact sumWithConstant (.cons hx (.cons h .nil))

theorem absorbPre {w : X.W} {l : List c.S} {l' : List c'.S} (hl : List.Forall₂ (X.s w) l l') (ks : Fin (rate + 1) → F) {s : Fin (rate + 1) → c.S}
    {s' : Fin (rate + 1) → c'.S} (h : X.Words w s s') : X.R w (Api.absorbPre c l ks s) (Api.absorbPre c' l' ks s') X.Words := by
  unfold Api.absorbPre
  rw [← hl.length_eq]
  by_cases hn : l.length < rate + 1
  · rw [if_pos hn, if_pos hn]
    bnd sumWithConstant (.cons (h 0) .nil) with s0 s0' h0
    refine X.bind (tabM (f' := fun i : Fin rate => Api.absorbWord c' l' i (s' i.succ) (ks i.succ)) fun w' hw i => ?_) fun w' t t' hw ht => ?_
    · exact absorbWord (hl.imp fun _ _ => X.s_up hw) i (X.s_up hw (h i.succ)) _
    · exact X.pure (Words.cons (X.s_up hw h0) ht)
  · rw [if_neg hn]
    exact X.panic

omit [Field F] in
theorem terms {w : X.W} : ∀ {n : ℕ} {s : Fin n → c.S} {s' : Fin n → c'.S} (_ : X.Words w s s') (k : Fin n → F),
    List.Forall₂ (fun x x' => X.s w x.1 x'.1 ∧ x.2 = x'.2) (List.ofFn fun j => (s j, k j)) (List.ofFn fun j => (s' j, k j))
  | 0, _, _, _, _ => by
    rw [List.ofFn_zero, List.ofFn_zero]
    exact .nil
  | n + 1, _, _, h, k => by
    rw [List.ofFn_succ, List.ofFn_succ]
    exact .cons ⟨h 0, rfl⟩ (terms (fun i => h i.succ) fun i => k i.succ)

theorem applyMds {w : X.W} (m : Fin (rate + 1) → Fin (rate + 1) → F) {s : Fin (rate + 1) → c.S} {s' : Fin (rate + 1) → c'.S} (h : X.Words w s s') :
    X.R w (Api.applyMds c m s) (Api.applyMds c' m s') X.Words :=
  tabM fun _ hw i => X.sumWithCoeff (terms (fun j => X.s_up hw (h j)) (m i))

theorem applySparse {w : X.W} (m : (Fin (rate + 1) → F) × (Fin rate → F)) {s : Fin (rate + 1) → c.S} {s' : Fin (rate + 1) → c'.S}
    (h : X.Words w s s') : X.R w (Api.applySparse c m s) (Api.applySparse c' m s') X.Words := by
  unfold Api.applySparse
  bnd X.sumWithCoeff (terms h m.1) with s0 s0' h0
  refine X.bind (tabM (f' := fun i : Fin rate => c'.sumWithCoeff [(s' 0, m.2 i), (s' i.succ, 1)] 0) fun w' hw i => ?_) fun w' t t' hw ht => ?_
  · exact X.sumWithCoeff (.cons ⟨X.s_up hw (h 0), rfl⟩ (.cons ⟨X.s_up hw (h i.succ), rfl⟩ .nil))
  · exact X.pure (Words.cons (X.s_up hw h0) ht)

theorem fullRounds (hm : X.MulAdd) (m : Fin (rate + 1) → Fin (rate + 1) → F) : ∀ (ks : List (Fin (rate + 1) → F)) {w : X.W} {s : Fin (rate + 1) → c.S}
    {s' : Fin (rate + 1) → c'.S}, X.Words w s s' → X.R w (Api.fullRounds c m ks s) (Api.fullRounds c' m ks s') X.Words
  | [], _, _, _, h => X.pure h
  | k :: ks, _, _, _, h => by
    unfold Api.fullRounds
    bnd sboxFull hm h k with t t' ht
    bnd applyMds m ht with r r' hr
    exact fullRounds hm m ks hr

theorem partialRounds (hm : X.MulAdd) : ∀ (l : List (F × ((Fin (rate + 1) → F) × (Fin rate → F)))) {w : X.W} {s : Fin (rate + 1) → c.S}
    {s' : Fin (rate + 1) → c'.S}, X.Words w s s' → X.R w (Api.partialRounds c l s) (Api.partialRounds c' l s') X.Words
  | [], _, _, _, h => X.pure h
  | (k, m) :: l, _, _, _, h => by
    unfold Api.partialRounds
    bnd sboxPart hm h k with t t' ht
    bnd applySparse m ht with r r' hr
    exact partialRounds hm l hr

theorem permutation (hm : X.MulAdd) (ps : PoseidonSpec F rate) {w : X.W} {l : List c.S} {l' : List c'.S} (hl : List.Forall₂ (X.s w) l l')
    {s : Fin (rate + 1) → c.S} {s' : Fin (rate + 1) → c'.S} (h : X.Words w s s') :
    X.R w (Api.permutation c ps l s) (Api.permutation c' ps l' s') X.Words := by
  unfold Api.permutation
  bnd indexSame ps.start 0 with k0 k0' hk
  subst hk
  bnd absorbPre hl k0 h with a a' ha
  split
  swap
  · exact X.bind (Q := fun _ _ _ => False) X.panic fun _ _ _ _ h => h.elim
  refine X.bind (Q := fun _ (a b : ℕ) => a = b) (X.pure rfl) fun w' half half' hw hh => ?_
  subst hh
  up hw
  clear hw
  bnd fullRounds hm ps.mds _ ha with b b' hb
  refine X.bind (Q := fun _ (a b : Fin (rate + 1) → F) => a = b) ?_ fun w' kl kl' hw hh => ?_
  · unfold Api.unwrap
    split
    · exact X.pure rfl
    · exact X.panic
  subst hh
  up hw
  clear hw
  bnd sboxFull hm hb kl with d d' hd
  bnd applyMds ps.preSparse hd with e e' he
  bnd partialRounds hm _ he with f f' hf
  bnd fullRounds hm ps.mds _ hf with g g' hg
  bnd sboxFull hm hg _ with i i' hi
  exact applyMds ps.mds hi

theorem squeezeLoop (hm : X.MulAdd) (ps : PoseidonSpec F rate) : ∀ {l : List (List c.S)} {l' : List (List c'.S)} (off : ℕ) {w : X.W} {s : Fin (rate + 1) → c.S}
    {s' : Fin (rate + 1) → c'.S}, List.Forall₂ (List.Forall₂ (X.s w)) l l' → X.Words w s s' →
    X.R w (Api.squeezeLoop c ps l off s) (Api.squeezeLoop c' ps l' off s') fun w r r' => r.1 = r'.1 ∧ X.Words w r.2 r'.2
  | [], l', off, _, _, _, hl, h => by
    cases hl
    exact X.pure ⟨rfl, h⟩
  | a :: l, l', off, _, _, _, hl, h => by
    cases hl with
    | @cons _ a' _ l' ha hl =>
      unfold Api.squeezeLoop
      have e := ha.length_eq
      bnd permutation hm ps ha h with t t' ht
      rw [e]
      exact squeezeLoop hm ps _ hl ht

/-- Related sponges. -/
def Sponge (X : Link c c' φ) (w : X.W) (st : Api.Sponge c.S rate) (st' : Api.Sponge c'.S rate) : Prop :=
  X.Words w st.s st'.s ∧ List.Forall₂ (X.s w) st.absorbing st'.absorbing

omit [Field F] in
theorem sponge_up {w w' : X.W} {st : Api.Sponge c.S rate} {st' : Api.Sponge c'.S rate} (hw : X.le w w') (h : X.Sponge w st st') : X.Sponge w' st st' :=
  ⟨fun i => X.s_up hw (h.1 i), h.2.imp fun _ _ => X.s_up hw⟩

instance {st : Api.Sponge c.S rate} {st' : Api.Sponge c'.S rate} : Up X.le fun w => X.Sponge w st st' := ⟨sponge_up⟩

theorem spongeNew {w : X.W} (ps : PoseidonSpec F rate) : X.R w (Api.spongeNew c ps) (Api.spongeNew c' ps) X.Sponge := by
  unfold Api.spongeNew
  refine X.bind (tabM (f := fun i => c.assignConst (ps.init i)) (f' := fun i => c'.assignConst (ps.init i)) fun w' _ i => ?_) fun w' s s' hw hs => ?_
  · exact X.mono (X.assignConst _) fun _ _ _ _ => X.known_s
  · exact X.pure ⟨hs, .nil⟩

theorem spongeSqueeze (hm : X.MulAdd) (ps : PoseidonSpec F rate) {w : X.W} {st : Api.Sponge c.S rate} {st' : Api.Sponge c'.S rate} (h : X.Sponge w st st') :
    X.R w (Api.spongeSqueeze c ps st) (Api.spongeSqueeze c' ps st') fun w r r' => X.s w r.1 r'.1 ∧ X.Sponge w r.2 r'.2 := by
  unfold Api.spongeSqueeze
  obtain ⟨h1, h2⟩ := h
  bnd chunksM rate h2 with ch ch' hch
  bnd squeezeLoop hm ps 0 hch h1 with r r' hr
  refine X.bind (Q := X.Words) ?_ fun w' s s' hw hs => X.pure ⟨hs _, hs, .nil⟩
  unfold Api.squeezeEnd
  rw [← hr.1]
  split
  · exact permutation hm ps .nil hr.2
  · exact X.pure hr.2

/-- Related encodings. -/
structure SameWords (X : Link c c' φ) (e : Encode c) (e' : Encode c') : Prop where
  point : ∀ {w p p'}, X.n w p p' → X.R w (e.point p) (e'.point p') fun w => List.Forall₂ (X.s w)
  scalar : ∀ {w s s'}, X.s w s s' → X.R w (e.scalar s) (e'.scalar s') fun w => List.Forall₂ (X.s w)
  decode : ∀ {w s s'}, X.s w s s' → X.R w (e.decode s) (e'.decode s') X.s

theorem update {w : X.W} {st : Api.Sponge c.S rate} {st' : Api.Sponge c'.S rate} (h : X.Sponge w st st') {l : List c.S} {l' : List c'.S}
    (hl : List.Forall₂ (X.s w) l l') : X.Sponge w (st.update l) (st'.update l') :=
  ⟨h.1, List.rel_append h.2 hl⟩

end Link

/-- Both read the same proof, with Poseidon transcripts. -/
def poseidonBytes {X : Link c c' φ} (hm : X.MulAdd) (ps : PoseidonSpec F rate) {e : Encode c} {e' : Encode c'} (he : X.SameWords e e')
    (hs : ∀ {w} k, X.R w (c.assignVar k) (c'.assignVar k) X.s) (hp : ∀ {w} P, X.R w (c.pAssignVar P) (c'.pAssignVar (φ P)) X.n)
    {d : Codec F G} {d' : Codec F G'} (hdp : ∀ b, d'.readPoint b = (d.readPoint b).map fun x => (φ x.1, x.2)) (hds : ∀ b, d'.readScalar b = d.readScalar b) :
    SameBytes X (poseidonTranscript c ps e) (poseidonTranscript c' ps e') d d' where
  st := X.Sponge
  st_up := Link.sponge_up
  commonPoint := fun hp h => by
    refine X.bind (he.point hp) fun w' l l' hw hl => X.pure (Link.update (Link.sponge_up hw h) hl)
  commonScalar := fun hk h => by
    refine X.bind (he.scalar hk) fun w' l l' hw hl => X.pure (Link.update (Link.sponge_up hw h) hl)
  squeeze := fun h => by
    refine X.bind (Link.spongeSqueeze hm ps h) fun w' r r' hw hr => X.bind (he.decode hr.1) fun w' k k' hw hk => X.pure ⟨hk, Link.sponge_up hw hr.2⟩
  assignVar := hs
  pAssignVar := hp
  ok _ := True
  point _ := hdp _
  scalar _ := hds _
  ok_point _ _ := trivial
  ok_scalar _ _ := trivial

end Verif.Api
