import Verif.Api.LinkVerify

/-!
# Linked chips read and verify a proof alike
-/

namespace Verif.Api

variable {F G G' : Type} {c : Chip F G} {c' : Chip F G'} {φ : G → G'}

/-- Computations that use a transcript, on two chips side by side: `R ks` is about computations that take values of the kinds `ks`
from the bytes, on both sides. What is known of the transcripts is part of `R`. -/
structure RdCore (X : Link c c' φ) (T : Transcript c) (T' : Transcript c') (d : Codec F G) (d' : Codec F G') where
  R : {α α' : Type} → List Kind → X.W → Rd T α → Rd T' α' → (X.W → α → α' → Prop) → Prop
  ret : ∀ {α α' : Type} {w : X.W} {a : α} {a' : α'} {Q : X.W → α → α' → Prop}, Q w a a' → R [] w (pure a) (pure a') Q
  bind : ∀ {α α' β β' : Type} {ks ks' : List Kind} {w : X.W} {x : Rd T α} {x' : Rd T' α'} {f : α → Rd T β} {f' : α' → Rd T' β'}
    {Q : X.W → α → α' → Prop} {S : X.W → β → β' → Prop}, R ks w x x' Q → (∀ w' a a', X.le w w' → Q w' a a' → R ks' w' (f a) (f' a') S) →
    R (ks ++ ks') w (x >>= f) (x' >>= f') S
  mono : ∀ {α α' : Type} {ks : List Kind} {w : X.W} {x : Rd T α} {x' : Rd T' α'} {Q S : X.W → α → α' → Prop}, R ks w x x' Q →
    (∀ w' a a', Q w' a a' → S w' a a') → R ks w x x' S
  lift : ∀ {α α' : Type} {w : X.W} {x : c.m α} {x' : c'.m α'} {Q : X.W → α → α' → Prop}, X.R w x x' Q → R [] w (Rd.lift x) (Rd.lift x') Q
  commonPoint : ∀ {w p p'}, X.n w p p' → R [] w (Rd.commonPoint p) (Rd.commonPoint p') fun _ _ _ => True
  commonScalar : ∀ {w s s'}, X.s w s s' → R [] w (Rd.commonScalar s) (Rd.commonScalar s') fun _ _ _ => True
  squeeze : ∀ {w}, R [] w Rd.squeeze Rd.squeeze X.s
  readPoint : ∀ {w}, R [.point] w (Rd.readPoint d) (Rd.readPoint d') X.n
  readScalar : ∀ {w}, R [.scalar] w (Rd.readScalar d) (Rd.readScalar d') X.s

/-- The same, with `m` opening proofs. -/
structure RdRel (X : Link c c' φ) (T : Transcript c) (T' : Transcript c') (d : Codec F G) (d' : Codec F G') extends RdCore X T T' d d' where
  /-- The number of opening proofs. -/
  m : ℕ
  readW : ∀ {w}, R (List.replicate m .point ++ [.stop]) w (Api.readW d) (Api.readW d') fun w => List.Forall₂ (X.n w)

/-- The kinds of the values of a proof, with the opening proofs as given. -/
def VK.kindsWith (vk : VK F G) (np : ℕ) (kw : List Kind) : List Kind :=
  (vk.phases.flatMap fun ph => rep np (rep (vk.advicePhase.count ph) [.point])) ++
    (rep np (rep vk.lookups.length [.point, .point]) ++
    (rep np (rep (chunks (vk.degree - 2) vk.permColumns).length [.point]) ++
    (rep np (rep vk.lookups.length [.point]) ++
    ([.point] ++
    (rep vk.quotientDegree [.point] ++
    (rep np (rep vk.instanceQueries.length [.scalar]) ++
    (rep np (rep vk.adviceQueries.length [.scalar]) ++
    (rep vk.fixedQueries.length [.scalar] ++
    ([.scalar] ++
    (rep vk.permutationCommitments.length [.scalar] ++
    (rep np (setKinds (chunks (vk.degree - 2) vk.permColumns).length) ++
    (rep np (rep vk.lookups.length [.scalar, .scalar, .scalar, .scalar, .scalar]) ++ kw))))))))))))

theorem VK.kinds_with (vk : VK F G) (np m : ℕ) : vk.kinds np m = vk.kindsWith np (List.replicate m .point ++ [.stop]) := by
  simp only [VK.kinds, VK.kindsWith, List.append_assoc]

theorem rep_succ (n : ℕ) (ks : List Kind) : rep (n + 1) ks = ks ++ rep n ks := by
  rw [rep, List.replicate_succ, List.flatten_cons, rep]

theorem rep_nil (n : ℕ) : rep n [] = [] := by
  induction n with
  | zero => rfl
  | succ n ih => rw [rep_succ, ih, List.append_nil]

namespace RdCore
variable {X : Link c c' φ} {T : Transcript c} {T' : Transcript c'} {d : Codec F G} {d' : Codec F G'} (Y : RdCore X T T' d d')

section
variable {α α' β β' : Type} {ks ks' : List Kind} {w : X.W} {x : Rd T α} {x' : Rd T' α'} {f : α → Rd T β} {f' : α' → Rd T' β'}
  {Q : X.W → α → α' → Prop} {S : X.W → β → β' → Prop}

theorem kinds (h : Y.R ks w x x' Q) (e : ks' = ks) : Y.R ks' w x x' Q := e ▸ h

/-- The first part takes nothing from the bytes. -/
theorem bind0 (hx : Y.R [] w x x' Q) (h : ∀ w' a a', X.le w w' → Q w' a a' → Y.R ks w' (f a) (f' a') S) : Y.R ks w (x >>= f) (x' >>= f') S :=
  Y.bind hx h

/-- The second part takes nothing from the bytes. -/
theorem bind1 (hx : Y.R ks w x x' Q) (h : ∀ w' a a', X.le w w' → Q w' a a' → Y.R [] w' (f a) (f' a') S) : Y.R ks w (x >>= f) (x' >>= f') S :=
  Y.kinds (Y.bind hx h) (List.append_nil _).symm

end

/-- As `bnd`, for computations that use the transcript. -/
macro "rbnd " t:term " with " a:ident b:ident h:ident : tactic =>
  `(tactic| (refine RdCore.bind _ $t fun _ $a $b hw => ?_; up hw; clear hw; intro $h:ident))

macro "rbnd0 " t:term " with " a:ident b:ident h:ident : tactic =>
  `(tactic| (refine RdCore.bind0 _ $t fun _ $a $b hw => ?_; up hw; clear hw; intro $h:ident))

macro "rbnd1 " t:term " with " a:ident b:ident h:ident : tactic =>
  `(tactic| (refine RdCore.bind1 _ $t fun _ $a $b hw => ?_; up hw; clear hw; intro $h:ident))

theorem times {α α' : Type} {ks : List Kind} {x : Rd T α} {x' : Rd T' α'} {Q : X.W → α → α' → Prop} [∀ a b, Up X.le fun w => Q w a b] :
    ∀ (n : ℕ) {w : X.W}, (∀ w', X.le w w' → Y.R ks w' x x' Q) →
    Y.R (rep n ks) w (Rd.times x n) (Rd.times x' n) fun w l l' => List.Forall₂ (Q w) l l' ∧ l.length = n := by
  intro n
  induction n with
  | zero => exact fun _ => Y.ret ⟨.nil, rfl⟩
  | succ n ih =>
    intro w h
    rw [rep_succ]
    rbnd h _ (X.refl _) with a a' ha
    rbnd1 ih h with l l' hl
    exact Y.ret ⟨.cons ha hl.1, congrArg (· + 1) hl.2⟩

theorem each {α α' β β' : Type} {ks : List Kind} {A : X.W → α → α' → Prop} [∀ a b, Up X.le fun w => A w a b] {Q : X.W → β → β' → Prop}
    [∀ a b, Up X.le fun w => Q w a b] {f : α → Rd T β} {f' : α' → Rd T' β'} : ∀ {w : X.W} {l : List α} {l' : List α'}, List.Forall₂ (A w) l l' →
    (∀ w', X.le w w' → ∀ a a', A w' a a' → Y.R ks w' (f a) (f' a') Q) →
    Y.R (rep l.length ks) w (Rd.each f l) (Rd.each f' l') fun w r r' => List.Forall₂ (Q w) r r' ∧ r.length = l.length := by
  intro w l
  induction l generalizing w with
  | nil =>
    intro l' hl h
    cases hl
    exact Y.ret ⟨.nil, rfl⟩
  | cons a l ih =>
    intro l' hl h
    cases hl with
    | cons ha hl =>
      rw [List.length_cons, rep_succ]
      rbnd h _ (X.refl _) _ _ ha with b b' hb
      rbnd1 ih hl h with bs bs' hbs
      exact Y.ret ⟨.cons hb hbs.1, congrArg (· + 1) hbs.2⟩

theorem readPermuted {w : X.W} : Y.R [.point, .point] w (Api.readPermuted d) (Api.readPermuted d') fun w a a' => X.n w a.1 a'.1 ∧ X.n w a.2 a'.2 := by
  change Y.R ([.point] ++ [.point]) _ _ _ _
  rbnd Y.readPoint with i i' hi
  rbnd1 Y.readPoint with t t' ht
  exact Y.ret ⟨hi, ht⟩

theorem adviceRow (cur : ℕ) : ∀ (phs : List ℕ) {w : X.W} {row : List (Option c.P)} {row' : List (Option c'.P)},
    List.Forall₂ (Option.Rel (X.n w)) row row' → row.length = phs.length →
    Y.R (rep (phs.count cur) [.point]) w (Api.adviceRow d cur phs row) (Api.adviceRow d' cur phs row')
      fun w r r' => List.Forall₂ (Option.Rel (X.n w)) r r' ∧ r.length = phs.length := by
  intro phs
  induction phs with
  | nil =>
    intro w row row' h hn
    unfold Api.adviceRow
    exact Y.ret ⟨h, hn⟩
  | cons ph phs ih =>
    intro w row row' h hn
    cases h with
    | nil => simp at hn
    | cons ho h =>
      have hn : _ = phs.length := Nat.succ.inj hn
      unfold Api.adviceRow
      by_cases e : cur = ph
      · rw [if_pos e, if_pos e, ← e, List.count_cons_self, rep_succ]
        rbnd Y.readPoint with p p' hp
        rbnd1 ih h hn with r r' hr
        exact Y.ret ⟨.cons (.some hp) hr.1, congrArg (· + 1) hr.2⟩
      · rw [if_neg e, if_neg e, List.count_cons_of_ne (Ne.symm e)]
        rbnd1 ih h hn with r r' hr
        exact Y.ret ⟨.cons ho hr.1, congrArg (· + 1) hr.2⟩

theorem challengeRow (cur : ℕ) : ∀ (phs : List ℕ) {w : X.W} {row : List c.S} {row' : List c'.S}, List.Forall₂ (X.s w) row row' →
    Y.R [] w (Api.challengeRow cur phs row) (Api.challengeRow cur phs row') fun w => List.Forall₂ (X.s w) := by
  intro phs
  induction phs with
  | nil =>
    intro w row row' h
    unfold Api.challengeRow
    exact Y.ret h
  | cons ph phs ih =>
    intro w row row' h
    cases h with
    | nil =>
      unfold Api.challengeRow
      exact Y.ret .nil
    | cons ho h =>
      unfold Api.challengeRow
      by_cases e : cur = ph
      · rw [if_pos e, if_pos e]
        rbnd0 Y.squeeze with p p' hp
        rbnd0 ih h with r r' hr
        exact Y.ret (.cons hp hr)
      · rw [if_neg e, if_neg e]
        rbnd0 ih h with r r' hr
        exact Y.ret (.cons ho hr)

theorem phaseLoop (vk : VK F G) : ∀ (phs : List ℕ) {w : X.W} {table : List (List (Option c.P))} {table' : List (List (Option c'.P))} {chs : List c.S}
    {chs' : List c'.S}, List.Forall₂ (fun r r' => List.Forall₂ (Option.Rel (X.n w)) r r' ∧ r.length = vk.advicePhase.length) table table' →
    List.Forall₂ (X.s w) chs chs' →
    Y.R (phs.flatMap fun ph => rep table.length (rep (vk.advicePhase.count ph) [.point])) w (Api.phaseLoop d vk phs table chs)
      (Api.phaseLoop d' (vk.map φ) phs table' chs')
      fun w a a' => List.Forall₂ (fun r r' => List.Forall₂ (Option.Rel (X.n w)) r r' ∧ r.length = vk.advicePhase.length) a.1 a'.1 ∧
        List.Forall₂ (X.s w) a.2 a'.2 := by
  intro phs
  induction phs with
  | nil => exact fun h1 h2 => Y.ret ⟨h1, h2⟩
  | cons cur phs ih =>
    intro w table table' chs chs' h1 h2
    rw [List.flatMap_cons]
    rbnd Y.each (A := fun w r r' => List.Forall₂ (Option.Rel (X.n w)) r r' ∧ r.length = vk.advicePhase.length)
      (Q := fun w r r' => List.Forall₂ (Option.Rel (X.n w)) r r' ∧ r.length = vk.advicePhase.length) h1
      fun w' _ r r' hr => Y.adviceRow cur vk.advicePhase hr.1 hr.2 with t t' ht
    rbnd0 Y.challengeRow cur vk.challengePhase h2 with e e' he
    rw [← ht.2]
    exact ih ht.1 he

theorem readLast {w : X.W} (more : Bool) :
    Y.R (if more then [.scalar] else []) w (Api.readLast d more) (Api.readLast d' more) fun w => Option.Rel (X.s w) := by
  unfold Api.readLast
  cases more with
  | true =>
    rw [if_pos rfl, if_pos rfl, if_pos rfl]
    rbnd1 Y.readScalar with s s' hs
    exact Y.ret (.some hs)
  | false => exact Y.ret .none

theorem readSets {l : List c.P} : ∀ {w : X.W} {l' : List c'.P}, List.Forall₂ (X.n w) l l' →
    Y.R (setKinds l.length) w (Api.readSets d l) (Api.readSets d' l') fun w => List.Forall₂ (X.Set w) := by
  induction l with
  | nil =>
    intro w l' h
    cases h
    exact Y.ret .nil
  | cons p l ih =>
    intro w l' h
    cases h with
    | cons hp hl =>
      unfold Api.readSets
      rw [← rel_isEmpty hl]
      have e : setKinds (p :: l).length = [.scalar] ++ ([.scalar] ++ ((if (!l.isEmpty) = true then [.scalar] else []) ++ setKinds l.length)) := by
        rw [List.length_cons, setKinds]
        cases l with
        | nil => rfl
        | cons _ _ => rfl
      rw [e]
      rbnd Y.readScalar with e e' he
      rbnd Y.readScalar with n n' hn
      rbnd Y.readLast _ with o o' ho
      rbnd1 ih hl with sets sets' hs
      exact Y.ret (.cons ⟨hp, he, hn, ho⟩ hs)

theorem columnEval {w : X.W} (vk : VK F G) {advice inst fixed : List c.S} {advice' inst' fixed' : List c'.S} (ha : List.Forall₂ (X.s w) advice advice')
    (hi : List.Forall₂ (X.s w) inst inst') (hf : List.Forall₂ (X.s w) fixed fixed') (col : ColKind × ℕ) :
    X.R w (Api.columnEval vk advice inst fixed col) (Api.columnEval (vk.map φ) advice' inst' fixed' col) X.s := by
  have hu : ∀ o : Option ℕ, X.R w (Api.unwrap c o) (Api.unwrap c' o) fun _ a b => a = b := fun o => by
    cases o with
    | none => exact X.panic
    | some a => exact X.pure rfl
  obtain ⟨k, col⟩ := col
  cases k with
  | advice =>
    bnd hu _ with i i' h
    subst h
    exact Link.index ha i
  | fixed =>
    bnd hu _ with i i' h
    subst h
    exact Link.index hf i
  | «instance» =>
    bnd hu _ with i i' h
    subst h
    exact Link.index hi i

theorem columnEvals {w : X.W} (vk : VK F G) {fixed : List c.S} {fixed' : List c'.S} (hf : List.Forall₂ (X.s w) fixed fixed') {e : List c.S × List c.S}
    {e' : List c'.S × List c'.S} (he : List.Forall₂ (X.s w) e.1 e'.1 ∧ List.Forall₂ (X.s w) e.2 e'.2) :
    X.R w (Api.columnEvals vk fixed e) (Api.columnEvals (vk.map φ) fixed' e') fun w => List.Forall₂ (X.s w) := by
  bnd Link.chunksSame _ _ with ch ch' hc
  obtain ⟨rfl, rfl⟩ := hc
  refine X.bind (Link.mapMSame (Q := fun w => List.Forall₂ (X.s w)) _ fun w' hw a => Link.mapMSame (Q := X.s) _ fun w'' hw' b => ?_)
    fun w' r r' _ hr => X.pure (rel_flatten hr)
  up hw
  up hw'
  exact columnEval vk he.1 he.2 hf b

/-- A table of related entries with rows of length `n`. -/
abbrev Rows {α α' : Type} (A : α → α' → Prop) (n : ℕ) (l : List (List α)) (l' : List (List α')) : Prop :=
  List.Forall₂ (fun r r' => List.Forall₂ A r r' ∧ r.length = n) l l'

theorem Rows.plain {α α' : Type} {A : α → α' → Prop} {n : ℕ} {l : List (List α)} {l' : List (List α')} (h : Rows A n l l') :
    List.Forall₂ (List.Forall₂ A) l l' := h.imp fun _ _ h => h.1

theorem buildPermutation {w : X.W} (vk : VK F G) {x : c.S} {x' : c'.S} (hx : X.s w x x') {n : ℕ} {committed : List (List c.P)}
    {committed' : List (List c'.P)} (hc : Rows (X.n w) n committed committed') {advice inst : List (List c.S)} {advice' inst' : List (List c'.S)}
    (ha : List.Forall₂ (List.Forall₂ (X.s w)) advice advice') (hi : List.Forall₂ (List.Forall₂ (X.s w)) inst inst') {fixed : List c.S}
    {fixed' : List c'.S} (hf : List.Forall₂ (X.s w) fixed fixed') (key : String) :
    Y.R (rep committed.length (setKinds n)) w (Api.buildPermutation d vk x committed advice inst fixed key)
      (Api.buildPermutation d' (vk.map φ) x' committed' advice' inst' fixed' key) fun w => List.Forall₂ (X.Perm w) := by
  rbnd1 Y.each (A := fun w (r : List c.P) (r' : List c'.P) => List.Forall₂ (X.n w) r r' ∧ r.length = n) (Q := fun w => List.Forall₂ (X.Set w)) hc
    fun w' _ l l' hl => hl.2 ▸ Y.readSets hl.1 with sets sets' hs
  refine Y.bind0 (Q := fun w => List.Forall₂ (List.Forall₂ (X.s w))) (Y.lift (Link.mapM'
    (A := fun w x x' => List.Forall₂ (X.s w) x.1 x'.1 ∧ List.Forall₂ (X.s w) x.2 x'.2) (rel_zip ha hi)
    fun w' hw a a' h => ?_)) fun w' ev ev' hw hev => ?_
  · up hw
    exact columnEvals vk hf h
  up hw
  refine Y.ret (rel_mapIdx (fun i a a' ha => ?_) (rel_zip hs.1 hev))
  exact ⟨rfl, rfl, hx, ha.1, ha.2, rfl⟩

theorem readLookup {w : X.W} (key : String) (i : ℕ) {q : (((c.P × c.P) × c.P) × (List (Api.Expr F) × List (Api.Expr F))) × ℕ}
    {q' : (((c'.P × c'.P) × c'.P) × (List (Api.Expr F) × List (Api.Expr F))) × ℕ} (h1 : X.n w q.1.1.1.1 q'.1.1.1.1) (h2 : X.n w q.1.1.1.2 q'.1.1.1.2)
    (h3 : X.n w q.1.1.2 q'.1.1.2) (h4 : q.1.2 = q'.1.2) (h5 : q.2 = q'.2) :
    Y.R [.scalar, .scalar, .scalar, .scalar, .scalar] w (Api.readLookup d key i q) (Api.readLookup d' key i q') X.Lookup := by
  unfold Api.readLookup
  rw [← h4, ← h5]
  change Y.R ([.scalar] ++ ([.scalar] ++ ([.scalar] ++ ([.scalar] ++ [.scalar])))) _ _ _ _
  rbnd Y.readScalar with a a' ha
  rbnd Y.readScalar with b b' hb
  rbnd Y.readScalar with e e' he
  rbnd Y.readScalar with f f' hf
  rbnd1 Y.readScalar with g g' hg
  rbnd0 Y.lift (Link.mapMSame (Q := X.Expr) _ fun w' _ a => Link.convertExpression a) with l l' hl
  rbnd0 Y.lift (Link.mapMSame (Q := X.Expr) _ fun w' _ a => Link.convertExpression a) with m m' hm
  exact Y.ret ⟨rfl, hl, hm, h1, h2, h3, ha, hb, he, hf, hg⟩

theorem buildLookup {w : X.W} (vk : VK F G) {permuted : List (List (c.P × c.P))} {permuted' : List (List (c'.P × c'.P))}
    (hp : Rows (fun a a' => X.n w a.1 a'.1 ∧ X.n w a.2 a'.2) vk.lookups.length permuted permuted') {committed : List (List c.P)}
    {committed' : List (List c'.P)} (hc : Rows (X.n w) vk.lookups.length committed committed') (hl : committed.length = permuted.length) (key : String) :
    Y.R (rep permuted.length (rep vk.lookups.length [.scalar, .scalar, .scalar, .scalar, .scalar])) w (Api.buildLookup d vk permuted committed key)
      (Api.buildLookup d' (vk.map φ) permuted' committed' key) fun w => List.Forall₂ (List.Forall₂ (X.Lookup w)) := by
  have e : permuted.length = (permuted.zip committed).zipIdx.length := by rw [List.length_zipIdx, List.length_zip, hl, min_self]
  rw [e]
  refine Y.mono (Y.each
    (A := fun w x x' => ((List.Forall₂ (fun a a' => X.n w a.1 a'.1 ∧ X.n w a.2 a'.2) x.1.1 x'.1.1 ∧ x.1.1.length = vk.lookups.length) ∧
      List.Forall₂ (X.n w) x.1.2 x'.1.2 ∧ x.1.2.length = vk.lookups.length) ∧ x.2 = x'.2)
    (Q := fun w => List.Forall₂ (X.Lookup w)) (rel_zipIdx 0 (rel_zip hp hc)) fun w' hw a a' ha => ?_) fun _ _ _ h => h.1
  unfold Api.readLookups
  rw [ha.2]
  have hl : List.Forall₂ (fun a b => a = b) vk.lookups (vk.map φ).lookups := by
    change List.Forall₂ _ vk.lookups vk.lookups
    induction vk.lookups with
    | nil => exact .nil
    | cons a l ih => exact .cons rfl ih
  have e : vk.lookups.length = ((a.1.1.zip a.1.2).zip vk.lookups).zipIdx.length := by
    rw [List.length_zipIdx, List.length_zip, List.length_zip, ha.1.1.2, ha.1.2.2, min_self, min_self]
  rw [e]
  refine Y.mono (Y.each (A := fun w x x' => (((X.n w x.1.1.1.1 x'.1.1.1.1 ∧ X.n w x.1.1.1.2 x'.1.1.1.2) ∧ X.n w x.1.1.2 x'.1.1.2) ∧ x.1.2 = x'.1.2) ∧ x.2 = x'.2)
    (Q := X.Lookup) (rel_zipIdx 0 (rel_zip (rel_zip ha.1.1.1 ha.1.2.1) hl)) fun w' hw b b' hb => ?_) fun _ _ _ h => h.1
  exact Y.readLookup key _ hb.1.1.1.1 hb.1.1.1.2 hb.1.1.2 hb.1.2 hb.2

section
variable [Field F]

theorem rotateOmega {w : X.W} {x : c.S} {x' : c'.S} (hx : X.s w x x') (omega : F) (at' : ℤ) :
    X.R w (Api.rotateOmega x omega at') (Api.rotateOmega x' omega at') X.s := by
  bnd Link.rotateBase _ _ with b b' hb
  subst hb
  exact X.sumWithCoeff (.cons ⟨hx, rfl⟩ .nil)

omit [Field F] in
theorem absorbInstances {w : X.W} {ics : List (List c.P)} {ics' : List (List c'.P)} (h : List.Forall₂ (List.Forall₂ (X.n w)) ics ics') :
    Y.R [] w (Api.absorbInstances ics) (Api.absorbInstances ics') fun _ _ _ => True := by
  refine Y.bind0 (Y.kinds (Y.each (ks := []) (A := fun w => List.Forall₂ (X.n w)) (Q := fun _ _ _ => True) h fun w' _ l l' hl =>
    Y.mono (Y.kinds (Y.each (ks := []) (A := X.n) (Q := fun _ _ _ => True) hl fun w' _ p p' hp => Y.commonPoint hp) (rep_nil _).symm) fun _ _ _ _ => trivial)
    (rep_nil _).symm) fun _ _ _ _ _ => ?_
  exact Y.ret trivial

omit [Field F] in
theorem initTranscript {w : X.W} (vk : VK F G) : Y.R [] w (Api.initTranscript vk) (Api.initTranscript (vk.map φ)) fun _ _ _ => True := by
  rbnd0 Y.lift (X.assignConst vk.digest) with k k' hk
  exact Y.commonScalar (X.known_s hk)

omit [Field F] in
theorem assignPoints {w : X.W} (l : List G) : X.R w (Api.mapM' c c.pAssignConst l) (Api.mapM' c' c'.pAssignConst (l.map φ)) fun w => List.Forall₂ (X.n w) :=
  Link.mapMImage (Q := X.n) φ l fun _ _ P => X.pAssignConst P

/-- The opening proofs are related by `A`. -/
theorem buildParams {w : X.W} (vk : VK F G) {kw : List Kind} {A : X.W → List c.P → List c'.P → Prop} [∀ a b, Up X.le fun w => A w a b]
    (hW : ∀ {w}, Y.R kw w (Api.readW d) (Api.readW d') A) {ics : List (List c.P)} {ics' : List (List c'.P)}
    (hics : List.Forall₂ (List.Forall₂ (X.n w)) ics ics') (key : String) :
    Y.R (vk.kindsWith ics.length kw) w (Api.buildParams d vk ics key) (Api.buildParams d' (vk.map φ) ics' key) fun w p p' => X.Params w p p' ∧ A w p.w p'.w := by
  unfold Api.buildParams
  have hlen := hics.length_eq
  unfold VK.kindsWith
  rbnd0 Y.initTranscript vk with u0 u0' hu0
  rbnd0 Y.absorbInstances hics with u1 u1' hu1
  rbnd0 Y.lift (X.assignConst 0) with z0 z0' hz0
  have hnone : ∀ (w : X.W) (l : List ℕ), List.Forall₂ (Option.Rel (X.n w)) (l.map fun _ => none) (l.map fun _ => none) := fun w l => by
    induction l with
    | nil => exact .nil
    | cons a l ih => exact .cons .none ih
  have hzero : ∀ {w : X.W} (l : List ℕ), X.s w z0 z0' → List.Forall₂ (X.s w) (l.map fun _ => z0) (l.map fun _ => z0') := fun l h => by
    induction l with
    | nil => exact .nil
    | cons a l ih => exact .cons h ih
  refine Y.bind (Y.kinds (Y.phaseLoop vk vk.phases (rel_map (fun _ _ _ => ⟨hnone _ _, List.length_map _⟩) hics) (hzero _ (X.known_s hz0)))
    (by rw [List.length_map])) fun w' r r' hw hr => ?_
  up hw
  clear hw
  rbnd0 Y.lift (Link.mapM' (A := fun w => List.Forall₂ (Option.Rel (X.n w))) (Q := fun w => List.Forall₂ (X.n w)) (Rows.plain hr.1) fun w' _ a a' ha =>
    Link.mapM' (A := fun w => Option.Rel (X.n w)) (Q := X.n) ha fun w' _ b b' hb => Link.unwrap hb) with advice advice' hadvice
  rbnd0 Y.squeeze with theta theta' htheta
  rw [← hlen]
  rbnd Y.times (Q := fun w (l : List (c.P × c.P)) (l' : List (c'.P × c'.P)) =>
      List.Forall₂ (fun a a' => X.n w a.1 a'.1 ∧ X.n w a.2 a'.2) l l' ∧ l.length = vk.lookups.length) _ fun _ _ =>
    Y.times (Q := fun w (a : c.P × c.P) (a' : c'.P × c'.P) => X.n w a.1 a'.1 ∧ X.n w a.2 a'.2) _ fun _ _ => Y.readPermuted with permuted permuted' hpermuted
  rbnd0 Y.squeeze with beta beta' hbeta
  rbnd0 Y.squeeze with gamma gamma' hgamma
  rbnd0 Y.lift (Link.chunksSame _ _) with ch ch' hch
  obtain ⟨rfl, rfl⟩ := hch
  rbnd Y.times (Q := fun w (l : List c.P) (l' : List c'.P) => List.Forall₂ (X.n w) l l' ∧ l.length = (chunks (vk.degree - 2) vk.permColumns).length) _
    fun _ _ => Y.times (Q := X.n) _ fun _ _ => Y.readPoint with pc pc' hpc
  refine Y.bind (Q := fun w l l' => Rows (X.n w) vk.lookups.length l l' ∧ l.length = ics.length) (Y.mono (Y.kinds (Y.each
    (A := fun w (l : List (c.P × c.P)) (l' : List (c'.P × c'.P)) => List.Forall₂ (fun a a' => X.n w a.1 a'.1 ∧ X.n w a.2 a'.2) l l' ∧ l.length = vk.lookups.length)
    (Q := fun w (l : List c.P) (l' : List c'.P) => List.Forall₂ (X.n w) l l' ∧ l.length = vk.lookups.length) hpermuted.1 fun _ _ r _ h =>
    Y.mono (Y.kinds (Y.each (A := fun w (a : c.P × c.P) (a' : c'.P × c'.P) => X.n w a.1 a'.1 ∧ X.n w a.2 a'.2) (Q := X.n) h.1 fun _ _ _ _ _ => Y.readPoint)
      (ks' := rep vk.lookups.length [.point]) (by rw [h.2])) fun _ _ _ g => ⟨g.1, g.2.trans h.2⟩)
    (by rw [hpermuted.2])) fun _ _ _ g => ⟨g.1, g.2.trans hpermuted.2⟩) fun w' lc lc' hw => ?_
  up hw
  clear hw
  intro hlc
  rbnd Y.readPoint with random random' hrandom
  rbnd0 Y.squeeze with y y' hy
  rbnd Y.times (Q := X.n) _ fun _ _ => Y.readPoint with h h' hh
  rbnd0 Y.squeeze with x x' hx
  rbnd Y.times (Q := fun w (l : List c.S) (l' : List c'.S) => List.Forall₂ (X.s w) l l' ∧ l.length = vk.instanceQueries.length) _ fun _ _ =>
    Y.times (Q := X.s) _ fun _ _ => Y.readScalar with ie ie' hie
  rbnd Y.times (Q := fun w (l : List c.S) (l' : List c'.S) => List.Forall₂ (X.s w) l l' ∧ l.length = vk.adviceQueries.length) _ fun _ _ =>
    Y.times (Q := X.s) _ fun _ _ => Y.readScalar with ae ae' hae
  rbnd Y.times (Q := X.s) _ fun _ _ => Y.readScalar with fe fe' hfe
  rbnd Y.readScalar with re re' hre
  have e : (vk.map φ).permutationCommitments.length = vk.permutationCommitments.length := List.length_map _
  rw [e]
  rbnd Y.times (Q := X.s) _ fun _ _ => Y.readScalar with pe pe' hpe
  have hie' := Rows.plain hie.1
  have hae' := Rows.plain hae.1
  rbnd Y.kinds (Y.buildPermutation vk hx hpc.1 hae' hie' hfe.1 key) (by rw [hpc.2]) with perms perms' hperms
  rbnd Y.kinds (Y.buildLookup vk hpermuted.1 hlc.1 (hlc.2.trans hpermuted.2.symm) key) (by rw [hpermuted.2]) with lookups lookups' hlookups
  rbnd0 Y.lift (assignPoints _) with fc fc' hfc
  rbnd0 Y.squeeze with v v' hv
  rbnd1 hW with ws ws' hws
  rbnd0 Y.squeeze with u u' hu
  rbnd0 Y.lift (rotateOmega hx _ _) with xn xn' hxn
  rbnd0 Y.lift (rotateOmega hx _ _) with xl xl' hxl
  rbnd0 Y.lift (rotateOmega hx _ _) with xi xi' hxi
  rbnd0 Y.lift (Link.powConst hx _) with xp xp' hxp
  rbnd0 Y.lift (Link.mapMSame (Q := fun w => List.Forall₂ (X.Expr w)) _ fun _ _ _ => Link.mapMSame (Q := X.Expr) _ fun _ _ a => Link.convertExpression a)
    with gates gates' hgates
  rbnd0 Y.lift (assignPoints _) with pcs pcs' hpcs
  rbnd0 Y.lift (X.assignConst _) with delta delta' hdelta
  rbnd0 Y.lift (X.assignConst _) with omega omega' homega
  rbnd0 Y.lift (X.assignConst _) with zero zero' hzero
  rbnd0 Y.lift (X.assignConst _) with one one' hone
  rbnd0 Y.lift (X.assignConst _) with n n' hn
  exact Y.ret (⟨{
    key := rfl, gates := hgates, l := rfl, lookups := hlookups, perms := hperms, instanceCommitments := hics, instanceEvals := hie',
    instanceQueries := rfl, challenges := hr.2, adviceCommitments := hadvice, adviceEvals := hae', adviceQueries := rfl, fixedCommitments := hfc,
    fixedEvals := hfe.1, fixedQueries := rfl, permutationCommitments := hpcs, permutationEvals := hpe.1, vanishCommitments := hh.1,
    randomCommitment := hrandom, randomEval := hre, beta := hbeta, gamma := hgamma, theta := htheta, delta := X.known_s hdelta, x := hx,
    xNext := hxn, xLast := hxl, xInv := hxi, xn := hxp, y := hy, u := hu, v := hv, omega := ⟨_, homega⟩, zero := X.known_s hzero,
    one := X.known_s hone, n := X.known_s hn }, hws⟩)

end
end RdCore

namespace RdRel
variable {X : Link c c' φ} {T : Transcript c} {T' : Transcript c'} {d : Codec F G} {d' : Codec F G'} (Y : RdRel X T T' d d')
variable [Field F] [AddCommGroup G] [AddCommGroup G']

theorem verifyNoEval {w : X.W} (vk : VK F G) {ics : List (List c.P)} {ics' : List (List c'.P)} (hics : List.Forall₂ (List.Forall₂ (X.n w)) ics ics')
    (key : String) : Y.R (vk.kinds ics.length Y.m) w (Api.verifyNoEval d vk ics key) (Api.verifyNoEval d' (vk.map φ) ics' key)
      fun w r r' => X.Open w r.1 r'.1 ∧ List.Forall₂ (X.n w) r.2 r'.2 := by
  rw [VK.kinds_with]
  rbnd1 Y.buildParams vk (A := fun w => List.Forall₂ (X.n w)) Y.readW hics key with p p' hp
  rbnd0 Y.lift (Link.openParams hp.1 hp.2) with o o' ho
  rbnd0 Y.lift (Link.index (Q := fun w => List.Forall₂ (X.n w)) hp.1.adviceCommitments 0) with a a' ha
  exact Y.ret ⟨ho, ha⟩

end RdRel

/-- Two transcripts, each with its bytes: related transcripts give related values, and are related afterwards. -/
structure LinkRd (X : Link c c' φ) (T : Transcript c) (T' : Transcript c') (d : Codec F G) (d' : Codec F G') where
  rd : X.W → Reader T → Reader T' → Prop
  rd_up : ∀ {w w' r r'}, X.le w w' → rd w r r' → rd w' r r'
  commonPoint : ∀ {w p p' r r'}, X.n w p p' → rd w r r' → X.R w (Rd.commonPoint p r) (Rd.commonPoint p' r') fun w a a' => rd w a.2 a'.2
  commonScalar : ∀ {w s s' r r'}, X.s w s s' → rd w r r' → X.R w (Rd.commonScalar s r) (Rd.commonScalar s' r') fun w a a' => rd w a.2 a'.2
  squeeze : ∀ {w r r'}, rd w r r' → X.R w (Rd.squeeze r) (Rd.squeeze r') fun w a a' => X.s w a.1 a'.1 ∧ rd w a.2 a'.2
  readPoint : ∀ {w r r'}, rd w r r' → X.R w (Rd.readPoint d r) (Rd.readPoint d' r') fun w a a' => X.n w a.1 a'.1 ∧ rd w a.2 a'.2
  readScalar : ∀ {w r r'}, rd w r r' → X.R w (Rd.readScalar d r) (Rd.readScalar d' r') fun w a a' => X.s w a.1 a'.1 ∧ rd w a.2 a'.2
  readW : ∀ {w r r'}, rd w r r' → X.R w (Api.readW d r) (Api.readW d' r') fun w a a' => List.Forall₂ (X.n w) a.1 a'.1 ∧ rd w a.2 a'.2

namespace LinkRd
variable {X : Link c c' φ} {T : Transcript c} {T' : Transcript c'} {d : Codec F G} {d' : Codec F G'} (Y : LinkRd X T T' d d')

instance {r r'} : Up X.le fun w => Y.rd w r r' := ⟨Y.rd_up⟩

/-- The same for computations that use the transcript. -/
def rel : RdRel X T T' d d' where
  m := 0
  R _ w x x' Q := ∀ r r', Y.rd w r r' → X.R w (x r) (x' r') fun w a a' => Q w a.1 a'.1 ∧ Y.rd w a.2 a'.2
  ret h := fun _ _ hr => X.pure ⟨h, hr⟩
  bind hx h := fun r r' hr => X.bind (hx r r' hr) fun w' a a' hw ha => h w' a.1 a'.1 hw ha.1 a.2 a'.2 ha.2
  mono h e := fun r r' hr => X.mono (h r r' hr) fun w' a a' _ ha => ⟨e w' _ _ ha.1, ha.2⟩
  lift h := fun _ _ hr => X.bind h fun _ _ _ hw ha => X.pure ⟨ha, Y.rd_up hw hr⟩
  commonPoint h := fun _ _ hr => X.mono (Y.commonPoint h hr) fun _ _ _ _ h => ⟨trivial, h⟩
  commonScalar h := fun _ _ hr => X.mono (Y.commonScalar h hr) fun _ _ _ _ h => ⟨trivial, h⟩
  squeeze := fun _ _ hr => Y.squeeze hr
  readPoint := fun _ _ hr => Y.readPoint hr
  readScalar := fun _ _ hr => Y.readScalar hr
  readW := fun _ _ hr => Y.readW hr

theorem rel_any {α α' : Type} {ks ks' : List Kind} {w : X.W} {x : Rd T α} {x' : Rd T' α'} {Q : X.W → α → α' → Prop} (h : Y.rel.R ks w x x' Q) :
    Y.rel.R ks' w x x' Q := h

section
variable [Field F]

/-- The proofs to verify, given to the two chips: the transcripts are related, all else is the same. -/
structure Data (w : X.W) (p : ProofData T) (p' : ProofData T') : Prop where
  instances : p.instances = p'.instances
  key : p.key = p'.key
  reader : Y.rd w p.reader p'.reader

structure Circuit (w : X.W) (p : CircuitProof T) (p' : CircuitProof T') : Prop where
  vk : p'.vk = p.vk.map φ
  proofs : List.Forall₂ (Y.Data w) p.proofs p'.proofs

structure Verified (w : X.W) (v : Api.Verified T) (v' : Api.Verified T') : Prop where
  instances : List.Forall₂ (X.s w) v.instances v'.instances
  proof : X.Open w v.proof v'.proof
  advice : List.Forall₂ (X.n w) v.advice v'.advice
  reader : Y.rd w v.reader v'.reader

end

section
variable [Field F] [AddCommGroup G] [AddCommGroup G']

instance {a b} : Up X.le fun w => Y.Data w a b := ⟨fun h e => ⟨e.instances, e.key, Y.rd_up h e.reader⟩⟩
instance {a b} : Up X.le fun w => Y.Circuit w a b := ⟨fun h e => ⟨e.vk, e.proofs.imp fun _ _ e => ⟨e.instances, e.key, Y.rd_up h e.reader⟩⟩⟩
instance {a b} : Up X.le fun w => Y.Verified w a b :=
  ⟨fun h e => ⟨e.instances.imp fun _ _ => X.s_up h, ⟨X.schema_up h e.proof.wx, X.schema_up h e.proof.wg⟩, e.advice.imp fun _ _ => X.n_up h,
    Y.rd_up h e.reader⟩⟩

variable (h0 : φ 0 = 0) (hv : ∀ (w : X.W) (k : F), X.R w (c.assignVar k) (c'.assignVar k) X.s)
include h0 hv

theorem verifySingle {w : X.W} {p : CircuitProof T} {p' : CircuitProof T'} (h : Y.Circuit w p p') :
    Y.rel.R [] w (Api.verifySingle d p) (Api.verifySingle d' p') fun w r r' => X.p w r.1 r'.1 ∧ X.o w r.2.1 r'.2.1 ∧
      List.Forall₂ (X.s w) r.2.2.1 r'.2.2.1 ∧ List.Forall₂ (X.n w) r.2.2.2 r'.2.2.2 := by
  unfold Api.verifySingle
  rw [h.vk]
  rbnd0 Y.rel.lift (Link.index h.proofs 0) with q q' hq
  rw [← hq.instances]
  rbnd0 Y.rel.lift (Link.assignInstanceCommitment h0 hv p.vk _) with i i' hi
  rbnd0 Y.rel_any (ks' := []) (Y.rel.verifyNoEval p.vk hi.2 "") with r r' hr
  rbnd0 Y.rel.lift (Link.evaluateMultiopen hr.1) with e e' he
  exact Y.rel.ret ⟨he.1, he.2, hi.1, hr.2⟩

theorem verifyProof {w : X.W} (vk : VK F G) {p : ProofData T} {p' : ProofData T'} (h : Y.Data w p p') :
    X.R w (Api.verifyProof d vk p) (Api.verifyProof d' (vk.map φ) p') Y.Verified := by
  unfold Api.verifyProof
  rw [← h.instances, ← h.key]
  bnd Link.assignInstanceCommitment h0 hv vk _ with i i' hi
  bnd Y.rel.verifyNoEval vk hi.2 p.key _ _ h.reader with r r' hr
  exact X.pure ⟨hi.1, hr.1.1, hr.1.2, hr.2⟩

omit [Field F] [AddCommGroup G] [AddCommGroup G'] h0 hv in
theorem bindProof {w : X.W} {v : Api.Verified T} {v' : Api.Verified T'} (h : Y.Verified w v v') :
    Y.rel.R [] w (Api.bindProof v) (Api.bindProof v') fun _ _ _ => True := by
  rbnd0 Y.rel.lift (Y.squeeze h.reader) with k k' hk
  exact Y.rel.commonScalar hk.1

theorem verifyCircuit {w : X.W} {p : CircuitProof T} {p' : CircuitProof T'} (h : Y.Circuit w p p') :
    Y.rel.R [] w (Api.verifyCircuit d p) (Api.verifyCircuit d' p') fun w => List.Forall₂ (Y.Verified w) := by
  unfold Api.verifyCircuit
  rw [h.vk]
  rbnd0 Y.rel.lift (Link.mapM' (A := Y.Data) (Q := Y.Verified) h.proofs fun _ _ _ _ ha => Y.verifyProof h0 hv p.vk ha) with rs rs' hrs
  rbnd0 Y.rel_any (Y.rel.each (A := Y.Verified) (Q := fun _ _ _ => True) hrs fun _ _ _ _ ha => Y.bindProof ha) with u u' hu
  exact Y.rel.ret hrs

/-- **Aggregation**: if it returns with the first chip, it returns with the second. -/
theorem verifyAggregation {w : X.W} {ps : List (CircuitProof T)} {ps' : List (CircuitProof T')} (h : List.Forall₂ (Y.Circuit w) ps ps') :
    Y.rel.R [] w (Api.verifyAggregation d ps) (Api.verifyAggregation d' ps') fun w r r' => X.p w r.1 r'.1 ∧ X.o w r.2.1 r'.2.1 ∧
      List.Forall₂ (X.s w) r.2.2.1 r'.2.2.1 ∧ List.Forall₂ (List.Forall₂ (X.n w)) r.2.2.2 r'.2.2.2 := by
  rbnd0 Y.rel_any (Y.rel.each (A := Y.Circuit) (Q := fun w => List.Forall₂ (Y.Verified w)) h fun _ _ _ _ ha => Y.verifyCircuit h0 hv ha) with rs rs' hrs
  rbnd0 Y.rel.squeeze with ch ch' hch
  rbnd0 Y.rel.lift (Link.aggregate hch (rel_map (q := X.Open _) (fun _ _ h => Verified.proof h) (rel_flatten hrs.1))) with e e' he
  exact Y.rel.ret ⟨he.1, he.2, rel_flatMap (fun _ _ h => Verified.instances h) (rel_flatten hrs.1), rel_map (fun _ _ h => Verified.advice h) (rel_flatten hrs.1)⟩

end

end LinkRd
end Verif.Api
