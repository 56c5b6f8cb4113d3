import Verif.Sol.ContractTotal

/-!
# A proof for which native verification returns has the expected form

The bytes can be taken apart into the values the verifier reads.
-/

namespace Verif.Sol
open Verif.Circuit Verif.Ecc

/-! ### Taking values from bytes -/

/-- From `b`, that many points can be taken, which leaves the second list. -/
def TakesPoints (d : Api.Codec N Pt) : ℕ → List UInt8 → List UInt8 → Prop
  | 0, b, b' => b = b'
  | n + 1, b, b' => ∃ P r, d.readPoint b = some (P, r) ∧ TakesPoints d n r b'

/-- Values of these kinds can be taken; `stop` are any number of points followed by none. -/
def Takes (d : Api.Codec N Pt) : List Api.Kind → List UInt8 → List UInt8 → Prop
  | [], b, b' => b = b'
  | .point :: ks, b, b' => ∃ P r, d.readPoint b = some (P, r) ∧ Takes d ks r b'
  | .scalar :: ks, b, b' => ∃ k r, d.readScalar b = some (k, r) ∧ Takes d ks r b'
  | .stop :: ks, b, b' => ∃ m r, TakesPoints d m b r ∧ d.readPoint r = none ∧ Takes d ks r b'

theorem Takes.append {d : Api.Codec N Pt} {ks' : List Api.Kind} : ∀ {ks : List Api.Kind} {b b1 b2 : List UInt8}, Takes d ks b b1 → Takes d ks' b1 b2 →
    Takes d (ks ++ ks') b b2
  | [], _, _, _, h, h' => by cases h; exact h'
  | .point :: ks, _, _, _, ⟨P, r, h1, h2⟩, h' => ⟨P, r, h1, h2.append h'⟩
  | .scalar :: ks, _, _, _, ⟨P, r, h1, h2⟩, h' => ⟨P, r, h1, h2.append h'⟩
  | .stop :: ks, _, _, _, ⟨m, r, h1, h2, h3⟩, h' => ⟨m, r, h1, h2, h3.append h'⟩

theorem TakesPoints.parses {d : Api.Codec N Pt} : ∀ {m : ℕ} {b r : List UInt8}, TakesPoints d m b r → d.readPoint r = none →
    d.Parses (List.replicate m .point ++ [.stop]) b
  | 0, _, _, h, h' => by cases h; exact ⟨h', rfl⟩
  | m + 1, _, _, ⟨P, r, h1, h2⟩, h' => ⟨P, r, h1, h2.parses h'⟩

theorem Takes.parses {d : Api.Codec N Pt} : ∀ {ks : List Api.Kind} {b b' : List UInt8}, .stop ∉ ks → Takes d (ks ++ [.stop]) b b' →
    ∃ m, d.Parses (ks ++ (List.replicate m .point ++ [.stop])) b
  | [], _, _, _, ⟨m, _, h1, h2, _⟩ => ⟨m, h1.parses h2⟩
  | .point :: ks, _, _, hk, ⟨P, r, h1, h2⟩ => by
    obtain ⟨m, h⟩ := Takes.parses (ks := ks) (fun h => hk (List.mem_cons_of_mem _ h)) h2
    exact ⟨m, P, r, h1, h⟩
  | .scalar :: ks, _, _, hk, ⟨P, r, h1, h2⟩ => by
    obtain ⟨m, h⟩ := Takes.parses (ks := ks) (fun h => hk (List.mem_cons_of_mem _ h)) h2
    exact ⟨m, P, r, h1, h⟩
  | .stop :: ks, _, _, hk, _ => absurd (List.mem_cons_self ..) hk

/-! ### A computation and itself -/

variable {res arg : Pt → Bool}

/-- The chip of `native`. -/
noncomputable abbrev checkedChip (res arg : Pt → Bool) : Api.Chip N Pt := Api.checked N gen (fun x => x⁻¹) res arg

namespace Diagonal

/-- Results, if there are any, are related. -/
def R {α α' : Type} (x : Option α) (x' : Option α') (Q : α → α' → Prop) : Prop := ∀ a a', x = some a → x' = some a' → Q a a'

theorem R.same {α : Type} (x : Option α) : R x x fun a a' => a = a' := fun a a' h h' => by rw [h] at h'; exact Option.some.inj h'

theorem eq_of {α : Type} {l l' : List α} (h : List.Forall₂ (fun a b => a = b) l l') : l = l' := List.forall₂_eq_eq_eq ▸ h

def link : Api.Link (checkedChip res arg) (checkedChip res arg) (id : Pt → Pt) where
  W := Unit
  le _ _ := True
  refl _ := trivial
  trans _ _ := trivial
  R _ x x' Q := R x x' (Q ())
  s _ a a' := a = a'
  p _ a a' := a = a'
  n _ a a' := a = a'
  o _ a a' := a = a'
  known _ _ a a' := a = a'
  s_up _ h := h
  p_up _ h := h
  n_up _ h := h
  o_up _ h := h
  n_p h := h
  p_o h := h
  known_up _ h := h
  known_s h := h
  pure h := fun a a' e e' => by cases e; cases e'; exact h
  bind hx h := fun b b' e e' => by
    obtain ⟨a, h1, h2⟩ := Option.bind_eq_some_iff.1 e
    obtain ⟨a', h1', h2'⟩ := Option.bind_eq_some_iff.1 e'
    exact h () a a' trivial (hx a a' h1 h1') b b' h2 h2'
  mono hx h := fun a a' e e' => h () a a' trivial (hx a a' e e')
  panic := fun a a' e => by cases e
  add := by rintro _ _ _ _ _ rfl rfl; exact R.same _
  sub := by rintro _ _ _ _ _ rfl rfl; exact R.same _
  mul := by rintro _ _ _ _ _ rfl rfl; exact R.same _
  div := by rintro _ _ _ _ _ rfl rfl; exact R.same _
  square := by rintro _ _ _ rfl; exact R.same _
  sumWithCoeff h := by
    obtain rfl := eq_of (h.imp fun a b h => Prod.ext h.1 h.2)
    exact R.same _
  assignZero := R.same _
  assignOne := R.same _
  assignConst _ := R.same _
  toValue := by rintro _ _ _ _ rfl; exact R.same _
  pAdd := by rintro _ _ _ _ _ rfl rfl; exact R.same _
  pSub := by rintro _ _ _ _ _ rfl rfl; exact R.same _
  pAssignOne := R.same _
  pAssignConst _ := R.same _
  normalize := by rintro _ _ _ rfl; exact R.same _
  scalarMul := by rintro _ _ _ _ _ rfl rfl; exact R.same _
  scalarMulConstant := by rintro _ _ _ _ rfl; exact R.same _
  multiExp h h' := by
    obtain rfl := eq_of h
    obtain rfl := eq_of h'
    exact R.same _

variable {T : Api.Transcript (checkedChip res arg)} {d : Api.Codec N Pt}

theorem bind_some {α β : Type} {x : Api.Rd T α} {f : α → Api.Rd T β} {s : Api.Reader T} {r : β × Api.Reader T} (h : ((x >>= f) s : Option _) = some r) :
    ∃ a s1, x s = some (a, s1) ∧ f a s1 = some r := by
  obtain ⟨⟨a, s1⟩, h1, h2⟩ := Option.bind_eq_some_iff.1 h
  exact ⟨a, s1, h1, h2⟩

/-- Accepting a point does not take bytes. -/
theorem acceptPoint_bytes {P : Pt} {s s1 : Api.Reader T} {a : Pt} (h : (Api.Rd.acceptPoint (T := T) P s : Option _) = some (a, s1)) : s1.bytes = s.bytes := by
  obtain ⟨p, s2, h1, h⟩ := bind_some h
  obtain ⟨u, s3, h2, h⟩ := bind_some h
  obtain ⟨st, h2, h2'⟩ := Option.bind_eq_some_iff.1 h2
  have h1 : some (P, s) = some (p, s2) := h1
  cases h1
  cases h2'
  cases h
  rfl

theorem acceptScalar_bytes {k : N} {s s1 : Api.Reader T} {a : N} (h : (Api.Rd.acceptScalar (T := T) k s : Option _) = some (a, s1)) : s1.bytes = s.bytes := by
  obtain ⟨p, s2, h1, h⟩ := bind_some h
  obtain ⟨u, s3, h2, h⟩ := bind_some h
  obtain ⟨st, h2, h2'⟩ := Option.bind_eq_some_iff.1 h2
  have h1 : some (k, s) = some (p, s2) := h1
  cases h1
  cases h2'
  cases h
  rfl

theorem readPoint_takes {s s1 : Api.Reader T} {a : Pt} (h : (Api.Rd.readPoint (T := T) d s : Option _) = some (a, s1)) : Takes d [.point] s.bytes s1.bytes := by
  obtain ⟨o, s2, h1, h⟩ := bind_some h
  cases hr : d.readPoint s.bytes with
  | none =>
    have : (Api.Rd.nextPoint d s : Option _) = some (none, s) := by unfold Api.Rd.nextPoint; rw [hr]; rfl
    rw [this] at h1
    cases h1
    cases h
  | some x =>
    obtain ⟨P, r⟩ := x
    have : (Api.Rd.nextPoint d s : Option _) = some (some P, ⟨r, s.st, s.trace⟩) := by unfold Api.Rd.nextPoint; rw [hr]; rfl
    rw [this] at h1
    cases h1
    exact ⟨P, r, hr, (acceptPoint_bytes h).symm⟩

theorem readScalar_takes {s s1 : Api.Reader T} {a : N} (h : (Api.Rd.readScalar (T := T) d s : Option _) = some (a, s1)) : Takes d [.scalar] s.bytes s1.bytes := by
  obtain ⟨o, s2, h1, h⟩ := bind_some h
  cases hr : d.readScalar s.bytes with
  | none =>
    have : (Api.Rd.nextScalar d s : Option _) = some (none, s) := by unfold Api.Rd.nextScalar; rw [hr]; rfl
    rw [this] at h1
    cases h1
    cases h
  | some x =>
    obtain ⟨P, r⟩ := x
    have : (Api.Rd.nextScalar d s : Option _) = some (some P, ⟨r, s.st, s.trace⟩) := by unfold Api.Rd.nextScalar; rw [hr]; rfl
    rw [this] at h1
    cases h1
    exact ⟨P, r, hr, (acceptScalar_bytes h).symm⟩

theorem readAll_takes (hd : 0 < d.pointLen) : ∀ (n : ℕ) {s s1 : Api.Reader T} {a : List Pt}, s.bytes.length ≤ n →
    (Api.Rd.readAll (T := T) d n s : Option _) = some (a, s1) → ∃ m r, TakesPoints d m s.bytes r ∧ d.readPoint r = none ∧ r = s1.bytes
  | 0, s, s1, a, hn, h => by
    cases h
    refine ⟨0, _, rfl, ?_, rfl⟩
    unfold Api.Codec.readPoint
    rw [if_pos (by omega)]
  | n + 1, s, s1, a, hn, h => by
    obtain ⟨o, s2, h1, h⟩ := bind_some h
    cases hr : d.readPoint s.bytes with
    | none =>
      have : (Api.Rd.nextPoint d s : Option _) = some (none, s) := by unfold Api.Rd.nextPoint; rw [hr]; rfl
      rw [this] at h1
      cases h1
      cases h
      exact ⟨0, _, rfl, hr, rfl⟩
    | some x =>
      obtain ⟨P, r⟩ := x
      have : (Api.Rd.nextPoint d s : Option _) = some (some P, ⟨r, s.st, s.trace⟩) := by unfold Api.Rd.nextPoint; rw [hr]; rfl
      rw [this] at h1
      cases h1
      obtain ⟨p, s3, h2, h⟩ := bind_some h
      obtain ⟨l, s4, h3, h⟩ := bind_some h
      cases h
      have e := acceptPoint_bytes h2
      have hl : r.length < s.bytes.length := by
        unfold Api.Codec.readPoint at hr
        split at hr
        · cases hr
        · obtain ⟨x, -, h2⟩ := Option.map_eq_some_iff.1 hr
          cases h2
          rw [List.length_drop]
          omega
      obtain ⟨m, r', h4, h5, h6⟩ := readAll_takes hd n (by rw [e]; dsimp only; omega) h3
      rw [e] at h4
      exact ⟨m + 1, r', ⟨P, r, hr, h4⟩, h5, h6⟩

/-- What is taken from the bytes is of the kinds that are expected. -/
def rel (T : Api.Transcript (checkedChip res arg)) (hd : 0 < d.pointLen) : Api.RdRel (link (res := res) (arg := arg)) T T d d where
  m := 0
  R ks _ x x' Q := ∀ s a s1 a' s1', x s = some (a, s1) → x' s = some (a', s1') → Q () a a' ∧ s1 = s1' ∧ Takes d ks s.bytes s1.bytes
  ret h := fun s a s1 a' s1' e e' => by cases e; cases e'; exact ⟨h, rfl, rfl⟩
  bind hx h := fun s b s2 b' s2' e e' => by
    obtain ⟨a, s1, h1, h2⟩ := bind_some e
    obtain ⟨a', s1', h1', h2'⟩ := bind_some e'
    obtain ⟨q1, q2, q3⟩ := hx s a s1 a' s1' h1 h1'
    subst q2
    obtain ⟨q4, q5, q6⟩ := h () a a' trivial q1 s1 b s2 b' s2' h2 h2'
    exact ⟨q4, q5, q3.append q6⟩
  mono hx h := fun s a s1 a' s1' e e' => by
    obtain ⟨q1, q2, q3⟩ := hx s a s1 a' s1' e e'
    exact ⟨h () a a' q1, q2, q3⟩
  lift hx := fun s a s1 a' s1' e e' => by
    obtain ⟨b, h1, h2⟩ := Option.bind_eq_some_iff.1 e
    obtain ⟨b', h1', h2'⟩ := Option.bind_eq_some_iff.1 e'
    cases h2
    cases h2'
    exact ⟨hx _ _ h1 h1', rfl, rfl⟩
  commonPoint := by
    rintro _ p _ rfl s a s1 a' s1' e e'
    rw [e] at e'
    cases e'
    obtain ⟨b, h1, h2⟩ := Option.bind_eq_some_iff.1 e
    cases h2
    exact ⟨trivial, rfl, rfl⟩
  commonScalar := by
    rintro _ p _ rfl s a s1 a' s1' e e'
    rw [e] at e'
    cases e'
    obtain ⟨b, h1, h2⟩ := Option.bind_eq_some_iff.1 e
    cases h2
    exact ⟨trivial, rfl, rfl⟩
  squeeze := by
    rintro _ s a s1 a' s1' e e'
    rw [e] at e'
    cases e'
    obtain ⟨b, h1, h2⟩ := Option.bind_eq_some_iff.1 e
    cases h2
    exact ⟨rfl, rfl, rfl⟩
  readPoint := by
    rintro _ s a s1 a' s1' e e'
    have t := readPoint_takes e
    rw [e] at e'
    cases e'
    exact ⟨rfl, rfl, t⟩
  readScalar := by
    rintro _ s a s1 a' s1' e e'
    have t := readScalar_takes e
    rw [e] at e'
    cases e'
    exact ⟨rfl, rfl, t⟩
  readW := by
    rintro _ s a s1 a' s1' e e'
    obtain ⟨m, r, t1, t2, t3⟩ := readAll_takes hd _ le_rfl e
    rw [e] at e'
    cases e'
    exact ⟨List.forall₂_same.2 fun _ _ => rfl, rfl, m, r, t1, t2, t3⟩

end Diagonal

theorem rep_no_stop {n : ℕ} {ks : List Api.Kind} (h : .stop ∉ ks) : .stop ∉ Api.rep n ks := by
  unfold Api.rep
  rw [List.mem_flatten]
  rintro ⟨l, h1, h2⟩
  rw [(List.mem_replicate.1 h1).2] at h2
  exact h h2

theorem setKinds_no_stop : ∀ n, Api.Kind.stop ∉ Api.setKinds n
  | 0 => by simp [Api.setKinds]
  | n + 1 => by
    have := setKinds_no_stop n
    unfold Api.setKinds
    split <;> simp [this]

/-- The kinds before the opening proofs. -/
theorem kinds_split (vk : Api.VK N Pt) (np : ℕ) : ∃ ks, .stop ∉ ks ∧ ∀ m, vk.kinds np m = ks ++ (List.replicate m .point ++ [.stop]) := by
  refine ⟨_, ?_, fun m => rfl⟩
  simp only [List.mem_append, not_or, List.mem_flatMap, not_exists, not_and]
  have hp : ∀ n m, Api.Kind.stop ∉ Api.rep n (Api.rep m [.point]) := fun n m => rep_no_stop (rep_no_stop (by decide))
  have hs : ∀ n m, Api.Kind.stop ∉ Api.rep n (Api.rep m [.scalar]) := fun n m => rep_no_stop (rep_no_stop (by decide))
  refine ⟨⟨⟨⟨⟨⟨⟨⟨⟨⟨⟨⟨fun _ _ => hp _ _, rep_no_stop (rep_no_stop (by decide))⟩, hp _ _⟩, hp _ _⟩, by decide⟩, rep_no_stop (by decide)⟩, hs _ _⟩, hs _ _⟩, rep_no_stop (by decide)⟩, by decide⟩, rep_no_stop (by decide)⟩, rep_no_stop (setKinds_no_stop _)⟩, rep_no_stop (rep_no_stop (by decide))⟩

theorem mapM'_length {α β : Type} {f : α → Option β} : ∀ {l : List α} {r : List β}, (Api.mapM' (checkedChip res arg) f l : Option (List β)) = some r →
    r.length = l.length
  | [], r, h => by cases h; rfl
  | a :: l, r, h => by
    obtain ⟨b, -, h⟩ := Option.bind_eq_some_iff.1 h
    obtain ⟨r', h1, h⟩ := Option.bind_eq_some_iff.1 h
    cases h
    rw [List.length_cons, List.length_cons, mapM'_length h1]

theorem assignInstance_length {vk : Api.VK N Pt} {instances : List (List (List N))} {i : List N × List (List Pt)}
    (h : (Api.assignInstanceCommitment (c := checkedChip res arg) vk instances : Option (List N × List (List Pt))) = some i) :
    i.2.length = instances.length := by
  unfold Api.assignInstanceCommitment at h
  split at h
  · obtain ⟨as, h1, h⟩ := Option.bind_eq_some_iff.1 h
    obtain ⟨cs, h2, h⟩ := Option.bind_eq_some_iff.1 h
    cases h
    exact (mapM'_length h2).trans (mapM'_length h1)
  · cases h

/-- If native verification returns, the bytes are those of a proof with some number of opening points. -/
theorem native_parses {D : Digest} {d : Api.Codec N Pt} (hd : 0 < d.pointLen) {vk : Api.VK N Pt} {instances : List (List (List N))} {bytes : List UInt8}
    {lr : Pt × Pt} (h : native res arg D d vk instances bytes = some lr) : ∃ m, d.Parses (vk.kinds instances.length m) bytes := by
  obtain ⟨i, h1, h⟩ := Option.bind_eq_some_iff.1 h
  obtain ⟨r, h2, -⟩ := Option.bind_eq_some_iff.1 h
  have hR := (Diagonal.rel (res := res) (arg := arg) (d := d) (shaTranscript D) hd).verifyNoEval (w := ()) vk (ics := i.2) (ics' := i.2)
    (List.forall₂_same.2 fun _ _ => List.forall₂_same.2 fun _ _ => rfl) ""
  rw [VK.map_id] at hR
  obtain ⟨-, -, ht⟩ := hR _ _ _ _ _ h2 h2
  obtain ⟨ks, hk, e⟩ := kinds_split vk instances.length
  replace ht : Takes d (vk.kinds (List.length i.2) 0) bytes r.2.bytes := ht
  rw [show List.length i.2 = instances.length from assignInstance_length h1] at ht
  rw [e 0] at ht
  obtain ⟨m, hm⟩ := Takes.parses hk ht
  exact ⟨m, by rw [e m]; exact hm⟩

end Verif.Sol
