import Verif.Api.Build

/-!
# What `build_params` returns

The shape of the record, the values of its constants, and the transcript it went through.
-/

namespace Verif.Api

/-! ### Specification -/

section Spec
variable {F G P S : Type}

/-- The evaluations of proof `i` for the columns of a kind. -/
def Params.evalsOf (p : Params P S) (i : ℕ) : ColKind → List S
  | .advice => p.adviceEvals.getD i []
  | .fixed => p.fixedEvals
  | .instance => p.instanceEvals.getD i []

/-- The record has the shape the verifying key asks for: lengths, keys, and the evaluations the permutation argument uses. -/
structure Params.Shape (vk : VK F G) (ics : List (List P)) (pre : String) (p : Params P S) : Prop where
  key : p.key = pre
  l : p.l = vk.blinding + 1
  instanceCommitments : p.instanceCommitments = ics
  instanceQueries : p.instanceQueries = vk.instanceQueries
  adviceQueries : p.adviceQueries = vk.adviceQueries
  fixedQueries : p.fixedQueries = vk.fixedQueries
  challenges : p.challenges.length = vk.challengePhase.length
  adviceCommitments : p.adviceCommitments.length = ics.length ∧ ∀ r ∈ p.adviceCommitments, r.length = vk.advicePhase.length
  instanceEvals : p.instanceEvals.length = ics.length ∧ ∀ r ∈ p.instanceEvals, r.length = vk.instanceQueries.length
  adviceEvals : p.adviceEvals.length = ics.length ∧ ∀ r ∈ p.adviceEvals, r.length = vk.adviceQueries.length
  fixedEvals : p.fixedEvals.length = vk.fixedQueries.length
  permutationEvals : p.permutationEvals.length = vk.permutationCommitments.length
  vanish : p.vanishCommitments.length = vk.quotientDegree
  permsLen : p.perms.length = ics.length
  perms : ∀ (i : ℕ) (q : PermEval P S), p.perms[i]? = some q → q.key = pre ++ "_" ++ toString i ∧ q.blinding = vk.blinding ∧
    q.x = p.x ∧ q.chunkLen = vk.degree - 2 ∧ q.sets.length = (chunks (vk.degree - 2) vk.permColumns).length ∧
    (∀ s ∈ q.sets.dropLast, s.last.isSome) ∧ (∀ s ∈ q.sets.getLast?, s.last = none) ∧
    List.Forall₂ (fun col e => ∃ t : ℕ, (vk.queriesOf col.1)[t]? = some (col.2, 0) ∧ (p.evalsOf i col.1)[t]? = some e) vk.permColumns q.evals
  lookupsLen : p.lookups.length = ics.length
  lookups : ∀ (i : ℕ) (ks : List (LookupEval P S)), p.lookups[i]? = some ks → ks.length = vk.lookups.length ∧
    ∀ (j : ℕ) (k : LookupEval P S), ks[j]? = some k → k.key = pre ++ "_" ++ toString i ++ "_" ++ toString j

theorem Params.layout_of {vk : VK F G} {digest : S} {p : Params P S}
    {e2 e4 e6 e7 e8 e9 e11 e12 e13 e14 e15 e16 e17 e18 e19 e20 e21 e22 e23 e25 e26 e27 : List (Event P S)}
    (h2 : e2 = p.instanceCommitments.flatten.map .commonPoint)
    (h4 : e4 = vk.phases.flatMap fun φ =>
      (p.adviceCommitments.flatMap fun row => (onPhase φ vk.advicePhase row).map .point) ++
      (onPhase φ vk.challengePhase p.challenges).map .challenge)
    (h6 : e6 = [.challenge p.theta])
    (h7 : e7 = p.lookups.flatten.flatMap fun k => [.point k.permutedInput, .point k.permutedTable])
    (h8 : e8 = [.challenge p.beta])
    (h9 : e9 = [.challenge p.gamma])
    (h11 : e11 = p.perms.flatMap fun q => q.sets.map fun s => .point s.commitment)
    (h12 : e12 = p.lookups.flatten.map fun k => .point k.product)
    (h13 : e13 = [.point p.randomCommitment])
    (h14 : e14 = [.challenge p.y])
    (h15 : e15 = p.vanishCommitments.map .point)
    (h16 : e16 = [.challenge p.x])
    (h17 : e17 = p.instanceEvals.flatten.map .scalar)
    (h18 : e18 = p.adviceEvals.flatten.map .scalar)
    (h19 : e19 = p.fixedEvals.map .scalar)
    (h20 : e20 = [.scalar p.randomEval])
    (h21 : e21 = p.permutationEvals.map .scalar)
    (h22 : e22 = p.perms.flatMap fun q => q.sets.flatMap fun s => [.scalar s.eval, .scalar s.next] ++ s.last.toList.map .scalar)
    (h23 : e23 = p.lookups.flatten.flatMap fun k =>
      [.scalar k.productEval, .scalar k.productNext, .scalar k.inputEval, .scalar k.inputInv, .scalar k.tableEval])
    (h25 : e25 = [.challenge p.v])
    (h26 : e26 = p.w.map .point)
    (h27 : e27 = [.challenge p.u]) :
    [.commonScalar digest] ++ (e2 ++ (e4 ++ (e6 ++ (e7 ++ (e8 ++ (e9 ++ (e11 ++ (e12 ++ (e13 ++ (e14 ++ (e15 ++ (e16 ++ (e17 ++ (e18 ++ (e19 ++
      (e20 ++ (e21 ++ (e22 ++ (e23 ++ (e25 ++ (e26 ++ e27))))))))))))))))))))) = p.layout vk digest := by
  unfold layout
  rw [← h2, ← h4, ← h6, ← h7, ← h11, ← h12, ← h13, ← h14, ← h15, ← h16, ← h17, ← h18, ← h19, ← h20, ← h21, ← h22, ← h23, ← h25,
    ← h26, ← h27]
  have h89 : ([.challenge p.beta, .challenge p.gamma] : List (Event P S)) = e8 ++ e9 := by rw [h8, h9]; rfl
  rw [h89]
  clear h2 h4 h6 h7 h8 h9 h11 h12 h13 h14 h15 h16 h17 h18 h19 h20 h21 h22 h23 h25 h26 h27 h89
  generalize ([Event.commonScalar digest] : List (Event P S)) = e1
  simp only [List.append_assoc]

end Spec

variable {F G : Type} {c : Chip F G} [Field F] [AddCommGroup G] [Module F G] {gen : G}

/-- The constants of the record and the values computed from the challenge `x` are right. -/
structure Logic.Values (L : Logic c gen) (vk : VK F G) (p : Params c.P c.S) : Prop where
  gates : p.gates.map (List.map (Expr.map L.sv)) = vk.gates
  lookups : ∀ ks ∈ p.lookups, List.Forall₂ (fun a k => k.input.map (Expr.map L.sv) = a.1 ∧ k.table.map (Expr.map L.sv) = a.2) vk.lookups ks
  fixedCommitments : List.Forall₂ L.pv p.fixedCommitments vk.fixedCommitments
  permutationCommitments : List.Forall₂ L.pv p.permutationCommitments vk.permutationCommitments
  delta : L.sv p.delta = vk.delta
  omega : L.known p.omega vk.omega
  zero : L.sv p.zero = 0
  one : L.sv p.one = 1
  n : L.sv p.n = vk.n
  xNext : L.sv p.xNext = vk.omega * L.sv p.x
  xLast : L.sv p.xLast = vk.omega⁻¹ ^ p.l * L.sv p.x
  xInv : L.sv p.xInv = vk.omega⁻¹ * L.sv p.x
  xn : L.sv p.xn = L.sv p.x ^ vk.n

/-! ### Proofs -/

/-- The events of the entries of a row that belong to a phase. -/
theorem onPhase_cons {α : Type} (φ ph : ℕ) (phs : List ℕ) (a : α) (l : List α) :
    onPhase φ (ph :: phs) (a :: l) = if ph = φ then a :: onPhase φ phs l else onPhase φ phs l := by
  unfold onPhase
  rw [List.zip_cons_cons]
  split
  · next h => rw [List.filter_cons_of_pos (by simpa using h)]; rfl
  · next h => rw [List.filter_cons_of_neg (by simpa using h)]

theorem onPhase_map {α β : Type} (f : α → β) (φ : ℕ) : ∀ (phs : List ℕ) (l : List α), onPhase φ phs (l.map f) = (onPhase φ phs l).map f
  | [], l => by simp [onPhase]
  | ph :: phs, [] => by simp [onPhase]
  | ph :: phs, a :: l => by
    rw [List.map_cons, onPhase_cons, onPhase_cons, onPhase_map f φ phs l]
    split <;> rfl

theorem flatten_chunks {α : Type} {k : ℕ} (hk : k ≠ 0) : ∀ (n : ℕ) (l : List α), l.length ≤ n → (chunks k l).flatten = l
  | n, [], _ => by rw [Logic.chunks_stop (.inr rfl)]; rfl
  | 0, a :: l, h => by simp at h
  | n + 1, a :: l, h => by
    rw [Logic.chunks_step (by simp [hk]), List.flatten_cons, flatten_chunks hk n _ (by
      rw [List.length_drop, List.length_cons] at *; omega), List.take_append_drop]

theorem flatMap_flatten' {α β : Type} (f : α → List β) : ∀ l : List (List α), l.flatten.flatMap f = l.flatMap (List.flatMap f)
  | [] => rfl
  | a :: l => by rw [List.flatten_cons, List.flatMap_append, flatMap_flatten' f l, List.flatMap_cons]

namespace Logic
variable (L : Logic c gen) {T : Transcript c} (d : Codec F G)

namespace Reads
variable {L d} (hT : L.Safe T)
include hT

theorem initTranscript (vk : VK F G) : L.Reads (T := T) d [] (Api.initTranscript vk) fun _ evs => ∃ s, L.known s vk.digest ∧ evs = [.commonScalar s] :=
  bind0' (lift (L.assignConst _)) fun k evs h => (commonScalar hT k).mono fun _ evs' h' => ⟨k, h.1, by rw [h.2, h']; rfl⟩

theorem absorbInstances (ics : List (List c.P)) :
    L.Reads (T := T) d [] (Api.absorbInstances ics) fun _ evs => evs = ics.flatten.map .commonPoint := by
  have h1 : ∀ ps : List c.P, L.Reads (T := T) d [] (Rd.each Rd.commonPoint ps) fun _ evs => evs = ps.map .commonPoint := by
    intro ps
    induction ps with
    | nil => exact ret rfl
    | cons p ps ih => exact bind0' (commonPoint hT p) fun _ evs h => bind0' ih fun _ evs' h' => ret (by rw [h, h']; simp)
  have h2 : ∀ ics : List (List c.P), L.Reads (T := T) d [] (Rd.each (Rd.each Rd.commonPoint) ics) fun _ evs =>
      evs = ics.flatten.map .commonPoint := by
    intro ics
    induction ics with
    | nil => exact ret rfl
    | cons p ps ih => exact bind0' (h1 p) fun _ evs h => bind0' ih fun _ evs' h' => ret (by rw [h, h']; simp)
  exact bind0' (h2 ics) fun _ evs h => ret (by rw [h]; simp)

/-- The filled entries of a row that belong to a phase. -/
theorem adviceRow (φ : ℕ) : ∀ (phs : List ℕ) (row : List (Option c.P)), row.length = phs.length →
    L.Reads (T := T) d (rep (phs.count φ) [.point]) (Api.adviceRow d φ phs row) fun r evs =>
      (r.length = phs.length ∧ (∀ ψ, ψ ≠ φ → onPhase ψ phs r = onPhase ψ phs row) ∧ ∀ o ∈ onPhase φ phs r, o.isSome) ∧
      evs = (onPhase φ phs r).flatMap fun o => o.toList.map .point
  | [], [], _ => ret ⟨⟨rfl, by simp, by simp [onPhase]⟩, rfl⟩
  | [], _ :: _, h => by simp at h
  | _ :: _, [], h => by simp at h
  | ph :: phs, o :: row, h => by
    have hl : row.length = phs.length := by simpa using h
    unfold Api.adviceRow
    split
    · next hp =>
      subst hp
      refine (bind (readPoint hT) fun p evs hp => bind0 (adviceRow φ phs row hl) fun r evs' hr => ret ?_).kinds (by
        rw [List.count_cons_self, rep, List.replicate_succ]; rfl)
      obtain ⟨⟨h1, h2, h3⟩, h4⟩ := hr
      refine ⟨⟨by simp [h1], ?_, ?_⟩, ?_⟩
      · intro ψ hψ
        rw [onPhase_cons, onPhase_cons, if_neg (Ne.symm hψ), if_neg (Ne.symm hψ), h2 ψ hψ]
      · rw [onPhase_cons, if_pos rfl]
        simpa using h3
      · rw [onPhase_cons, if_pos rfl, hp, h4]
        simp
    · next hp =>
      refine (bind0 (adviceRow φ phs row hl) fun r evs' hr => ret ?_).kinds (by rw [List.count_cons_of_ne (Ne.symm hp)])
      obtain ⟨⟨h1, h2, h3⟩, h4⟩ := hr
      refine ⟨⟨by simp [h1], ?_, ?_⟩, ?_⟩
      · intro ψ hψ
        rw [onPhase_cons, onPhase_cons, h2 ψ hψ]
      · rw [onPhase_cons, if_neg (Ne.symm hp)]
        exact h3
      · rw [onPhase_cons, if_neg (Ne.symm hp), h4]
        simp

theorem challengeRow (φ : ℕ) : ∀ (phs : List ℕ) (row : List c.S), row.length = phs.length →
    L.Reads (T := T) d [] (Api.challengeRow φ phs row) fun r evs =>
      (r.length = phs.length ∧ ∀ ψ, ψ ≠ φ → onPhase ψ phs r = onPhase ψ phs row) ∧
      evs = (onPhase φ phs r).map .challenge
  | [], [], _ => ret ⟨⟨rfl, by simp⟩, rfl⟩
  | [], _ :: _, h => by simp at h
  | _ :: _, [], h => by simp at h
  | ph :: phs, o :: row, h => by
    have hl : row.length = phs.length := by simpa using h
    unfold Api.challengeRow
    split
    · next hp =>
      subst hp
      refine bind0' (squeeze hT) fun p evs hp => bind0 (challengeRow φ phs row hl) fun r evs' hr => ret ?_
      obtain ⟨⟨h1, h2⟩, h4⟩ := hr
      refine ⟨⟨by simp [h1], ?_⟩, ?_⟩
      · intro ψ hψ
        rw [onPhase_cons, onPhase_cons, if_neg (Ne.symm hψ), if_neg (Ne.symm hψ), h2 ψ hψ]
      · rw [onPhase_cons, if_pos rfl, hp, h4]
        simp
    · next hp =>
      refine bind0 (challengeRow φ phs row hl) fun r evs' hr => ret ?_
      obtain ⟨⟨h1, h2⟩, h4⟩ := hr
      refine ⟨⟨by simp [h1], ?_⟩, ?_⟩
      · intro ψ hψ
        rw [onPhase_cons, onPhase_cons, h2 ψ hψ]
      · rw [onPhase_cons, if_neg (Ne.symm hp), h4]
        simp

/-- All phases: each contributes its columns of every proof and then its challenges. Entries of phases not listed stay. -/
theorem phaseLoop (vk : VK F G) (np : ℕ) : ∀ (phases : List ℕ) (table : List (List (Option c.P))) (chs : List c.S), phases.Nodup →
    table.length = np → (∀ row ∈ table, row.length = vk.advicePhase.length) → chs.length = vk.challengePhase.length →
    L.Reads (T := T) d (phases.flatMap fun φ => rep np (rep (vk.advicePhase.count φ) [.point])) (Api.phaseLoop d vk phases table chs)
      fun r evs => (r.1.length = np ∧ (∀ row ∈ r.1, row.length = vk.advicePhase.length) ∧ r.2.length = vk.challengePhase.length) ∧
        (∀ ψ, ψ ∉ phases → r.1.map (onPhase ψ vk.advicePhase) = table.map (onPhase ψ vk.advicePhase) ∧
          onPhase ψ vk.challengePhase r.2 = onPhase ψ vk.challengePhase chs) ∧
        (∀ ψ ∈ phases, ∀ row ∈ r.1, ∀ o ∈ onPhase ψ vk.advicePhase row, o.isSome) ∧
        evs = phases.flatMap fun φ => (r.1.flatMap fun row => (onPhase φ vk.advicePhase row).flatMap fun o => o.toList.map .point) ++
          (onPhase φ vk.challengePhase r.2).map .challenge
  | [], table, chs, _, h1, h2, h3 => ret ⟨⟨h1, h2, h3⟩, fun _ _ => ⟨rfl, rfl⟩, by simp, rfl⟩
  | φ :: phases, table, chs, hn, h1, h2, h3 => by
    rw [List.nodup_cons] at hn
    refine (bind (each (E := fun r => (onPhase φ vk.advicePhase r).flatMap fun o => o.toList.map .point)
      (ks := fun _ => rep (vk.advicePhase.count φ) [.point]) table fun row hrow => adviceRow hT φ _ row (h2 row hrow))
      fun t evs ht => bind0' (challengeRow hT φ _ chs h3) fun cs evs' hcs =>
        (phaseLoop vk np phases t cs hn.2 (ht.1.length_eq ▸ h1) ?_ hcs.1.1).mono fun r evs'' hr => ?_).kinds ?_
    · intro row hrow
      obtain ⟨i, hi, rfl⟩ := List.getElem_of_mem hrow
      exact ((List.forall₂_iff_get.1 ht.1).2 i (by rw [ht.1.length_eq]; exact hi) hi).1
    · obtain ⟨hr1, hr2, hr3, hr4⟩ := hr
      obtain ⟨e1, e2⟩ := hr2 φ hn.1
      have hmem : ∀ row ∈ r.1, ∀ o ∈ onPhase φ vk.advicePhase row, o.isSome := by
        intro row hrow
        have : onPhase φ vk.advicePhase row ∈ t.map (onPhase φ vk.advicePhase) := e1 ▸ List.mem_map_of_mem hrow
        obtain ⟨row', hrow', he⟩ := List.mem_map.1 this
        obtain ⟨i, hi, rfl⟩ := List.getElem_of_mem hrow'
        have := ((List.forall₂_iff_get.1 ht.1).2 i (by rw [ht.1.length_eq]; exact hi) hi).2.2
        rw [← he]
        exact this
      refine ⟨hr1, fun ψ hψ => ?_, fun ψ hψ => ?_, ?_⟩
      · rw [List.mem_cons, not_or] at hψ
        obtain ⟨f1, f2⟩ := hr2 ψ hψ.2
        rw [f1, f2, hcs.1.2 ψ hψ.1]
        refine ⟨?_, rfl⟩
        refine List.ext_getElem (by simp [ht.1.length_eq]) fun i hi1 hi2 => ?_
        rw [List.getElem_map, List.getElem_map]
        simp only [List.length_map] at hi1 hi2
        exact ((List.forall₂_iff_get.1 ht.1).2 i hi2 hi1).2.1 ψ hψ.1
      · rcases List.mem_cons.1 hψ with rfl | hψ
        · exact hmem
        · exact hr3 ψ hψ
      · rw [List.flatMap_cons, ← hr4, e2, hcs.2, ht.2, List.append_assoc]
        congr 1
        rw [List.flatMap_def, List.flatMap_def]
        congr 1
        have := congrArg (List.map fun l => l.flatMap fun o : Option c.P => o.toList.map (Event.point (S := c.S))) e1
        simpa [List.map_map, Function.comp_def] using this.symm
    · rw [List.flatMap_cons]
      congr 1
      rw [rep, ← h1, ← List.map_const', List.flatMap_def]

omit hT in
theorem row_some {phases phs : List ℕ} : ∀ {row : List (Option c.P)}, row.length = phs.length → (∀ φ ∈ phs, φ ∈ phases) →
    (∀ ψ ∈ phases, ∀ o ∈ onPhase ψ phs row, o.isSome) → ∀ o ∈ row, o.isSome := by
  intro row hl hp h o ho
  obtain ⟨i, hi, rfl⟩ := List.getElem_of_mem ho
  refine h (phs[i]'(hl ▸ hi)) (hp _ (List.getElem_mem _)) _ ?_
  unfold onPhase
  refine List.mem_map.2 ⟨(phs[i]'(hl ▸ hi), row[i]), ?_, rfl⟩
  rw [List.mem_filter]
  refine ⟨?_, by simp⟩
  rw [← List.getElem_zip (h := by simp [hl ▸ hi, hi])]
  exact List.getElem_mem _

omit hT in
theorem unwrapRow (row : List (Option c.P)) (h : ∀ o ∈ row, o.isSome) :
    L.Ens (Api.mapM' c (Api.unwrap c) row) fun r => row = r.map some :=
  L.mono (L.mapM' (P := fun o p => o = some p) fun o ho => by
    obtain ⟨p, hp⟩ := Option.isSome_iff_exists.1 (h o ho)
    exact L.mono (L.unwrap hp) fun r hr => by rw [hp, hr]) fun r hr => by
    clear h
    induction hr with
    | nil => rfl
    | cons h _ ih => rw [List.map_cons, ← ih, h]

omit hT in
theorem unwrapTable (t : List (List (Option c.P))) (h : ∀ row ∈ t, ∀ o ∈ row, o.isSome) :
    L.Ens (Api.mapM' c (Api.mapM' c (Api.unwrap c)) t) fun r => t = r.map (List.map some) :=
  L.mono (L.mapM' (P := fun row r => row = r.map some) fun row hrow => unwrapRow row (h row hrow)) fun r hr => by
    clear h
    induction hr with
    | nil => rfl
    | cons h _ ih => rw [List.map_cons, ← ih, h]

theorem readPermuted : L.Reads (T := T) d [.point, .point] (Api.readPermuted d) fun r evs => True ∧ evs = [.point r.1, .point r.2] :=
  bind (ks := [.point]) (ks' := [.point]) (readPoint hT) fun i evs h => bind0 (readPoint hT) fun t evs' h' => ret ⟨trivial, by rw [h, h']; rfl⟩

theorem points (n : ℕ) : L.Reads (T := T) d (rep n [.point]) (Rd.times (Rd.readPoint d) n) fun l evs => l.length = n ∧ evs = l.map .point :=
  (times ((readPoint hT).mono fun _ _ h => ⟨trivial, h⟩) n).mono fun l evs h => ⟨h.1.1, by rw [h.2, List.map_eq_flatMap]⟩

theorem scalars (n : ℕ) : L.Reads (T := T) d (rep n [.scalar]) (Rd.times (Rd.readScalar d) n) fun l evs => l.length = n ∧ evs = l.map .scalar :=
  (times ((readScalar hT).mono fun _ _ h => ⟨trivial, h⟩) n).mono fun l evs h => ⟨h.1.1, by rw [h.2, List.map_eq_flatMap]⟩

theorem pointRows (m n : ℕ) : L.Reads (T := T) d (rep m (rep n [.point])) (Rd.times (Rd.times (Rd.readPoint d) n) m) fun l evs =>
    (l.length = m ∧ ∀ r ∈ l, r.length = n) ∧ evs = l.flatten.map .point :=
  (times (points hT n) m).mono fun l evs h => ⟨h.1, by rw [h.2, List.map_flatten, List.flatMap_def]⟩

theorem scalarRows (m n : ℕ) : L.Reads (T := T) d (rep m (rep n [.scalar])) (Rd.times (Rd.times (Rd.readScalar d) n) m) fun l evs =>
    (l.length = m ∧ ∀ r ∈ l, r.length = n) ∧ evs = l.flatten.map .scalar :=
  (times (scalars hT n) m).mono fun l evs h => ⟨h.1, by rw [h.2, List.map_flatten, List.flatMap_def]⟩

theorem permutedRows (m n : ℕ) : L.Reads (T := T) d (rep m (rep n [.point, .point])) (Rd.times (Rd.times (Api.readPermuted d) n) m) fun l evs =>
    (l.length = m ∧ ∀ r ∈ l, r.length = n) ∧ evs = l.flatten.flatMap fun r => [.point r.1, .point r.2] :=
  (times ((times (readPermuted hT) n).mono fun l evs h => ⟨h.1.1, h.2⟩) m).mono fun l evs h => ⟨h.1, by
    rw [h.2, flatMap_flatten']⟩

/-- One point for each entry of a table. -/
theorem pointTable {α : Type} (n : ℕ) (t : List (List α)) (ht : ∀ r ∈ t, r.length = n) :
    L.Reads (T := T) d (rep t.length (rep n [.point])) (Rd.each (Rd.each fun _ => Rd.readPoint d) t) fun l evs =>
      (l.length = t.length ∧ ∀ r ∈ l, r.length = n) ∧ evs = l.flatten.map .point := by
  have h1 : ∀ r : List α, L.Reads (T := T) d (rep r.length [.point]) (Rd.each (fun _ => Rd.readPoint d) r) fun l evs =>
      l.length = r.length ∧ evs = l.map .point := fun r =>
    ((each (Q := fun _ _ => True) (E := fun p => [.point p]) r fun _ _ => (readPoint hT).mono fun _ _ h => ⟨trivial, h⟩).mono fun l evs h =>
      ⟨h.1.length_eq.symm, by rw [h.2]; simp [List.map_eq_flatMap]⟩).kinds (by
        rw [rep, ← List.map_const', List.flatMap_def])
  refine ((each (Q := fun _ l => l.length = n) (E := fun l => l.map .point) (ks := fun _ => rep n [.point]) t fun r hr => ?_).mono fun l evs h => ?_).kinds ?_
  · have := h1 r
    rw [ht r hr] at this
    exact this
  · refine ⟨⟨h.1.length_eq.symm, fun r hr => ?_⟩, by rw [h.2, List.map_flatten, List.flatMap_def]⟩
    obtain ⟨i, hi, rfl⟩ := List.getElem_of_mem hr
    exact (List.forall₂_iff_get.1 h.1).2 i (by rw [h.1.length_eq]; exact hi) hi
  · rw [rep, ← List.map_const', List.flatMap_def]

theorem readLast (b : Bool) : L.Reads (T := T) d (if b then [.scalar] else []) (Api.readLast d b) fun o evs =>
    o.isSome = b ∧ evs = o.toList.map .scalar := by
  cases b with
  | false => exact ret ⟨rfl, rfl⟩
  | true => exact bind0 (readScalar hT) fun s evs h => ret ⟨rfl, by rw [h]; rfl⟩

theorem readSets : ∀ cms : List c.P, L.Reads (T := T) d (setKinds cms.length) (Api.readSets d cms) fun r evs =>
    (r.map PermSet.commitment = cms ∧ (∀ s ∈ r.dropLast, s.last.isSome) ∧ ∀ s ∈ r.getLast?, s.last = none) ∧
    evs = r.flatMap fun s => [.scalar s.eval, .scalar s.next] ++ s.last.toList.map .scalar
  | [] => ret ⟨⟨rfl, by simp, by simp⟩, rfl⟩
  | cm :: rest => by
    refine (bind (readScalar hT) fun e evs1 h1 => bind (readScalar hT) fun n evs2 h2 => bind (readLast hT (!rest.isEmpty)) fun l evs3 h3 =>
      bind0 (readSets rest) fun sets evs4 h4 => ret ?_).kinds ?_
    · obtain ⟨⟨h4, h5, h6⟩, h7⟩ := h4
      have hlen : sets.length = rest.length := by rw [← h4, List.length_map]
      refine ⟨⟨by rw [List.map_cons, h4], ?_, ?_⟩, ?_⟩
      · cases sets with
        | nil => simp
        | cons s sets =>
          rw [List.dropLast_cons_of_ne_nil (by simp)]
          intro s' hs'
          rcases List.mem_cons.1 hs' with rfl | hs'
          · show l.isSome = true
            rw [h3.1]
            cases rest with
            | nil => simp at hlen
            | cons _ _ => rfl
          · exact h5 s' hs'
      · cases sets with
        | nil =>
          intro s hs
          have hrest : rest = [] := List.eq_nil_of_length_eq_zero (by rw [← hlen]; rfl)
          rw [hrest] at h3
          have : s = ⟨cm, e, n, l⟩ := by simpa using hs.symm
          rw [this]
          show l = none
          simpa using h3.1
        | cons s sets =>
          rw [List.getLast?_cons_cons]
          exact h6
      · rw [h1, h2, h3.2, h7]
        simp
    · rw [List.length_cons, setKinds]
      cases rest with
      | nil => rfl
      | cons _ _ => rfl

omit hT in
theorem queryIndex {qs : List (ℕ × ℤ)} {col : ℕ} (h : (col, 0) ∈ qs) :
    L.Ens (Api.queryIndex (c := c) qs col) fun t => qs[t]? = some (col, 0) := by
  unfold Api.queryIndex
  cases hf : qs.findIdx? fun q => q = (col, 0) with
  | none =>
    rw [List.findIdx?_eq_none_iff] at hf
    simpa using hf _ h
  | some t =>
    refine L.mono (L.unwrap rfl) fun r hr => ?_
    rw [hr]
    obtain ⟨h1, h2, _⟩ := List.findIdx?_eq_some_iff_getElem.1 hf
    rw [List.getElem?_eq_getElem h1]
    simpa using h2

omit hT in
theorem columnEval {vk : VK F G} {advice inst fixed : List c.S} {col : ColKind × ℕ} (h : (col.2, 0) ∈ vk.queriesOf col.1)
    (ha : advice.length = vk.adviceQueries.length) (hi : inst.length = vk.instanceQueries.length)
    (hf : fixed.length = vk.fixedQueries.length) :
    L.Ens (Api.columnEval vk advice inst fixed col) fun e => ∃ t : ℕ, (vk.queriesOf col.1)[t]? = some (col.2, 0) ∧
      (match col.1 with | .advice => advice | .fixed => fixed | .instance => inst)[t]? = some e := by
  have key : ∀ {qs : List (ℕ × ℤ)} {l : List c.S}, (col.2, 0) ∈ qs → l.length = qs.length →
      L.Ens (Api.queryIndex qs col.2 >>= fun i => Api.index c l i) fun e => ∃ t : ℕ, qs[t]? = some (col.2, 0) ∧ l[t]? = some e := by
    intro qs l h hl
    refine L.bind (queryIndex h) fun t ht => ?_
    have hlt : t < l.length := by
      rw [hl]
      exact (List.getElem?_eq_some_iff.1 ht).1
    exact L.mono (L.index hlt) fun e he => ⟨t, ht, by rw [he, List.getElem?_eq_getElem hlt]⟩
  obtain ⟨k, i⟩ := col
  cases k with
  | advice => exact key h ha
  | fixed => exact key h hf
  | «instance» => exact key h hi

omit hT in
theorem columnEvals {vk : VK F G} (hvk : vk.WF) {advice inst fixed : List c.S}
    (ha : advice.length = vk.adviceQueries.length) (hi : inst.length = vk.instanceQueries.length)
    (hf : fixed.length = vk.fixedQueries.length) :
    L.Ens (Api.columnEvals vk fixed (advice, inst)) fun r => List.Forall₂ (fun col e => ∃ t : ℕ, (vk.queriesOf col.1)[t]? = some (col.2, 0) ∧
      (match col.1 with | .advice => advice | .fixed => fixed | .instance => inst)[t]? = some e) vk.permColumns r := by
  have hk : vk.degree - 2 ≠ 0 := by have := hvk.degree; omega
  unfold Api.columnEvals Api.chunksM
  rw [if_neg hk]
  refine L.bind (L.pure (Q := fun r => r = chunks (vk.degree - 2) vk.permColumns) rfl) fun ch hch => ?_
  subst hch
  have hfl := flatten_chunks hk _ vk.permColumns le_rfl
  refine L.bind (L.mapM' (P := fun cs es => List.Forall₂ _ cs es) fun cs hcs => L.mapM' fun col hcol =>
    columnEval (hvk.permColumns col (hfl ▸ List.mem_flatten.2 ⟨cs, hcs, hcol⟩)) ha hi hf) fun r hr => L.pure ?_
  rw [← hfl]
  revert hr
  generalize chunks (vk.degree - 2) vk.permColumns = ch
  intro hr
  clear hfl
  induction hr with
  | nil => exact .nil
  | cons h _ ih => rw [List.flatten_cons, List.flatten_cons]; exact List.rel_append h ih

/-- The permutation arguments. -/
theorem buildPermutation {vk : VK F G} (hvk : vk.WF) (x : c.S) {committed : List (List c.P)} {advice inst : List (List c.S)}
    {fixed : List c.S} (key : String) {np ns : ℕ} (hc : committed.length = np ∧ ∀ r ∈ committed, r.length = ns)
    (ha : advice.length = np ∧ ∀ r ∈ advice, r.length = vk.adviceQueries.length)
    (hi : inst.length = np ∧ ∀ r ∈ inst, r.length = vk.instanceQueries.length) (hf : fixed.length = vk.fixedQueries.length) :
    L.Reads (T := T) d (rep np (setKinds ns)) (Api.buildPermutation d vk x committed advice inst fixed key) fun r evs =>
      r.length = np ∧ (r.map fun q => q.sets.map PermSet.commitment) = committed ∧
      (∀ (i : ℕ) (q : PermEval c.P c.S), r[i]? = some q → q.key = key ++ "_" ++ toString i ∧ q.blinding = vk.blinding ∧ q.x = x ∧
        q.chunkLen = vk.degree - 2 ∧ (∀ s ∈ q.sets.dropLast, s.last.isSome) ∧ (∀ s ∈ q.sets.getLast?, s.last = none) ∧
        List.Forall₂ (fun col e => ∃ t : ℕ, (vk.queriesOf col.1)[t]? = some (col.2, 0) ∧
          (match col.1 with | .advice => advice.getD i [] | .fixed => fixed | .instance => inst.getD i [])[t]? = some e)
          vk.permColumns q.evals) ∧
      evs = r.flatMap fun q => q.sets.flatMap fun s => [.scalar s.eval, .scalar s.next] ++ s.last.toList.map .scalar := by
  refine (bind0 (each (ks := fun _ => setKinds ns) committed fun cms hcms => hc.2 cms hcms ▸ readSets hT cms) fun sets evs hs => ?_).kinds (by
    rw [rep, ← hc.1, ← List.map_const', List.flatMap_def])
  refine bind0' (lift (L.mapM' (P := fun e r => List.Forall₂ (fun col e' => ∃ t : ℕ, (vk.queriesOf col.1)[t]? = some (col.2, 0) ∧
      (match col.1 with | .advice => e.1 | .fixed => fixed | .instance => e.2)[t]? = some e') vk.permColumns r) fun e he => ?_))
    fun evals evs' he => ret ?_
  · have := List.of_mem_zip he
    exact columnEvals hvk (ha.2 _ this.1) (hi.2 _ this.2) hf
  · have hl1 := hs.1.length_eq
    have hl2 := he.1.length_eq
    simp only [List.length_zip, ha.1, hi.1, min_self] at hl2
    have hlen : (sets.zip evals).length = np := by rw [List.length_zip, ← hl1, ← hl2, hc.1, min_self]
    have hget : ∀ i q, ((sets.zip evals).mapIdx (mkPerm vk x key))[i]? = some q → ∃ s e, sets[i]? = some s ∧ evals[i]? = some e ∧
        q = mkPerm vk x key i (s, e) := by
      intro i q hq
      rw [List.getElem?_mapIdx, Option.map_eq_some_iff] at hq
      obtain ⟨⟨s, e⟩, h1, h2⟩ := hq
      obtain ⟨h3, h4⟩ := List.getElem?_zip_eq_some.1 h1
      exact ⟨s, e, h3, h4, h2.symm⟩
    have hsets : ((sets.zip evals).mapIdx (mkPerm vk x key)).map PermEval.sets = sets := by
      refine List.ext_getElem (by simp [hlen, ← hl1, hc.1]) fun i h1 h2 => ?_
      simp [mkPerm]
    refine ⟨by simp [hlen], ?_, ?_, ?_⟩
    · have : (((sets.zip evals).mapIdx (mkPerm vk x key)).map fun q => q.sets.map PermSet.commitment) =
          sets.map (List.map PermSet.commitment) := by
        conv_rhs => rw [← hsets]
        rw [List.map_map]
        rfl
      rw [this]
      refine List.ext_getElem (by simp [← hl1]) fun i h1 h2 => ?_
      rw [List.getElem_map]
      exact ((List.forall₂_iff_get.1 hs.1).2 i h2 (by rw [← hl1]; exact h2)).1
    · intro i q hq
      obtain ⟨s, e, h1, h2, rfl⟩ := hget i q hq
      obtain ⟨hi1, h1⟩ := List.getElem?_eq_some_iff.1 h1
      obtain ⟨hi2, h2⟩ := List.getElem?_eq_some_iff.1 h2
      have f1 := (List.forall₂_iff_get.1 hs.1).2 i (by rw [hl1]; exact hi1) hi1
      have f2 := (List.forall₂_iff_get.1 he.1).2 i (by rw [List.length_zip, ha.1, hi.1, min_self, hl2]; exact hi2) hi2
      simp only [List.get_eq_getElem, h1, h2, List.getElem_zip] at f1 f2
      refine ⟨rfl, rfl, rfl, rfl, f1.2.1, f1.2.2, ?_⟩
      have e1 : advice.getD i [] = advice[i]'(by rw [ha.1, hl2]; exact hi2) := by
        rw [List.getD_eq_getElem?_getD, List.getElem?_eq_getElem, Option.getD_some]
      have e2 : inst.getD i [] = inst[i]'(by rw [hi.1, hl2]; exact hi2) := by
        rw [List.getD_eq_getElem?_getD, List.getElem?_eq_getElem, Option.getD_some]
      rw [e1, e2]
      exact f2
    · have : (((sets.zip evals).mapIdx (mkPerm vk x key)).flatMap fun q => q.sets.flatMap fun s =>
          [Event.scalar (P := c.P) s.eval, .scalar s.next] ++ s.last.toList.map .scalar) =
          (((sets.zip evals).mapIdx (mkPerm vk x key)).map PermEval.sets).flatMap fun s => s.flatMap fun s =>
          [Event.scalar (P := c.P) s.eval, .scalar s.next] ++ s.last.toList.map .scalar := by
        rw [List.flatMap_map]
      rw [this, hsets, hs.2, he.2]
      simp only [List.append_nil]

/-- One lookup. -/
theorem readLookup (key : String) (i : ℕ) (q : (((c.P × c.P) × c.P) × (List (Expr F) × List (Expr F))) × ℕ) :
    L.Reads (T := T) d [.scalar, .scalar, .scalar, .scalar, .scalar] (Api.readLookup d key i q) fun k evs =>
      ((k.key = key ++ "_" ++ toString i ++ "_" ++ toString q.2 ∧ (k.permutedInput, k.permutedTable) = q.1.1.1 ∧ k.product = q.1.1.2) ∧
        k.input.map (Expr.map L.sv) = q.1.2.1 ∧ k.table.map (Expr.map L.sv) = q.1.2.2) ∧
      evs = [.scalar k.productEval, .scalar k.productNext, .scalar k.inputEval, .scalar k.inputInv, .scalar k.tableEval] := by
  have conv : ∀ l : List (Expr F), L.Ens (Api.mapM' c (Api.convertExpression c) l) fun r => r.map (Expr.map L.sv) = l := fun l =>
    L.mono (L.mapM' fun e _ => L.convertExpression e) fun r hr => by
      induction hr with
      | nil => rfl
      | cons h _ ih => rw [List.map_cons, ih, h]
  refine (bind (readScalar hT) fun a e1 h1 => bind (readScalar hT) fun b e2 h2 => bind (readScalar hT) fun f e3 h3 =>
    bind (readScalar hT) fun g e4 h4 => bind0 (readScalar hT) fun h e5 h5 => bind0' (lift (conv _)) fun inp e6 h6 =>
    bind0' (lift (conv _)) fun tab e7 h7 => ret ?_).kinds rfl
  refine ⟨⟨⟨rfl, rfl, rfl⟩, h6.1, h7.1⟩, ?_⟩
  rw [h1, h2, h3, h4, h5, h6.2, h7.2]
  rfl

/-- The lookups. -/
theorem buildLookup (vk : VK F G) {permuted : List (List (c.P × c.P))} {committed : List (List c.P)} (key : String) {np : ℕ}
    (hp : permuted.length = np ∧ ∀ r ∈ permuted, r.length = vk.lookups.length)
    (hc : committed.length = np ∧ ∀ r ∈ committed, r.length = vk.lookups.length) :
    L.Reads (T := T) d (rep np (rep vk.lookups.length [.scalar, .scalar, .scalar, .scalar, .scalar])) (Api.buildLookup d vk permuted committed key)
      fun r evs => r.length = np ∧ (r.map (List.map fun k => (k.permutedInput, k.permutedTable))) = permuted ∧
        r.map (List.map LookupEval.product) = committed ∧
        (∀ (i : ℕ) (ks : List (LookupEval c.P c.S)), r[i]? = some ks → ks.length = vk.lookups.length ∧
          ∀ (j : ℕ) (k : LookupEval c.P c.S), ks[j]? = some k → k.key = key ++ "_" ++ toString i ++ "_" ++ toString j) ∧
        (∀ ks ∈ r, List.Forall₂ (fun a k => k.input.map (Expr.map L.sv) = a.1 ∧ k.table.map (Expr.map L.sv) = a.2) vk.lookups ks) ∧
        evs = r.flatten.flatMap fun k => [.scalar k.productEval, .scalar k.productNext, .scalar k.inputEval, .scalar k.inputInv,
          .scalar k.tableEval] := by
  have hlz : (permuted.zip committed).zipIdx.length = np := by
    rw [List.length_zipIdx, List.length_zip, hp.1, hc.1, min_self]
  have row : ∀ q ∈ (permuted.zip committed).zipIdx, L.Reads (T := T) d (rep vk.lookups.length [.scalar, .scalar, .scalar, .scalar, .scalar])
      (Api.readLookups d vk key q) fun r evs =>
        (r.length = vk.lookups.length ∧ (∀ (j : ℕ) (hj : j < r.length) (h1 : j < q.1.1.length) (h2 : j < q.1.2.length) (h3 : j < vk.lookups.length),
          (r[j].key = key ++ "_" ++ toString q.2 ++ "_" ++ toString j ∧ (r[j].permutedInput, r[j].permutedTable) = q.1.1[j] ∧ r[j].product = q.1.2[j]) ∧
          r[j].input.map (Expr.map L.sv) = vk.lookups[j].1 ∧ r[j].table.map (Expr.map L.sv) = vk.lookups[j].2)) ∧
        evs = r.flatMap fun k => [.scalar k.productEval, .scalar k.productNext, .scalar k.inputEval, .scalar k.inputInv, .scalar k.tableEval] := by
    rintro ⟨⟨ps, cs⟩, i⟩ hq
    have hz := (List.mem_zipIdx' hq).2
    have hmem : (ps, cs) ∈ permuted.zip committed := hz ▸ List.getElem_mem _
    have h1 : ps.length = vk.lookups.length := hp.2 _ (List.of_mem_zip hmem).1
    have h2 : cs.length = vk.lookups.length := hc.2 _ (List.of_mem_zip hmem).2
    have hl : ((ps.zip cs).zip vk.lookups).zipIdx.length = vk.lookups.length := by
      rw [List.length_zipIdx, List.length_zip, List.length_zip, h1, h2, min_self, min_self]
    refine ((each _ fun q _ => readLookup hT key i q).mono fun r evs hr => ?_).kinds (by
      rw [List.flatMap_def, List.map_const', hl, rep])
    have hlr : r.length = vk.lookups.length := by rw [← hr.1.length_eq, hl]
    refine ⟨⟨hlr, fun j hj h1' h2' h3 => ?_⟩, hr.2⟩
    have := (List.forall₂_iff_get.1 hr.1).2 j (by rw [hl]; exact h3) hj
    simpa using this
  refine ((each _ row).mono fun r evs hr => ?_).kinds (by rw [List.flatMap_def, List.map_const', hlz, rep])
  have hlr : r.length = np := by rw [← hr.1.length_eq, hlz]
  have hrow : ∀ (i : ℕ) (hi : i < r.length), (r[i].length = vk.lookups.length ∧ (∀ (j : ℕ) (hj : j < r[i].length)
      (h1 : j < (permuted[i]'(by rw [hp.1, ← hlr]; exact hi)).length) (h2 : j < (committed[i]'(by rw [hc.1, ← hlr]; exact hi)).length)
      (h3 : j < vk.lookups.length),
          (r[i][j].key = key ++ "_" ++ toString i ++ "_" ++ toString j ∧ (r[i][j].permutedInput, r[i][j].permutedTable) = permuted[i][j] ∧ r[i][j].product = committed[i][j]) ∧
          r[i][j].input.map (Expr.map L.sv) = vk.lookups[j].1 ∧ r[i][j].table.map (Expr.map L.sv) = vk.lookups[j].2)) := by
    intro i hi
    have := (List.forall₂_iff_get.1 hr.1).2 i (by rw [hlz, ← hlr]; exact hi) hi
    simpa using this
  have hpl : ∀ (i : ℕ) (hi : i < permuted.length), permuted[i].length = vk.lookups.length := fun i hi => hp.2 _ (List.getElem_mem _)
  have hcl : ∀ (i : ℕ) (hi : i < committed.length), committed[i].length = vk.lookups.length := fun i hi => hc.2 _ (List.getElem_mem _)
  refine ⟨hlr, ?_, ?_, ?_, ?_, by rw [hr.2, flatMap_flatten']⟩
  · refine List.ext_getElem (by simp [hlr, hp.1]) fun i h1 h2 => ?_
    rw [List.getElem_map]
    have hi : i < r.length := by simpa using h1
    obtain ⟨hl, hj⟩ := hrow i hi
    refine List.ext_getElem (by rw [List.length_map, hl, hpl]) fun j h3 h4 => ?_
    rw [List.getElem_map]
    have h5 : j < r[i].length := by simpa using h3
    exact (hj j h5 h4 (by rw [hcl, ← hl]; exact h5) (by rw [← hl]; exact h5)).1.2.1
  · refine List.ext_getElem (by simp [hlr, hc.1]) fun i h1 h2 => ?_
    rw [List.getElem_map]
    have hi : i < r.length := by simpa using h1
    obtain ⟨hl, hj⟩ := hrow i hi
    refine List.ext_getElem (by rw [List.length_map, hl, hcl]) fun j h3 h4 => ?_
    rw [List.getElem_map]
    have h5 : j < r[i].length := by simpa using h3
    exact (hj j h5 (by rw [hpl, ← hl]; exact h5) h4 (by rw [← hl]; exact h5)).1.2.2
  · intro i ks hks
    obtain ⟨hi, rfl⟩ := List.getElem?_eq_some_iff.1 hks
    obtain ⟨hl, hj⟩ := hrow i hi
    refine ⟨hl, fun j k hk => ?_⟩
    obtain ⟨h5, rfl⟩ := List.getElem?_eq_some_iff.1 hk
    exact (hj j h5 (by rw [hpl, ← hl]; exact h5) (by rw [hcl, ← hl]; exact h5) (by rw [← hl]; exact h5)).1.1
  · intro ks hks
    obtain ⟨i, hi, rfl⟩ := List.getElem_of_mem hks
    obtain ⟨hl, hj⟩ := hrow i hi
    refine List.forall₂_iff_get.2 ⟨hl.symm, fun j h3 h5 => ?_⟩
    exact (hj j h5 (by rw [hpl, ← hl]; exact h5) (by rw [hcl, ← hl]; exact h5) h3).2

end Reads

theorem rotateOmega (x : c.S) {omega : F} (h : omega ≠ 0) (a : ℤ) :
    L.Ens (Api.rotateOmega x omega a) fun r => L.sv r = omega ^ a * L.sv x :=
  L.bind (L.rotateBase h a) fun b hb => L.mono (L.sumWithCoeff _ _) fun r hr => by
    rw [hr, hb]
    simp

theorem convertAll (l : List (Expr F)) : L.Ens (Api.mapM' c (Api.convertExpression c) l) fun r => r.map (Expr.map L.sv) = l :=
  L.mono (L.mapM' fun e _ => L.convertExpression e) fun r hr => by
    induction hr with
    | nil => rfl
    | cons h _ ih => rw [List.map_cons, ih, h]

theorem convertGates (l : List (List (Expr F))) :
    L.Ens (Api.mapM' c (Api.mapM' c (Api.convertExpression c)) l) fun r => r.map (List.map (Expr.map L.sv)) = l :=
  L.mono (L.mapM' fun e _ => L.convertAll e) fun r hr => by
    induction hr with
    | nil => rfl
    | cons h _ ih => rw [List.map_cons, ih, h]

theorem assignPoints (l : List G) : L.Ens (Api.mapM' c c.pAssignConst l) fun r => List.Forall₂ L.pv r l :=
  L.mono (L.mapM' fun P _ => L.pAssignConst P) fun r hr => hr.flip

/-- `build_params`: the record has the right shape and constants, and the transcript saw everything in the order of the halo2 verifier. -/
theorem buildParams (hT : L.Safe T) (hd : 0 < d.pointLen) {vk : VK F G} (hvk : vk.WF) (homega : vk.omega ≠ 0) (ics : List (List c.P))
    (key : String) (m : ℕ) :
    L.Reads (T := T) d (vk.kinds ics.length m) (Api.buildParams d vk ics key) fun p evs =>
      p.Shape vk ics key ∧ L.Values vk p ∧ (p.w.length = m ∨ L.Partial) ∧ ∃ s, L.known s vk.digest ∧ evs = p.layout vk s := by
  have hk : vk.degree - 2 ≠ 0 := by have := hvk.degree; omega
  unfold Api.buildParams Api.chunksM
  rw [if_neg hk]
  refine Reads.kinds (ks := (vk.phases.flatMap fun φ => rep ics.length (rep (vk.advicePhase.count φ) [.point])) ++
    (rep ics.length (rep vk.lookups.length [.point, .point]) ++
    (rep ics.length (rep (chunks (vk.degree - 2) vk.permColumns).length [.point]) ++
    (rep ics.length (rep vk.lookups.length [.point]) ++
    ([.point] ++
    (rep vk.quotientDegree [.point] ++
    (rep ics.length (rep vk.instanceQueries.length [.scalar]) ++
    (rep ics.length (rep vk.adviceQueries.length [.scalar]) ++
    (rep vk.fixedQueries.length [.scalar] ++
    ([.scalar] ++
    (rep vk.permutationCommitments.length [.scalar] ++
    (rep ics.length (setKinds (chunks (vk.degree - 2) vk.permColumns).length) ++
    (rep ics.length (rep vk.lookups.length [.scalar, .scalar, .scalar, .scalar, .scalar]) ++
    (List.replicate m .point ++ [.stop])))))))))))))) ?_ (by simp only [VK.kinds, List.append_assoc])
  refine Reads.bind0' (Reads.initTranscript hT vk) fun _ e1 h1 => ?_
  refine Reads.bind0' (Reads.absorbInstances hT ics) fun _ e2 h2 => ?_
  refine Reads.bind0' (Reads.lift (L.assignConst 0)) fun zero0 e3 h3 => ?_
  refine Reads.bind (Reads.phaseLoop hT vk ics.length vk.phases _ _ hvk.phases (by simp) (by simp) (by simp)) fun r e4 h4 => ?_
  refine Reads.bind0' (Reads.lift (Reads.unwrapTable r.1 fun row hrow => Reads.row_some (h4.1.2.1 row hrow) hvk.advicePhase
    fun ψ hψ => h4.2.2.1 ψ hψ row hrow)) fun advice e5 h5 => ?_
  refine Reads.bind0' (Reads.squeeze hT) fun theta e6 h6 => ?_
  refine Reads.bind (Reads.permutedRows hT ics.length vk.lookups.length) fun permuted e7 h7 => ?_
  refine Reads.bind0' (Reads.squeeze hT) fun beta e8 h8 => ?_
  refine Reads.bind0' (Reads.squeeze hT) fun gamma e9 h9 => ?_
  refine Reads.bind0' (Reads.lift (L.pure (Q := fun r => r = chunks (vk.degree - 2) vk.permColumns) rfl)) fun ch e10 h10 => ?_
  obtain ⟨h10, h10'⟩ := h10
  subst h10
  refine Reads.bind (Reads.pointRows hT ics.length _) fun permCommitted e11 h11 => ?_
  have h12' := Reads.pointTable (T := T) (d := d) hT vk.lookups.length permuted h7.1.2
  rw [h7.1.1] at h12'
  refine Reads.bind h12' fun lookupCommitted e12 h12 => ?_
  refine Reads.bind (Reads.readPoint hT) fun random e13 h13 => ?_
  refine Reads.bind0' (Reads.squeeze hT) fun y e14 h14 => ?_
  refine Reads.bind (Reads.points hT _) fun h e15 h15 => ?_
  refine Reads.bind0' (Reads.squeeze hT) fun x e16 h16 => ?_
  refine Reads.bind (Reads.scalarRows hT ics.length _) fun instanceEvals e17 h17 => ?_
  refine Reads.bind (Reads.scalarRows hT ics.length _) fun adviceEvals e18 h18 => ?_
  refine Reads.bind (Reads.scalars hT _) fun fixedEvals e19 h19 => ?_
  refine Reads.bind (Reads.readScalar hT) fun randomEval e20 h20 => ?_
  refine Reads.bind (Reads.scalars hT _) fun permutationEvals e21 h21 => ?_
  refine Reads.bind (Reads.buildPermutation hT hvk x key h11.1 h18.1 h17.1 h19.1) fun perms e22 h22 => ?_
  refine Reads.bind (Reads.buildLookup hT vk key h7.1 h12.1) fun lookups e23 h23 => ?_
  refine Reads.bind0' (Reads.lift (L.assignPoints _)) fun fixedCommitments e24 h24 => ?_
  refine Reads.bind0' (Reads.squeeze hT) fun v e25 h25 => ?_
  refine Reads.bind0 (Reads.readAll hT hd m) fun w e26 h26 => ?_
  refine Reads.bind0' (Reads.squeeze hT) fun u e27 h27 => ?_
  refine Reads.bind0' (Reads.lift (L.rotateOmega x homega 1)) fun xNext e28 h28 => ?_
  refine Reads.bind0' (Reads.lift (L.rotateOmega x homega _)) fun xLast e29 h29 => ?_
  refine Reads.bind0' (Reads.lift (L.rotateOmega x homega (-1))) fun xInv e30 h30 => ?_
  refine Reads.bind0' (Reads.lift (L.powConst x hvk.n.1 hvk.n.2)) fun xn e31 h31 => ?_
  refine Reads.bind0' (Reads.lift (L.convertGates _)) fun gates e32 h32 => ?_
  refine Reads.bind0' (Reads.lift (L.assignPoints _)) fun permutationCommitments e33 h33 => ?_
  refine Reads.bind0' (Reads.lift (L.assignConst _)) fun delta e34 h34 => ?_
  refine Reads.bind0' (Reads.lift (L.assignConst _)) fun omega e35 h35 => ?_
  refine Reads.bind0' (Reads.lift (L.assignConst _)) fun zero e36 h36 => ?_
  refine Reads.bind0' (Reads.lift (L.assignConst _)) fun one e37 h37 => ?_
  refine Reads.bind0' (Reads.lift (L.assignConst _)) fun n e38 h38 => ?_
  refine Reads.ret ⟨?_, ?_, h26.1, ?_⟩
  · have hadv : advice.length = ics.length := by
      rw [← h4.1.1, h5.1, List.length_map]
    refine ⟨rfl, rfl, rfl, rfl, rfl, rfl, h4.1.2.2, ⟨hadv, fun r' hr' => ?_⟩, h17.1, h18.1, h19.1, h21.1, h15.1, h22.1, ?_, h23.1, h23.2.2.2.1⟩
    · have : r'.map some ∈ r.1 := by
        rw [h5.1]
        exact List.mem_map_of_mem hr'
      simpa using h4.1.2.1 _ this
    · intro i q hq
      obtain ⟨g1, g2, g3, g4, g5, g6, g7⟩ := h22.2.2.1 i q hq
      refine ⟨g1, g2, g3, g4, ?_, g5, g6, ?_⟩
      · have : (q.sets.map PermSet.commitment) ∈ permCommitted := by
          rw [← h22.2.1]
          exact List.mem_map_of_mem (f := fun q : PermEval c.P c.S => q.sets.map PermSet.commitment) (List.mem_of_getElem? hq)
        simpa using h11.1.2 _ this
      · refine g7.imp fun col e he => ?_
        obtain ⟨t, t1, t2⟩ := he
        refine ⟨t, t1, ?_⟩
        obtain ⟨k, ci⟩ := col
        cases k <;> exact t2
  · refine ⟨h32.1, h23.2.2.2.2.1, h24.1, h33.1, L.known_sv h34.1, h35.1, L.known_sv h36.1, L.known_sv h37.1, L.known_sv h38.1, ?_, ?_, ?_, h31.1⟩
    · rw [h28.1, zpow_one]
    · rw [h29.1, zpow_neg, zpow_natCast, inv_pow]
    · rw [h30.1, zpow_neg_one]
  · obtain ⟨s, hs, rfl⟩ := h1
    refine ⟨s, hs, ?_⟩
    have hphase : (vk.phases.flatMap fun φ => (r.1.flatMap fun row => (onPhase φ vk.advicePhase row).flatMap fun o => o.toList.map .point) ++
          (onPhase φ vk.challengePhase r.2).map .challenge) = vk.phases.flatMap fun φ =>
        (advice.flatMap fun row => (onPhase φ vk.advicePhase row).map (Event.point (S := c.S))) ++
        (onPhase φ vk.challengePhase r.2).map .challenge := by
      congr 1
      funext φ
      congr 1
      rw [h5.1, List.flatMap_map]
      congr 1
      funext row
      rw [onPhase_map, List.flatMap_map, List.map_eq_flatMap]
      rfl
    have hperm : (perms.flatMap fun q => q.sets.map fun s => Event.point (S := c.S) s.commitment) = permCommitted.flatten.map .point := by
      rw [← h22.2.1, List.flatMap_def, List.map_flatten, List.map_map]
      congr 2
      funext q
      simp [List.map_map, Function.comp_def]
    have hprod : (lookups.flatten.map fun k => Event.point (S := c.S) k.product) = lookupCommitted.flatten.map .point := by
      rw [← h23.2.2.1, List.map_flatten, List.map_flatten, List.map_map]
      congr 2
      funext q
      simp [List.map_map, Function.comp_def]
    have hpermuted : (lookups.flatten.flatMap fun k => [Event.point (S := c.S) k.permutedInput, .point k.permutedTable]) =
        permuted.flatten.flatMap fun r => [.point r.1, .point r.2] := by
      rw [← h23.2.1, flatMap_flatten', flatMap_flatten', List.flatMap_map]
      congr 1
      funext q
      rw [List.flatMap_map]
    rw [h3.2, h5.2, h10', h24.2, h28.2, h29.2, h30.2, h31.2, h32.2, h33.2, h34.2, h35.2, h36.2, h37.2, h38.2]
    simp only [List.nil_append, List.append_nil]
    rw [hphase] at h4
    refine Params.layout_of h2 h4.2.2.2 h6 (h7.2.trans hpermuted.symm) h8 h9 (h11.2.trans hperm.symm) (h12.2.trans hprod.symm) h13 h14 h15.2 h16 h17.2
      h18.2 h19.2 h20 h21.2 h22.2.2.2 h23.2.2.2.2.2 h25 h26.2 h27

end Logic
end Verif.Api
