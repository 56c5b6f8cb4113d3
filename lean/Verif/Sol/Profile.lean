import Verif.Sol.Aggregate

/-!
# The build profile and the merged statements

A debug build panics where a release build wraps. What a debug build produces, a release build produces too.
-/

namespace Verif.Sol

theorem usize_debug {n : ℤ} {m : ℕ} (h : usize true n = some m) : usize false n = some m := by
  unfold usize at h ⊢
  split at h
  · next k => rw [if_pos k]; exact h
  · cases h

/-- `P` does what `O` does whenever `O` does not panic. -/
structure Extends {σ : Type} (O P : Optimizer σ) : Prop where
  start : P.start = O.start
  merge : ∀ s c a, O.merge s c = some a → P.merge s c = some a
  toStatement : P.toStatement = O.toStatement
  unresolved : P.unresolved = O.unresolved
  canComplete : P.canComplete = O.canComplete

theorem Extends.drive {σ : Type} {O P : Optimizer σ} (x : Extends O P) :
    ∀ (l : List Stmt) (s : Option σ) (r : List Stmt), Sol.drive O s l = some r → Sol.drive P s l = some r
  | [], none, _, h => h
  | [], some s, r, h => by
    simp only [Sol.drive] at h ⊢
    rw [x.canComplete, x.toStatement, x.unresolved]
    exact h
  | c :: cs, none, r, h => by
    simp only [Sol.drive] at h ⊢
    rw [x.start]
    split at h
    · next e => exact x.drive cs _ r h
    · next e =>
      simp only [Option.bind_eq_bind, Option.bind_eq_some_iff] at h ⊢
      obtain ⟨t, ht, e⟩ := h
      exact ⟨t, x.drive cs _ t ht, e⟩
  | c :: cs, some s, r, h => by
    simp only [Sol.drive, Option.bind_eq_bind, Option.bind_eq_some_iff] at h ⊢
    obtain ⟨a, ha, h⟩ := h
    refine ⟨a, x.merge s c a ha, ?_⟩
    rw [x.start, x.toStatement, x.unresolved]
    cases a with
    | proceed s' => exact x.drive cs _ r h
    | abort =>
      simp only at h ⊢
      cases e : O.start c with
      | some s' =>
        simp only [e, Option.bind_eq_some_iff] at h ⊢
        obtain ⟨u, hu, t, ht, h⟩ := h
        exact ⟨u, hu, t, x.drive cs _ t ht, h⟩
      | none =>
        simp only [e, Option.bind_eq_some_iff] at h ⊢
        obtain ⟨u, hu, t, ht, h⟩ := h
        exact ⟨u, hu, t, x.drive cs _ t ht, h⟩
    | complete =>
      simp only at h ⊢
      cases e : O.start c with
      | some s' =>
        simp only [e, Option.bind_eq_some_iff] at h ⊢
        obtain ⟨t, ht, h⟩ := h
        exact ⟨t, x.drive cs _ t ht, h⟩
      | none =>
        simp only [e, Option.bind_eq_some_iff] at h ⊢
        obtain ⟨t, ht, h⟩ := h
        exact ⟨t, x.drive cs _ t ht, h⟩

theorem hash_debug : Extends (hashMerger true) (hashMerger false) where
  start := rfl
  merge s c a h := by
    simp only [hashMerger] at h ⊢
    split at h
    · simp only [Option.bind_eq_bind, Option.bind_eq_some_iff] at h ⊢
      obtain ⟨d, hd, h⟩ := h
      refine ⟨d, usize_debug hd, ?_⟩
      split at h
      · next e =>
        rw [if_pos e]
        simp only [Option.bind_eq_some_iff] at h ⊢
        obtain ⟨e, he, h⟩ := h
        exact ⟨e, usize_debug he, h⟩
      · next e => rw [if_neg e]; exact h
    · exact h
  toStatement := rfl
  unresolved := rfl
  canComplete := rfl

theorem pow_debug : Extends (powMerger true) (powMerger false) where
  start := rfl
  merge s c a h := by
    simp only [powMerger] at h ⊢
    split at h
    · next e => rw [if_pos e]; exact h
    · next e =>
      rw [if_neg e]
      split at h
      · next e =>
        split at h
        · next e =>
          rw [if_pos e]
          simp only [Option.bind_eq_bind, Option.bind_eq_some_iff] at h ⊢
          obtain ⟨d, hd, h⟩ := h
          exact ⟨d, usize_debug hd, h⟩
        · next e =>
          rw [if_neg e]
          split at h
          · next e =>
            rw [if_pos e]
            simp only [Option.bind_eq_bind, Option.bind_eq_some_iff] at h ⊢
            obtain ⟨d, hd, h⟩ := h
            exact ⟨d, usize_debug hd, h⟩
          · next e => rw [if_neg e]; exact h
      · next e => exact h
  toStatement := rfl
  unresolved := rfl
  canComplete := rfl

/-- `try_merge` of aggregate_mul_seq.rs over any arithmetic. -/
def seqStep (u : ℤ → Option ℕ) (r : SeqRun) (c : Stmt) : Option (Action SeqRun) :=
  let over : Action SeqRun := if 4 < r.n then .complete else .abort
  match extractMMM c with
  | some (l, a, b) =>
    match r.step with
    | none => (u (l - r.start.1)).bind fun x => (u (a - r.start.2.1)).bind fun y => (u (b - r.start.2.2)).bind fun z =>
      some (.proceed { r with step := some (x, y, z), n := r.n + 1, stmts := r.stmts ++ [c] })
    | some step =>
      ((u (l - r.start.1)).bind fun x => (u (r.n * step.1)).bind fun y => some (decide (x = y))).bind fun x => if x then
        ((u (a - r.start.2.1)).bind fun x => (u (r.n * step.2.1)).bind fun y => some (decide (x = y))).bind fun x => if x then
          ((u (b - r.start.2.2)).bind fun x => (u (r.n * step.2.2)).bind fun y => some (decide (x = y))).bind fun x => if x then
            some (.proceed { r with n := r.n + 1, stmts := r.stmts ++ [c] })
          else some over
        else some over
      else some over
  | none => some over

theorem seqStep_mono {u v : ℤ → Option ℕ} (uv : ∀ n m, u n = some m → v n = some m) (s : SeqRun) (c : Stmt) (a : Action SeqRun)
    (h : seqStep u s c = some a) : seqStep v s c = some a := by
  have b : ∀ {β : Type} {n : ℤ} {f g : ℕ → Option β} {r : β}, (u n).bind f = some r → (∀ x r, f x = some r → g x = some r) → (v n).bind g = some r := by
    intro β n f g r h k
    obtain ⟨x, hx, h⟩ := Option.bind_eq_some_iff.1 h
    exact Option.bind_eq_some_iff.2 ⟨x, uv _ _ hx, k x r h⟩
  have d : ∀ {β : Type} {n m : ℤ} {f g : Bool → Option β} {r : β},
      ((u n).bind fun x => (u m).bind fun y => some (decide (x = y))).bind f = some r → (∀ x r, f x = some r → g x = some r) →
      ((v n).bind fun x => (v m).bind fun y => some (decide (x = y))).bind g = some r := by
    intro β n m f g r h k
    obtain ⟨x, hx, h⟩ := Option.bind_eq_some_iff.1 h
    exact Option.bind_eq_some_iff.2 ⟨x, b hx fun _ _ hx => b hx fun _ _ hx => hx, k x r h⟩
  unfold seqStep at h ⊢
  dsimp only at h ⊢
  revert h
  cases extractMMM c with
  | none => exact id
  | some x =>
    dsimp only
    cases s.step with
    | none => exact fun h => b h fun _ _ h => b h fun _ _ h => b h fun _ _ h => h
    | some step =>
      refine fun h => d h fun x _ h => ?_
      cases x with
      | false => exact h
      | true =>
        refine d h fun x _ h => ?_
        cases x with
        | false => exact h
        | true => exact d h fun _ _ h => h

theorem seq_merge (checks : Bool) : (seqMerger checks).merge = seqStep (usize checks) := by
  funext r c
  unfold seqMerger seqStep onCourse
  rfl

theorem seq_debug : Extends (seqMerger true) (seqMerger false) where
  start := rfl
  merge s c a h := by
    rw [seq_merge] at h ⊢
    exact seqStep_mono (fun _ _ => usize_debug) s c a h
  toStatement := rfl
  unresolved := rfl
  canComplete := rfl

/-- What the passes make of a program in a debug build, they make of it in a release build. -/
theorem aggregate_debug {p q : Prog} (h : aggregate true p = some q) : aggregate false p = some q := by
  unfold aggregate at h ⊢
  simp only [Option.bind_eq_bind, Option.bind_eq_some_iff] at h ⊢
  obtain ⟨s1, h1, s2, h2, s3, h3, s4, h4, s5, h5, e⟩ := h
  exact ⟨s1, hash_debug.drive _ _ _ h1, s2, h2, s3, h3, s4, pow_debug.drive _ _ _ h4, s5, seq_debug.drive _ _ _ h5, e⟩

end Verif.Sol
