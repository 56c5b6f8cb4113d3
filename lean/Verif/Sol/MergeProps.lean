import Verif.Sol.AggregateProps

/-!
# Merged transcript updates (C44) and packed multiply-adds (C45)
-/

namespace Verif.Sol

/-! ### Transcript updates -/

/-- The length of a value in `proof` and in `absorbing`. -/
def Ty.memStep (t : Ty) : ℕ := if t = .scalar then 1 else 2
def Ty.absStep (t : Ty) : ℕ := if t = .scalar then 2 else 3

/-- `n` updates with neighbouring values. -/
def hashList (o off : ℕ) (t : Ty) (n : ℕ) : List Stmt :=
  (List.range n).map fun i => .updateHash (.transcript (o + i * t.memStep) t) (off + i * t.absStep)

/-- Every point that is absorbed on its own line has a neighbour: the update before or after it continues the same way. -/
def NoLonelyPoint (stmts : List Stmt) : Prop :=
  ∀ pre o off rest, stmts = pre ++ .updateHash (.transcript o .point) off :: rest →
    (∃ pre' o' off', pre = pre' ++ [.updateHash (.transcript o' .point) off'] ∧ o = o' + 2 ∧ off = off' + 3) ∨
    ∃ rest', rest = .updateHash (.transcript (o + 2) .point) (off + 3) :: rest'

/-- Offsets are far from the limit of `usize`. -/
def SmallOffsets (stmts : List Stmt) : Prop := ∀ o t off, .updateHash (.transcript o t) off ∈ stmts → o < 2 ^ 63 ∧ off < 2 ^ 63

theorem usize_sub {checks : Bool} {a b d : ℕ} (ha : a < 2 ^ 63) (hb : b < 2 ^ 63) (hd : d < 2 ^ 63) (h : usize checks ((a : ℤ) - b) = some d) : a = b + d := by
  unfold usize at h
  split at h
  · have := Option.some.inj h
    omega
  · split at h
    · cases h
    · have := Option.some.inj h
      omega

theorem usize_of_nonneg {checks : Bool} {n : ℕ} (h : n < 2 ^ 64) : usize checks n = some n := by
  unfold usize
  rw [if_pos ⟨by positivity, by exact_mod_cast h⟩]
  simp

theorem execAll_hashList {E : Env} (o off : ℕ) (t : Ty) : ∀ (l : List ℕ) (s : St),
    execAll E s (l.map fun i => .updateHash (.transcript (o + i * t.memStep) t) (off + i * t.absStep)) = hashRounds E o t.memStep off t.absStep t l s
  | [], _ => rfl
  | i :: is, s => by
    simp only [List.map_cons, execAll, exec, eval, Expr.type, hashRounds, Option.bind_eq_bind]
    rw [Option.bind_assoc]
    congr 1
    funext v
    congr 1
    funext s'
    exact execAll_hashList o off t is s'

theorem hashList_after {o off : ℕ} {t : Ty} {n : ℕ} (hn : 0 < n) (cur : Option Ty) : after cur (hashList o off t n) = none := by
  obtain ⟨n, rfl⟩ : ∃ k, n = k + 1 := ⟨n - 1, by omega⟩
  rw [hashList, List.range_succ, List.map_append, after_append]
  rfl

theorem temps_of_forall {p : Stmt → Prop} (hp : ∀ c, p c → ∀ cur, c.Temps cur) : ∀ {l : List Stmt} (cur), (∀ c ∈ l, p c) → Temps cur l
  | [], _, _ => trivial
  | c :: cs, cur, h => ⟨hp c (h c (List.mem_cons_self ..)) cur, temps_of_forall hp _ fun x hx => h x (List.mem_cons_of_mem _ hx)⟩

theorem hashList_repl {o off : ℕ} {t : Ty} {n : ℕ} (hn : 0 < n) :
    Repl (hashList o off t n) [.loop o (o + (n - 1) * t.memStep) t.memStep off t.absStep t] := by
  intro cur _
  rw [hashList_after hn]
  refine ⟨⟨trivial, trivial⟩, rfl, fun E s s' hs => ?_⟩
  have hstep : 0 < t.memStep := by cases t <;> simp [Ty.memStep]
  have hcond : o ≤ o + (n - 1) * t.memStep ∧ t.memStep ≠ 0 := ⟨Nat.le_add_right _ _, by omega⟩
  have hcount : (o + (n - 1) * t.memStep - o) / t.memStep + 1 = n := by
    rw [Nat.add_sub_cancel_left, Nat.mul_div_cancel _ hstep]
    omega
  rw [hashList, execAll_hashList]
  simp only [execAll, exec, if_pos hcond, hcount, Option.bind_eq_bind]
  have := hashRounds_teq (E := E) o t.memStep off t.absStep t (List.range n) hs.weaken
  revert this
  rcases hashRounds E o t.memStep off t.absStep t (List.range n) s with _ | a <;> rcases hashRounds E o t.memStep off t.absStep t (List.range n) s' with _ | b
  · exact fun _ => trivial
  · exact fun h => h.elim
  · exact fun h => h.elim
  · exact fun h => ⟨h.m, h.abs, fun hc => absurd rfl hc, fun hc => by cases hc⟩

/-- The statement before the run does not continue into it. -/
def NotAfter (pre : List Stmt) (r : HashRun) : Prop :=
  ∀ pre' o' off', pre = pre' ++ [.updateHash (.transcript o' r.t) off'] → ¬ (r.memStart = o' + r.t.memStep ∧ r.absStart = off' + r.t.absStep)

/-- Statements that absorb. -/
def Stmt.IsHash : Stmt → Prop
  | .updateHash _ _ | .loop .. => True
  | _ => False

structure HashInv (prog pre : List Stmt) (r : HashRun) (run : List Stmt) : Prop where
  isRun : ∃ n > 0, run = hashList r.memStart r.absStart r.t n ∧ r.memEnd = r.memStart + (n - 1) * r.t.memStep ∧ r.absEnd = r.absStart + (n - 1) * r.t.absStep
  fresh : NotAfter pre r
  inProg : ∀ c ∈ run, c ∈ prog

theorem hashList_succ (o off : ℕ) (t : Ty) (n : ℕ) :
    hashList o off t (n + 1) = hashList o off t n ++ [.updateHash (.transcript (o + n * t.memStep) t) (off + n * t.absStep)] := by
  simp [hashList, List.range_succ]

theorem HashInv.last {prog pre : List Stmt} {r : HashRun} {run : List Stmt} (h : HashInv prog pre r run) :
    ∃ run', run = run' ++ [.updateHash (.transcript r.memEnd r.t) r.absEnd] := by
  obtain ⟨n, hn, h1, h2, h3⟩ := h.isRun
  obtain ⟨n, rfl⟩ : ∃ k, n = k + 1 := ⟨n - 1, by omega⟩
  rw [hashList_succ] at h1
  simp only [Nat.add_sub_cancel] at h2 h3
  exact ⟨_, by rw [h1, h2, h3]⟩

theorem merge_adjacent {checks : Bool} (r : HashRun) :
    (hashMerger checks).merge r (.updateHash (.transcript (r.memEnd + r.t.memStep) r.t) (r.absEnd + r.t.absStep)) =
      some (.proceed { r with memEnd := r.memEnd + r.t.memStep, absEnd := r.absEnd + r.t.absStep }) := by
  have h1 : usize checks (((r.memEnd + r.t.memStep : ℕ) : ℤ) - r.memEnd) = some r.t.memStep := by
    rw [show (((r.memEnd + r.t.memStep : ℕ) : ℤ) - r.memEnd) = (r.t.memStep : ℕ) by push_cast; ring]
    exact usize_of_nonneg (by cases r.t <;> simp [Ty.memStep])
  have h2 : usize checks (((r.absEnd + r.t.absStep : ℕ) : ℤ) - r.absEnd) = some r.t.absStep := by
    rw [show (((r.absEnd + r.t.absStep : ℕ) : ℤ) - r.absEnd) = (r.t.absStep : ℕ) by push_cast; ring]
    exact usize_of_nonneg (by cases r.t <;> simp [Ty.absStep])
  have e1 : r.memStep = r.t.memStep := rfl
  have e2 : r.absStep = r.t.absStep := rfl
  simp only [hashMerger, h1, h2, Option.bind_eq_bind, Option.bind_some, e1, e2, if_true, and_self, Option.pure_def]

theorem hashMerger_sound {checks : Bool} {prog : List Stmt} (hlonely : NoLonelyPoint prog) (hsmall : SmallOffsets prog) :
    Sound (hashMerger checks) prog (HashInv prog) Stmt.IsHash (fun d => d.IsHash ∧ d.Typed) := by
  have hcases : ∀ r c act, (hashMerger checks).merge r c = some act → r.memEnd < 2 ^ 63 → r.absEnd < 2 ^ 63 → (∀ o t off, c = .updateHash (.transcript o t) off → o < 2 ^ 63 ∧ off < 2 ^ 63) →
      (∀ s', act = .proceed s' → c = .updateHash (.transcript (r.memEnd + r.t.memStep) r.t) (r.absEnd + r.t.absStep) ∧
        s' = { r with memEnd := r.memEnd + r.t.memStep, absEnd := r.absEnd + r.t.absStep }) := by
    intro r c act h hm ha hc s' he
    subst he
    have e1 : r.memStep = r.t.memStep := rfl
    have e2 : r.absStep = r.t.absStep := rfl
    have l1 : r.t.memStep < 2 ^ 63 := by cases r.t <;> simp [Ty.memStep]
    have l2 : r.t.absStep < 2 ^ 63 := by cases r.t <;> simp [Ty.absStep]
    simp only [hashMerger] at h
    split at h
    · next o t off =>
      obtain ⟨ho, hoff⟩ := hc o t off rfl
      simp only [Option.bind_eq_bind, Option.bind_eq_some_iff] at h
      obtain ⟨d, hd, h⟩ := h
      split at h
      · next hd' =>
        simp only [Option.bind_eq_some_iff] at h
        obtain ⟨e, he, h⟩ := h
        split at h
        · next he' =>
          obtain ⟨he', rfl⟩ := he'
          rw [hd', e1] at hd
          rw [he', e2] at he
          have g1 := usize_sub ho hm l1 hd
          have g2 := usize_sub hoff ha l2 he
          injection h with h
          injection h with h
          rw [← h, g1, g2]
          exact ⟨rfl, rfl⟩
        · cases h
      · cases h
    · cases h
  have hend : ∀ pre r run, HashInv prog pre r run → r.memEnd < 2 ^ 63 ∧ r.absEnd < 2 ^ 63 := by
    intro pre r run h
    obtain ⟨run', hr⟩ := h.last
    exact hsmall r.memEnd r.t r.absEnd (h.inProg _ (by rw [hr]; simp))
  -- a finished run
  have hfin : ∀ pre r run rest, prog = pre ++ run ++ rest → HashInv prog pre r run →
      (∀ rest', rest ≠ .updateHash (.transcript (r.memEnd + r.t.memStep) r.t) (r.absEnd + r.t.absStep) :: rest') →
      Rep Stmt.IsHash (fun d => d.IsHash ∧ d.Typed) run [(hashMerger checks).toStatement r] := by
    intro pre r run rest hp hi hne
    obtain ⟨n, hn, h1, h2, h3⟩ := hi.isRun
    have hstep : 0 < r.t.memStep := by cases r.t <;> simp [Ty.memStep]
    simp only [hashMerger]
    by_cases hone : n = 1
    · subst hone
      simp only [Nat.sub_self, Nat.zero_mul, Nat.add_zero] at h2 h3
      have hrun : run = [.updateHash (.transcript r.memStart r.t) r.absStart] := by rw [h1]; simp [hashList]
      rw [if_pos h2.symm]
      cases ht : r.t with
      | scalar =>
        rw [ht] at hrun
        rw [hrun]
        exact Rep.refl _
      | point =>
        exfalso
        rw [hrun, ht, List.append_assoc] at hp
        rcases hlonely pre r.memStart r.absStart rest hp with ⟨pre', o', off', g1, g2, g3⟩ | ⟨rest', g1⟩
        · exact hi.fresh pre' o' off' (by rw [ht]; exact g1) (by rw [ht]; exact ⟨g2, g3⟩)
        · refine hne rest' ?_
          rw [ht, h2, h3]
          exact g1
    · rw [if_neg (by rw [h2]; have := Nat.mul_pos (show 0 < n - 1 by omega) hstep; omega), h1, h2]
      refine ⟨hashList_repl hn, .single ?_ ?_ ⟨trivial, trivial⟩⟩
      · obtain ⟨n, rfl⟩ : ∃ k, n = k + 1 := ⟨n - 1, by omega⟩
        rw [hashList_succ]
        simp
      · intro c hc
        simp only [hashList, List.mem_map] at hc
        obtain ⟨i, -, rfl⟩ := hc
        trivial
  refine ⟨?_, ?_, ?_, ?_, ?_, ?_⟩
  · intro pre c rest r hp hidle hs
    simp only [hashMerger] at hs
    split at hs
    · next o t off =>
      cases hs
      refine ⟨⟨1, by simp, by simp [hashList], by simp, by simp⟩, ?_, by simp [hp]⟩
      intro pre' o' off' he hadj
      cases hidle with
      | nil => simp at he
      | skip _ g1 g2 =>
        have := List.append_inj_right' he rfl
        simp only [List.cons.injEq, and_true] at this
        subst this
        simp [hashMerger] at g2
      | @run _ s run _ g2 g3 =>
        obtain ⟨run', hr⟩ := g2.last
        rw [hr, ← List.append_assoc] at he
        have := List.append_inj_right' he rfl
        simp only [List.cons.injEq, Stmt.updateHash.injEq, Expr.transcript.injEq, and_true] at this
        obtain ⟨⟨h1, h2⟩, h3⟩ := this
        dsimp only at hadj h2
        have hm := merge_adjacent (checks := checks) s
        rw [h1, h2, h3, ← hadj.1, ← hadj.2] at hm
        rcases g3 with g3 | g3 <;> · rw [hm] at g3; cases g3
    · cases hs
  · intro pre r run c rest s' hp hi hm
    obtain ⟨l1, l2⟩ := hend _ _ _ hi
    obtain ⟨hc, hs'⟩ := hcases r c _ hm l1 l2 (fun o t off h => hsmall o t off (by rw [hp, h]; simp)) s' rfl
    obtain ⟨n, hn, h1, h2, h3⟩ := hi.isRun
    subst hs'
    obtain ⟨n, rfl⟩ : ∃ k, n = k + 1 := ⟨n - 1, by omega⟩
    simp only [Nat.add_sub_cancel] at h2 h3
    refine ⟨⟨n + 2, by omega, ?_, ?_, ?_⟩, hi.fresh, ?_⟩
    · dsimp only
      rw [hashList_succ, h1, hc, h2, h3]
      simp only [Nat.succ_mul, Nat.add_assoc]
    · dsimp only
      rw [h2, show n + 2 - 1 = n + 1 by omega, Nat.succ_mul, Nat.add_assoc]
    · dsimp only
      rw [h3, show n + 2 - 1 = n + 1 by omega, Nat.succ_mul, Nat.add_assoc]
    · intro x hx
      rcases List.mem_append.1 hx with hx | hx
      · exact hi.inProg x hx
      · rw [List.mem_singleton.1 hx, hp]
        simp
  · intro pre r run c rest u hp hi hm hu
    cases hu
  · intro pre r run c rest hp hi hm
    refine hfin pre r run _ hp hi fun rest' he => ?_
    injection he with he _
    rw [he, merge_adjacent] at hm
    cases hm
  · intro pre r run hp hi _
    exact hfin pre r run [] (by simpa using hp) hi fun rest' he => by cases he
  · intro pre r run u hp hi hc
    cases hc

/-- Missing for the full claim: `NoLonelyPoint` (see `C44_false`). -/
theorem C44_merge_partial {checks : Bool} {p : Prog} {q : List Stmt} (ht : Temps none p.stmts) (hf : ∀ e ∈ p.finals, e.Temps none)
    (hlonely : NoLonelyPoint p.stmts) (hsmall : SmallOffsets p.stmts) (h : drive (hashMerger checks) none p.stmts = some q) (c : Call) :
    { p with stmts := q }.run c = p.run c :=
  ((hashMerger_sound hlonely hsmall).rep h).repl.run ht hf c

theorem usize_release (n : ℤ) : (usize false n).isSome := by
  unfold usize
  split <;> simp

/-- Without overflow checks the pass returns. -/
theorem C44_total (stmts : List Stmt) : (drive (hashMerger false) none stmts).isSome := by
  refine drive_total (fun r c => ?_) (fun r c h => ?_) (fun r h => ?_) _ _
  · simp only [hashMerger]
    split
    · next o t off =>
      obtain ⟨d, hd⟩ := Option.isSome_iff_exists.1 (usize_release (o - r.memEnd))
      obtain ⟨e, he⟩ := Option.isSome_iff_exists.1 (usize_release (off - r.absEnd))
      simp only [hd, he, Option.bind_eq_bind, Option.bind_some]
      split
      · split <;> rfl
      · rfl
    · rfl
  · simp only [hashMerger] at h
    split at h
    · next o t off =>
      obtain ⟨d, hd⟩ := Option.isSome_iff_exists.1 (usize_release (o - r.memEnd))
      obtain ⟨e, he⟩ := Option.isSome_iff_exists.1 (usize_release (off - r.absEnd))
      simp only [hd, he, Option.bind_eq_bind, Option.bind_some] at h
      split at h
      · split at h <;> cases h
      · cases h
    · cases h
  · cases h

/-! ### A single point -/

/-- One point is absorbed, then a challenge is squeezed. -/
def lonely : Prog :=
  ⟨[.updateHash (.transcript 0 .point) 0, .assign (.memory 0 .scalar) (.hash 3)], [.memory 0 .scalar], 1, 3⟩

/-- It becomes a scalar: the second coordinate of the point is left out and the tag is 2. -/
theorem lonely_merged (checks : Bool) : drive (hashMerger checks) none lonely.stmts = some
    [.updateHash (.transcript 0 .scalar) 0, .assign (.memory 0 .scalar) (.hash 3)] := by
  cases checks <;> rfl

/-- A hash function that gives a byte of the third word. -/
def thirdWord : Digest := ⟨fun l => l.getD 95 0 :: List.replicate 31 0, fun l => by simp⟩

/-- A point that is absorbed on its own changes the challenges of the contract. -/
theorem C44_false : ∃ p : Prog, ∃ q, Temps none p.stmts ∧ (∀ e ∈ p.finals, e.Temps none) ∧ SmallOffsets p.stmts ∧
    drive (hashMerger true) none p.stmts = some q ∧ ∃ c, p.run c = some [.s 5] ∧ { p with stmts := q }.run c = some [.s 0] := by
  refine ⟨lonely, _, ?_, ?_, ?_, lonely_merged true, ⟨thirdWord, [4, 5], []⟩, rfl, rfl⟩
  · simp [lonely, Temps, Stmt.Temps, Expr.Temps, Stmt.after]
  · simp [lonely, Expr.Temps]
  · intro o t off h
    simp [lonely] at h
    omega

/-! Example: two points and a scalar. -/

def paired : List Stmt :=
  [.updateHash (.transcript 0 .point) 0, .updateHash (.transcript 2 .point) 3, .updateHash (.transcript 4 .scalar) 6,
   .assign (.memory 0 .scalar) (.hash 8)]

example : drive (hashMerger true) none paired = some
    [.loop 0 2 2 0 3 .point, .updateHash (.transcript 4 .scalar) 6, .assign (.memory 0 .scalar) (.hash 8)] := by
  decide +kernel

example : NoLonelyPoint paired ∧ SmallOffsets paired := by
  constructor
  · intro pre o off rest h
    rcases pre with _ | ⟨a, _ | ⟨b, _ | ⟨c, _ | ⟨d, pre⟩⟩⟩⟩
    · simp [paired] at h
      obtain ⟨⟨rfl, rfl⟩, rfl⟩ := h
      exact .inr ⟨_, rfl⟩
    · simp [paired] at h
      obtain ⟨rfl, ⟨rfl, rfl⟩, rfl⟩ := h
      exact .inl ⟨[], 0, 0, rfl, rfl, rfl⟩
    · simp [paired] at h
    · simp [paired] at h
    · simp [paired] at h
  · intro o t off h
    simp [paired] at h
    omega

end Verif.Sol
