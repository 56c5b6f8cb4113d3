import Verif.Sol.MergeProps

/-!
# Runs of products (C47)
-/

namespace Verif.Sol

/-! ### Arithmetic progressions -/

/-- `m[l] = m[a] * m[b]`. -/
def mmm (x : ℕ × ℕ × ℕ) : Stmt := .assign (.memory x.1 .scalar) (.mul (.memory x.2.1 .scalar) (.memory x.2.2 .scalar) .scalar)

/-- The offsets are three arithmetic progressions from `start` with the steps `z`. -/
def Progression (start : ℕ × ℕ × ℕ) (z : ℤ × ℤ × ℤ) (offs : List (ℕ × ℕ × ℕ)) : Prop :=
  ∀ (i : ℕ) (x : ℕ × ℕ × ℕ), offs[i]? = some x → (x.1 : ℤ) = start.1 + i * z.1 ∧ (x.2.1 : ℤ) = start.2.1 + i * z.2.1 ∧ (x.2.2 : ℤ) = start.2.2 + i * z.2.2

def Ascends (z : ℤ × ℤ × ℤ) : Prop := 0 ≤ z.1 ∧ 0 ≤ z.2.1 ∧ 0 ≤ z.2.2

/-- No five products in a row have offsets that go down evenly. -/
def NoDescent (stmts : List Stmt) : Prop :=
  ∀ pre offs rest start z, stmts = pre ++ offs.map mmm ++ rest → 5 ≤ offs.length → Progression start z offs → Ascends z

/-- Offsets and programs are far from the limit of `usize`. -/
def SmallMMM (stmts : List Stmt) : Prop :=
  stmts.length < 2 ^ 31 ∧ ∀ x, mmm x ∈ stmts → x.1 < 2 ^ 31 ∧ x.2.1 < 2 ^ 31 ∧ x.2.2 < 2 ^ 31

theorem execAll_mmm {E : Env} (start k : ℕ × ℕ × ℕ) : ∀ (l : List ℕ) (s : St),
    execAll E s (l.map fun i => mmm (start.1 + i * k.1, start.2.1 + i * k.2.1, start.2.2 + i * k.2.2)) = mulRounds E start k l s
  | [], s => rfl
  | i :: is, s => by
    simp only [List.map_cons, execAll, mmm, exec, evalRhs, eval, Env.readMem, mulRounds]
    cases E.load s (start.2.1 + i * k.2.1) with
    | none => rfl
    | some a =>
      cases E.load s (start.2.2 + i * k.2.2) with
      | none => rfl
      | some b =>
        simp only [Option.map_some, Option.bind_eq_bind, Option.bind_some, opMul, put]
        congr 1
        funext s'
        exact execAll_mmm start k is s'

theorem mmm_after {l : List (ℕ × ℕ × ℕ)} (h : l ≠ []) (cur : Option Ty) : after cur (l.map mmm) = none := by
  rw [← List.dropLast_append_getLast h, List.map_append, after_append]
  rfl

theorem mmm_repl {start k : ℕ × ℕ × ℕ} {offs : List (ℕ × ℕ × ℕ)} (hne : offs ≠ []) (h : Progression start (k.1, k.2.1, k.2.2) offs) :
    Repl (offs.map mmm) [.mulLoop start k offs.length .scalar] := by
  have ho : offs = (List.range offs.length).map fun i => (start.1 + i * k.1, start.2.1 + i * k.2.1, start.2.2 + i * k.2.2) := by
    apply List.ext_getElem
    · simp
    · intro i h1 h2
      obtain ⟨g1, g2, g3⟩ := h i _ (List.getElem?_eq_getElem h1)
      simp only [List.getElem_map, List.getElem_range]
      dsimp only at g1 g2 g3
      exact Prod.ext (by exact_mod_cast g1) (Prod.ext (by exact_mod_cast g2) (by exact_mod_cast g3))
  intro cur _
  rw [mmm_after hne]
  refine ⟨⟨trivial, trivial⟩, rfl, fun E s s' hs => ?_⟩
  have : execAll E s (offs.map mmm) = mulRounds E start k (List.range offs.length) s := by
    conv_lhs => rw [ho, List.map_map]
    exact execAll_mmm start k _ s
  rw [this]
  have hr := mulRounds_teq (E := E) start k (List.range offs.length) hs.weaken
  simp only [execAll, exec, Option.bind_eq_bind]
  revert hr
  rcases mulRounds E start k (List.range offs.length) s with _ | a <;> rcases mulRounds E start k (List.range offs.length) s' with _ | b
  · exact fun _ => trivial
  · exact fun h => h.elim
  · exact fun h => h.elim
  · exact fun h => ⟨h.m, h.abs, fun hc => absurd rfl hc, fun hc => by cases hc⟩

/-! ### `usize` -/

theorem usize_true {n : ℤ} {d : ℕ} (h : usize true n = some d) : n = d := by
  unfold usize at h
  split at h
  · have := Option.some.inj h
    omega
  · cases h

theorem usize_mod {checks : Bool} {n : ℤ} {d : ℕ} (h : usize checks n = some d) : ∃ k : ℤ, n = d + k * 2 ^ 64 := by
  unfold usize at h
  split at h
  · have := Option.some.inj h
    exact ⟨0, by omega⟩
  · split at h
    · cases h
    · have := Option.some.inj h
      exact ⟨n / 2 ^ 64, by omega⟩

theorem step_nat {checks : Bool} {z : ℤ} {d : ℕ} (h : usize checks z = some d) (hz : 0 ≤ z) (hs : checks = true ∨ z < 2 ^ 64) : z = d := by
  rcases hs with rfl | hs
  · exact usize_true h
  · unfold usize at h
    rw [if_pos ⟨hz, hs⟩] at h
    have := Option.some.inj h
    omega

/-- A test that succeeds means that the next offset is on the progression. -/
theorem onCourse_true {checks : Bool} {o start n d : ℕ} {z : ℤ} (h : onCourse checks o start n d = some true) (hd : usize checks z = some d)
    (hs : checks = true ∨ (o < 2 ^ 31 ∧ start < 2 ^ 31 ∧ n < 2 ^ 31 ∧ -2 ^ 31 < z ∧ z < 2 ^ 31)) : (o : ℤ) = start + n * z := by
  simp only [onCourse, Option.bind_eq_bind, Option.bind_eq_some_iff, Option.pure_def, Option.some.injEq, decide_eq_true_eq] at h
  obtain ⟨u, hu, v, hv, rfl⟩ := h
  rcases hs with rfl | ⟨h1, h2, h3, h4, h5⟩
  · have e1 := usize_true hu
    have e2 := usize_true hv
    have e3 := usize_true hd
    rw [e3]
    linarith
  · obtain ⟨k1, e1⟩ := usize_mod hu
    obtain ⟨k2, e2⟩ := usize_mod hv
    obtain ⟨k3, e3⟩ := usize_mod hd
    have e4 : (o : ℤ) - start - n * z = (k1 - k2 - n * k3) * 2 ^ 64 := by
      have : (n : ℤ) * z = n * d + n * k3 * 2 ^ 64 := by rw [e3]; ring
      rw [this]
      linarith
    have h6 : |(n : ℤ) * z| ≤ 2 ^ 62 := by
      rw [abs_mul]
      calc |(n : ℤ)| * |z| ≤ 2 ^ 31 * 2 ^ 31 := mul_le_mul (abs_le.2 ⟨by omega, by omega⟩) (abs_le.2 ⟨by omega, by omega⟩) (abs_nonneg _) (by norm_num)
        _ = 2 ^ 62 := by norm_num
    obtain ⟨h7, h8⟩ := abs_le.1 h6
    generalize (n : ℤ) * z = w at *
    generalize k1 - k2 - (n : ℤ) * k3 = k at *
    omega

/-! ### The pass -/

theorem extractMMM_eq {c : Stmt} {x : ℕ × ℕ × ℕ} (h : extractMMM c = some x) (hty : c.Typed) : c = mmm x := by
  unfold extractMMM at h
  split at h
  · next l a b =>
    split at h
    · next hc =>
      obtain ⟨h1, h2, h3⟩ := hc
      cases a <;> cases h1
      cases b <;> cases h2
      cases l <;> cases h3
      simp only [Expr.offset?, Option.bind_eq_bind, Option.bind_some, Option.pure_def, Option.some.injEq] at h
      obtain ⟨g1, g2, g3⟩ := hty
      simp only [Expr.type] at g1 g2
      obtain ⟨g2, g4⟩ := g2
      subst h g1 g2 g4
      rfl
    · cases h
  · cases h

def Stmt.IsMMM (c : Stmt) : Prop := ∃ x, c = mmm x

def Stmt.IsMulLoop (d : Stmt) : Prop := ∃ start step n, d = .mulLoop start step n .scalar

structure SeqInv (checks : Bool) (prog : List Stmt) (r : SeqRun) (run : List Stmt) : Prop where
  stmts : r.stmts = run
  isRun : ∃ offs z, run = offs.map mmm ∧ offs.length = r.n ∧ offs[0]? = some r.start ∧ Progression r.start z offs ∧
    (checks = true → Ascends z) ∧
    match r.step with
    | none => r.n = 1
    | some d => usize checks z.1 = some d.1 ∧ usize checks z.2.1 = some d.2.1 ∧ usize checks z.2.2 = some d.2.2 ∧ 1 < r.n
  inProg : ∀ c ∈ run, c ∈ prog

theorem Progression.second {start x : ℕ × ℕ × ℕ} {z : ℤ × ℤ × ℤ} {offs : List (ℕ × ℕ × ℕ)} (h : Progression start z offs) (hx : offs[1]? = some x) :
    z = ((x.1 : ℤ) - start.1, (x.2.1 : ℤ) - start.2.1, (x.2.2 : ℤ) - start.2.2) := by
  obtain ⟨h1, h2, h3⟩ := h 1 x hx
  refine Prod.ext ?_ (Prod.ext ?_ ?_) <;> push_cast at * <;> linarith

theorem SeqInv.repl {checks : Bool} {prog pre rest : List Stmt} {r : SeqRun} {run : List Stmt} (h : SeqInv checks prog r run) (hp : prog = pre ++ run ++ rest)
    (hs : checks = true ∨ (SmallMMM prog ∧ NoDescent prog)) (hn : 4 < r.n) :
    Rep Stmt.IsMMM Stmt.IsMulLoop run [(seqMerger checks).toStatement r] := by
  obtain ⟨offs, z, rfl, h2, h3, h4, h5, h6⟩ := h.isRun
  cases hst : r.step with
  | none =>
    rw [hst] at h6
    have : r.n = 1 := h6
    omega
  | some d =>
    rw [hst] at h6
    obtain ⟨g1, g2, g3, -⟩ := h6
    have hasc : Ascends z := by
      rcases hs with hs | ⟨-, hs⟩
      · exact h5 hs
      · exact hs pre offs rest r.start z hp (by omega) h4
    have hz : checks = true ∨ (z.1 < 2 ^ 64 ∧ z.2.1 < 2 ^ 64 ∧ z.2.2 < 2 ^ 64) := by
      rcases hs with hs | ⟨⟨-, hs⟩, -⟩
      · exact .inl hs
      · right
        have hx : offs[1]? = some offs[1] := List.getElem?_eq_getElem (by omega)
        have hmem := hs offs[1] (h.inProg _ (List.mem_map_of_mem (f := mmm) (List.getElem_mem (by omega))))
        rw [h4.second hx]
        dsimp only
        omega
    have e1 : z.1 = d.1 := step_nat g1 hasc.1 (hz.imp_right fun h => h.1)
    have e2 : z.2.1 = d.2.1 := step_nat g2 hasc.2.1 (hz.imp_right fun h => h.2.1)
    have e3 : z.2.2 = d.2.2 := step_nat g3 hasc.2.2 (hz.imp_right fun h => h.2.2)
    simp only [seqMerger, hst, Option.getD_some, ← h2]
    have hne : offs ≠ [] := by
      intro he
      simp [he] at h2
      omega
    refine ⟨mmm_repl hne ?_, .single (by simpa using hne) (fun c hc => ?_) ⟨_, _, _, rfl⟩⟩
    swap
    · obtain ⟨x, -, rfl⟩ := List.mem_map.1 hc
      exact ⟨x, rfl⟩
    have : z = ((d.1 : ℤ), (d.2.1 : ℤ), (d.2.2 : ℤ)) := Prod.ext e1 (Prod.ext e2 e3)
    rw [← this]
    exact h4

theorem Progression.snoc {start x : ℕ × ℕ × ℕ} {z : ℤ × ℤ × ℤ} {offs : List (ℕ × ℕ × ℕ)} (h : Progression start z offs)
    (hx : (x.1 : ℤ) = start.1 + offs.length * z.1 ∧ (x.2.1 : ℤ) = start.2.1 + offs.length * z.2.1 ∧ (x.2.2 : ℤ) = start.2.2 + offs.length * z.2.2) :
    Progression start z (offs ++ [x]) := by
  intro i y hy
  by_cases hi : i < offs.length
  · rw [List.getElem?_append_left hi] at hy
    exact h i y hy
  · rw [List.getElem?_append_right (by omega)] at hy
    have h0 : i - offs.length = 0 := by
      by_contra hne
      obtain ⟨k, hk⟩ := Nat.exists_eq_succ_of_ne_zero hne
      rw [hk] at hy
      simp at hy
    have hi' : i = offs.length := by omega
    rw [h0] at hy
    simp only [List.getElem?_cons_zero, Option.some.injEq] at hy
    rw [← hy, hi']
    exact hx

theorem seqMerger_sound {checks : Bool} {prog : List Stmt} (hty : ∀ c ∈ prog, c.Typed) (hs : checks = true ∨ (SmallMMM prog ∧ NoDescent prog)) :
    Sound (seqMerger checks) prog (fun _ => SeqInv checks prog) Stmt.IsMMM Stmt.IsMulLoop := by
  refine ⟨?_, ?_, ?_, ?_, ?_, ?_⟩
  · intro pre c rest r hp _ hst
    have hc : c ∈ prog := by rw [hp]; simp
    simp only [seqMerger, Option.map_eq_some_iff] at hst
    obtain ⟨x, hx, rfl⟩ := hst
    refine ⟨rfl, ⟨[x], (0, 0, 0), by simp [extractMMM_eq hx (hty c hc)], rfl, rfl, ?_, fun _ => ⟨le_rfl, le_rfl, le_rfl⟩, rfl⟩, by simp [hc]⟩
    intro i y hy
    cases i with
    | zero =>
      simp only [List.getElem?_cons_zero, Option.some.injEq] at hy
      subst hy
      simp
    | succ i => simp at hy
  · intro pre r run c rest s' hp hi hm
    have hc : c ∈ prog := by rw [hp]; simp
    obtain ⟨offs, z, rfl, h2, h3, h4, h5, h6⟩ := hi.isRun
    have hin : ∀ (x : ℕ × ℕ × ℕ), c = mmm x → ∀ d ∈ (offs ++ [x]).map mmm, d ∈ prog := by
      intro x hx d hd
      rw [List.map_append, List.mem_append] at hd
      rcases hd with hd | hd
      · exact hi.inProg d hd
      · simp only [List.map_cons, List.map_nil, List.mem_singleton] at hd
        rw [hd, ← hx]
        exact hc
    have h0 : 0 < offs.length := by
      by_contra hne
      have : offs = [] := List.length_eq_zero_iff.1 (by omega)
      simp [this] at h3
    have hfirst : ∀ x, (offs ++ [x])[0]? = some r.start := fun x => by rw [List.getElem?_append_left h0, h3]
    simp only [seqMerger] at hm
    cases hx : extractMMM c with
    | none =>
      simp only [hx, Option.pure_def, Option.some.injEq] at hm
      split at hm <;> cases hm
    | some x =>
      obtain ⟨l, a, b⟩ := x
      have hcx := extractMMM_eq hx (hty c hc)
      rw [hx] at hm
      dsimp only at hm
      cases hst : r.step with
      | none =>
        rw [hst] at hm h6
        have hn : r.n = 1 := h6
        simp only [Option.bind_eq_bind, Option.bind_eq_some_iff, Option.pure_def, Option.some.injEq] at hm
        obtain ⟨x1, e1, x2, e2, x3, e3, hm⟩ := hm
        injection hm with hm
        subst hm
        refine ⟨by simp [hi.stmts], ⟨offs ++ [(l, a, b)], ((l : ℤ) - r.start.1, (a : ℤ) - r.start.2.1, (b : ℤ) - r.start.2.2), ?_, ?_, hfirst _, ?_, ?_, ?_⟩, ?_⟩
        · rw [hcx]
          simp
        · simp [h2]
        · obtain ⟨w, hw⟩ : ∃ w, offs = [w] := List.length_eq_one_iff.1 (h2.trans hn)
          subst hw
          simp only [List.getElem?_cons_zero, Option.some.injEq] at h3
          subst h3
          refine Progression.snoc ?_ ?_
          · intro i y hy
            cases i with
            | zero =>
              simp only [List.getElem?_cons_zero, Option.some.injEq] at hy
              subst hy
              simp
            | succ i => simp at hy
          · simp
        · rintro rfl
          refine ⟨?_, ?_, ?_⟩ <;> dsimp only
          · rw [usize_true e1]; positivity
          · rw [usize_true e2]; positivity
          · rw [usize_true e3]; positivity
        · exact ⟨e1, e2, e3, by show 1 < r.n + 1; omega⟩
        · have := hin _ hcx
          rw [List.map_append] at this
          rw [hcx]
          exact this
      | some d =>
        rw [hst] at hm h6
        obtain ⟨g1, g2, g3, g4⟩ := h6
        simp only [Option.bind_eq_bind, Option.bind_eq_some_iff, Option.pure_def] at hm
        obtain ⟨o1, c1, hm⟩ := hm
        cases o1 with
        | false => simp only [Bool.false_eq_true, if_false] at hm; split at hm <;> cases hm
        | true =>
        simp only [if_true, Option.bind_eq_some_iff] at hm
        obtain ⟨o2, c2, hm⟩ := hm
        cases o2 with
        | false => simp only [Bool.false_eq_true, if_false] at hm; split at hm <;> cases hm
        | true =>
        simp only [if_true, Option.bind_eq_some_iff] at hm
        obtain ⟨o3, c3, hm⟩ := hm
        cases o3 with
        | false => simp only [Bool.false_eq_true, if_false] at hm; split at hm <;> cases hm
        | true =>
        simp only [if_true, Option.some.injEq] at hm
        injection hm with hm
        subst hm
        have hb : checks = true ∨ ((l < 2 ^ 31 ∧ a < 2 ^ 31 ∧ b < 2 ^ 31) ∧ (r.start.1 < 2 ^ 31 ∧ r.start.2.1 < 2 ^ 31 ∧ r.start.2.2 < 2 ^ 31) ∧ r.n < 2 ^ 31 ∧
            (-2 ^ 31 < z.1 ∧ z.1 < 2 ^ 31) ∧ (-2 ^ 31 < z.2.1 ∧ z.2.1 < 2 ^ 31) ∧ (-2 ^ 31 < z.2.2 ∧ z.2.2 < 2 ^ 31)) := by
          rcases hs with hs | ⟨⟨hs1, hs2⟩, -⟩
          · exact .inl hs
          · right
            have hx1 : offs[1]? = some offs[1] := List.getElem?_eq_getElem (by omega)
            have b1 := hs2 offs[1] (hi.inProg _ (List.mem_map_of_mem (f := mmm) (List.getElem_mem (by omega))))
            have b0 := hs2 r.start (hi.inProg _ (List.mem_map_of_mem (f := mmm) (List.mem_of_getElem? h3)))
            have bc := hs2 (l, a, b) (hcx ▸ hc)
            have hl : r.n < 2 ^ 31 := by
              rw [hp] at hs1
              simp only [List.length_append, List.length_map] at hs1
              omega
            rw [h4.second hx1]
            dsimp only at bc ⊢
            omega
        have q1 := onCourse_true c1 g1 (hb.imp_right fun h => ⟨h.1.1, h.2.1.1, h.2.2.1, h.2.2.2.1.1, h.2.2.2.1.2⟩)
        have q2 := onCourse_true c2 g2 (hb.imp_right fun h => ⟨h.1.2.1, h.2.1.2.1, h.2.2.1, h.2.2.2.2.1.1, h.2.2.2.2.1.2⟩)
        have q3 := onCourse_true c3 g3 (hb.imp_right fun h => ⟨h.1.2.2, h.2.1.2.2, h.2.2.1, h.2.2.2.2.2.1, h.2.2.2.2.2.2⟩)
        refine ⟨by simp [hi.stmts], ⟨offs ++ [(l, a, b)], z, ?_, ?_, hfirst _, ?_, h5, ?_⟩, ?_⟩
        · rw [hcx]
          simp
        · simp [h2]
        · refine h4.snoc ?_
          rw [h2]
          exact ⟨q1, q2, q3⟩
        · dsimp only
          exact ⟨g1, g2, g3, by omega⟩
        · have := hin _ hcx
          rw [List.map_append] at this
          rw [hcx]
          exact this
  · intro pre r run c rest u _ hi _ hu
    cases hu
    rw [hi.stmts]
    exact Rep.refl _
  · intro pre r run c rest hp hi hm
    refine hi.repl hp hs ?_
    by_contra hn
    simp only [seqMerger, if_neg hn] at hm
    split at hm
    · split at hm
      · simp only [Option.bind_eq_bind, Option.bind_eq_some_iff, Option.pure_def] at hm
        obtain ⟨_, _, _, _, _, _, hm⟩ := hm
        cases hm
      · simp only [Option.bind_eq_bind, Option.bind_eq_some_iff, Option.pure_def] at hm
        obtain ⟨o1, c1, hm⟩ := hm
        split at hm
        · simp only [Option.bind_eq_some_iff] at hm
          obtain ⟨o2, c2, hm⟩ := hm
          split at hm
          · simp only [Option.bind_eq_some_iff] at hm
            obtain ⟨o3, c3, hm⟩ := hm
            split at hm <;> cases hm
          · cases hm
        · cases hm
    · cases hm
  · intro pre r run hp hi hc
    exact hi.repl (rest := []) (by simpa using hp) hs (by simpa [seqMerger] using hc)
  · intro pre r run u _ hi _ hu
    cases hu
    rw [hi.stmts]
    exact Rep.refl _

/-- With overflow checks, a pass that returns keeps the results. Missing for the full claim: it may panic (see `C47_panic`). -/
theorem C47_checked_partial {p : Prog} {q : List Stmt} (ht : Temps none p.stmts) (hf : ∀ e ∈ p.finals, e.Temps none) (hty : ∀ c ∈ p.stmts, c.Typed)
    (h : drive (seqMerger true) none p.stmts = some q) (c : Call) : { p with stmts := q }.run c = p.run c :=
  ((seqMerger_sound hty (.inl rfl)).rep h).repl.run ht hf c

/-- Without overflow checks the pass returns. -/
theorem seqMerger_total (stmts : List Stmt) : ∃ q, drive (seqMerger false) none stmts = some q := by
  refine Option.isSome_iff_exists.1 (drive_total (fun r c => ?_) (fun _ _ _ => rfl) (fun _ _ => rfl) _ _)
  have hon : ∀ a b c d, ∃ o, onCourse false a b c d = some o := by
    intro a b c d
    obtain ⟨x, hx⟩ := Option.isSome_iff_exists.1 (usize_release (a - b))
    obtain ⟨y, hy⟩ := Option.isSome_iff_exists.1 (usize_release (c * d))
    exact ⟨_, by simp only [onCourse, hx, hy, Option.bind_eq_bind, Option.bind_some]; rfl⟩
  simp only [seqMerger]
  split
  · next l a b _ =>
    split
    · obtain ⟨x, hx⟩ := Option.isSome_iff_exists.1 (usize_release (l - r.start.1))
      obtain ⟨y, hy⟩ := Option.isSome_iff_exists.1 (usize_release (a - r.start.2.1))
      obtain ⟨z, hz⟩ := Option.isSome_iff_exists.1 (usize_release (b - r.start.2.2))
      simp [hx, hy, hz]
    · next d _ =>
      obtain ⟨o1, h1⟩ := hon l r.start.1 r.n d.1
      obtain ⟨o2, h2⟩ := hon a r.start.2.1 r.n d.2.1
      obtain ⟨o3, h3⟩ := hon b r.start.2.2 r.n d.2.2
      simp only [h1, h2, h3, Option.bind_eq_bind, Option.bind_some]
      cases o1 <;> cases o2 <;> cases o3 <;> rfl
  · rfl

/-- Without overflow checks. Missing for the full claim: `NoDescent` (see `C47_false`). -/
theorem C47_unchecked_partial {p : Prog} (ht : Temps none p.stmts) (hf : ∀ e ∈ p.finals, e.Temps none) (hty : ∀ c ∈ p.stmts, c.Typed)
    (hs : SmallMMM p.stmts) (hd : NoDescent p.stmts) : ∃ q, drive (seqMerger false) none p.stmts = some q ∧ ∀ c : Call, { p with stmts := q }.run c = p.run c := by
  obtain ⟨q, hq⟩ := seqMerger_total p.stmts
  exact ⟨q, hq, fun c => ((seqMerger_sound hty (.inr ⟨hs, hd⟩)).rep hq).repl.run ht hf c⟩

/-! ### Offsets that go down -/

/-- Two products, the second one stored below the first. -/
def twoDown : List Stmt := [mmm (1, 2, 3), mmm (0, 2, 3)]

/-- With overflow checks the generator panics. -/
theorem C47_panic : Temps none twoDown ∧ (∀ c ∈ twoDown, c.Typed) ∧ drive (seqMerger true) none twoDown = none := by
  refine ⟨?_, ?_, by decide +kernel⟩
  · simp [twoDown, mmm, Temps, Stmt.Temps, Expr.Temps, Stmt.after]
  · simp [twoDown, mmm, Stmt.Typed, Expr.Typed, Expr.type]

/-- Five products stored downwards. -/
def fiveDown : Prog :=
  ⟨.assign (.memory 5 .scalar) (.mul (.transcript 0 .scalar) (.transcript 1 .scalar) .scalar) :: (List.range 5).map fun i => mmm (4 - i, 5, 5),
    [.memory 0 .scalar], 6, 0⟩

/-- Without them the generated loop has a stride of `2 ^ 64 - 1` and the contract reverts. -/
theorem C47_false : ∃ p : Prog, ∃ q, Temps none p.stmts ∧ (∀ e ∈ p.finals, e.Temps none) ∧ (∀ c ∈ p.stmts, c.Typed) ∧ SmallMMM p.stmts ∧
    drive (seqMerger false) none p.stmts = some q ∧ ∃ c, p.run c = some [.s 36] ∧ { p with stmts := q }.run c = none := by
  refine ⟨fiveDown, [.assign (.memory 5 .scalar) (.mul (.transcript 0 .scalar) (.transcript 1 .scalar) .scalar), .mulLoop (4, 5, 5) (2 ^ 64 - 1, 0, 0) 5 .scalar],
    ?_, ?_, ?_, ⟨by decide, ?_⟩, by decide +kernel, ⟨thirdWord, [2, 3], []⟩, rfl, ?_⟩
  · simp [fiveDown, List.range_succ, mmm, Temps, Stmt.Temps, Expr.Temps, Stmt.after]
  · simp [fiveDown, Expr.Temps]
  · simp [fiveDown, mmm, Stmt.Typed, Expr.Typed, Expr.type]
  · rintro ⟨l, a, b⟩ h
    simp [fiveDown, mmm] at h
    dsimp only
    omega
  · rfl

/-! Example: six products with the strides 1, 1 and 0, then another statement. -/

def sixUp : List Stmt := (List.range 6).map (fun i => mmm (10 + i, i, 6)) ++ [.updateHash (.transcript 0 .scalar) 0]

example : drive (seqMerger true) none sixUp = some [.mulLoop (10, 0, 6) (1, 1, 0) 6 .scalar, .updateHash (.transcript 0 .scalar) 0] := by
  decide +kernel

example : Temps none sixUp ∧ (∀ c ∈ sixUp, c.Typed) ∧ SmallMMM sixUp := by
  refine ⟨?_, ?_, by decide, ?_⟩
  · simp [sixUp, List.range_succ, mmm, Temps, Stmt.Temps, Expr.Temps, Stmt.after]
  · simp [sixUp, List.range_succ, mmm, Stmt.Typed, Expr.Typed, Expr.type]
  · rintro ⟨l, a, b⟩ h
    simp [sixUp, List.range_succ, mmm] at h
    dsimp only
    omega

example : NoDescent sixUp := by
  rintro pre offs rest start z h h5 hp
  rcases offs with _ | ⟨x0, _ | ⟨x1, offs⟩⟩
  · simp at h5
  · simp at h5
  obtain ⟨a1, a2, a3⟩ := hp 0 x0 rfl
  obtain ⟨b1, b2, b3⟩ := hp 1 x1 rfl
  obtain ⟨l0, m0, n0⟩ := x0
  obtain ⟨l1, m1, n1⟩ := x1
  have hlen := congrArg List.length h
  simp [sixUp] at hlen h5
  rcases pre with _ | ⟨p, _ | ⟨p', pre⟩⟩
  · simp [sixUp, List.range_succ, mmm] at h
    unfold Ascends
    push_cast at *
    omega
  · simp [sixUp, List.range_succ, mmm] at h
    unfold Ascends
    push_cast at *
    omega
  · simp at hlen
    have : rest = [] ∧ pre = [] ∧ offs.length = 3 := by
      refine ⟨List.length_eq_zero_iff.1 (by omega), List.length_eq_zero_iff.1 (by omega), by omega⟩
    obtain ⟨rfl, rfl, h3⟩ := this
    obtain ⟨y0, y1, y2, rfl⟩ := List.length_eq_three.1 h3
    simp [sixUp, List.range_succ, mmm] at h

end Verif.Sol
