import Verif.Sol.PackProps
import Verif.Sol.PowProps
import Verif.Sol.SeqProps

/-!
# All passes of the code generator

Register allocation yields programs in which a temporary is read by the next statement only. On such programs the passes of `aggregate`
keep the results, one after the other: what each of them needs is not disturbed by the passes before it.
-/

namespace Verif.Sol

/-! ### What allocation yields -/

theorem Expr.typed_substitute (ρ : ℕ → Option ℕ) {e : Expr} (h : e.Typed) : (e.substitute ρ).Typed := by
  have ht : ∀ e : Expr, (Expr.map (Expr.substLeaf ρ) e).type = e.type := type_substitute ρ
  unfold Expr.substitute
  induction e with
  | add l r t ihl ihr | sub l r t ihl ihr => exact ⟨⟨(ht l).trans h.1.1, (ht r).trans h.1.2⟩, ihl h.2.1, ihr h.2.2⟩
  | mul l r t ihl ihr => exact ⟨⟨(ht l).trans h.1.1, (ht r).trans h.1.2⟩, ihl h.2.1, ihr h.2.2⟩
  | div l r t ihl ihr => exact ⟨⟨h.1.1, (ht l).trans h.1.2.1, (ht r).trans h.1.2.2⟩, ihl h.2.1, ihr h.2.2⟩
  | mulAdd l r c t ihl ihr ihc => exact ⟨⟨(ht l).trans h.1.1, (ht r).trans h.1.2.1, (ht c).trans h.1.2.2⟩, ihl h.2.1, ihr h.2.2.1, ihc h.2.2.2⟩
  | pow b n t ih => exact ⟨⟨h.1.1, (ht b).trans h.1.2⟩, ih h.2⟩
  | memory o t =>
    simp only [Expr.map, Expr.substLeaf]
    split
    · split <;> trivial
    · trivial
  | _ => exact h

theorem Stmt.typed_ren (ρ : ℕ → Option ℕ) {c : Stmt} (h : c.Typed) : (c.ren ρ).Typed := by
  cases c with
  | assign l r => exact ⟨(type_substitute ρ l).trans (h.1.trans (type_substitute ρ r).symm), Expr.typed_substitute ρ h.2⟩
  | updateHash e off => exact Expr.typed_substitute ρ h
  | _ => trivial

theorem Expr.temps_substitute {ρ : ℕ → Option ℕ} {cur : Option Ty} {e : Expr}
    (hpl : ∀ x ∈ e.leaves, (∀ t, x ≠ .temp t) ∧ (∀ a b t, x ≠ .mulAddPM a b t) ∧ (∀ a b, x ≠ .mulAddMT a b))
    (h : ∀ o t, .memory o t ∈ e.leaves → ρ o = some Expr.deadbeaf → cur = some t) : (e.substitute ρ).Temps cur := by
  unfold Expr.substitute
  induction e with
  | add l r t ihl ihr | sub l r t ihl ihr | mul l r t ihl ihr | div l r t ihl ihr =>
    simp only [Expr.leaves, List.mem_append] at hpl h
    exact ⟨ihl (fun x hx => hpl x (.inl hx)) fun o t hm => h o t (.inl hm), ihr (fun x hx => hpl x (.inr hx)) fun o t hm => h o t (.inr hm)⟩
  | mulAdd l r c t ihl ihr ihc =>
    simp only [Expr.leaves, List.mem_append] at hpl h
    exact ⟨ihl (fun x hx => hpl x (.inl (.inl hx))) fun o t hm => h o t (.inl (.inl hm)),
      ihr (fun x hx => hpl x (.inl (.inr hx))) fun o t hm => h o t (.inl (.inr hm)), ihc (fun x hx => hpl x (.inr hx)) fun o t hm => h o t (.inr hm)⟩
  | pow b n t ih => exact ih hpl h
  | memory o t =>
    simp only [Expr.map, Expr.substLeaf]
    split
    · next v hv =>
      split
      · next he =>
        subst he
        exact h o t (by simp [Expr.leaves]) hv
      · trivial
    · trivial
  | temp t => exact absurd rfl ((hpl _ (by simp [Expr.leaves])).1 t)
  | mulAddPM a b t => exact absurd rfl ((hpl _ (by simp [Expr.leaves])).2.1 a b t)
  | mulAddMT a b => exact absurd rfl ((hpl _ (by simp [Expr.leaves])).2.2 a b)
  | _ => trivial

theorem allocate_form {ord : List Interval → List Interval} (hord : ∀ l, (ord l).Perm l) {p : Prog} (hp : p.Recorded) (hs : p.size ≤ Expr.deadbeaf) {q : Prog}
    (hq : allocate ord p = some q) (hty : ∀ c ∈ p.stmts, c.Typed) :
    Temps none q.stmts ∧ (∀ e ∈ q.finals, e.Temps none) ∧ ∀ c ∈ q.stmts, c.Typed := by
  obtain ⟨v, h1, h2⟩ := plan_of_recorded hp
  obtain ⟨s, done, h3, h4, h5, h6, h7, h8⟩ := linearScan_ok hord h2 hs
  simp only [allocate, h1, h3, Option.bind_eq_bind, Option.bind_some, Option.pure_def, Option.some.injEq] at hq
  subst hq
  obtain ⟨v', g1, g2, -⟩ := buildIntervals_ok hp
  rw [h1] at g1
  obtain rfl := Option.some.inj g1
  have hstarts : ∀ x ∈ done, ∃ r, p.stmts[x.1.start]? = some (.assign (.memory x.1.expr x.1.t) r) := by
    intro x hx
    have hx' : x.1 ∈ v.intervals := h4 ▸ List.mem_map_of_mem hx
    have := starts_of_recorded 0 hp x.1.key (g2 ▸ List.mem_map_of_mem hx')
    simpa [Interval.key] using this.2
  rw [← h4] at h2
  -- a read of a temporary
  have hread : ∀ k o t, (∃ i ∈ done.map (·.1), i.expr = o ∧ i.t = t ∧ i.start < k ∧ k ≤ i.finish) → lookupOf done o = some Expr.deadbeaf →
      ∃ r, 0 < k ∧ (p.stmts[k - 1]?).map (Stmt.ren (lookupOf done)) = some (.assign (.temp t) r) ∧ ∃ i ∈ done.map (·.1), i.expr = o ∧ i.finish = k := by
    rintro k o t ⟨i, hi, rfl, rfl, a1, a2⟩ hl
    obtain ⟨x, hx, rfl⟩ := List.mem_map.1 hi
    rw [lookup_placed h2 hx] at hl
    have hd := Option.some.inj hl
    rcases h8 x hx with ⟨-, hf⟩ | ⟨hne, -⟩
    · obtain ⟨r, hr⟩ := hstarts x hx
      have hk : x.1.start = k - 1 := by omega
      refine ⟨r.substitute (lookupOf done), by omega, ?_, x.1, hi, rfl, by omega⟩
      rw [← hk, hr]
      simp only [Option.map_some, Stmt.ren, Expr.substitute, Expr.map, Expr.substLeaf, lookup_placed h2 hx, if_pos hd]
    · exact absurd hd hne
  have hsteps : ∀ (cs pre : List Stmt), p.stmts = pre ++ cs → Temps (after none (pre.map (Stmt.ren (lookupOf done)))) (cs.map (Stmt.ren (lookupOf done))) := by
    intro cs
    induction cs with
    | nil => intro pre _; trivial
    | cons c cs ih =>
      intro pre he
      have hc : p.stmts[pre.length]? = some c := by simp [he]
      have hm : c ∈ p.stmts := by simp [he]
      have hcur : ∀ o t, .memory o t ∈ c.reads → lookupOf done o = some Expr.deadbeaf → after none (pre.map (Stmt.ren (lookupOf done))) = some t := by
        intro o t ho hl
        obtain ⟨r, b1, b2, -⟩ := hread _ o t (h2.reads _ c hc o t ho) hl
        rcases List.eq_nil_or_concat pre with rfl | ⟨init, x, rfl⟩
        · simp at b1
        · have : p.stmts[(init.concat x).length - 1]? = some x := by simp [he]
          rw [this] at b2
          have b2 := Option.some.inj b2
          rw [List.concat_eq_append, List.map_append, after_append]
          show (Stmt.ren (lookupOf done) x).after = some t
          rw [b2]
          rfl
      refine ⟨?_, ?_⟩
      · rcases h2.shape c hm with ⟨o, t, r, rfl⟩ | ⟨e, off, rfl⟩
        · exact Expr.temps_substitute (h2.plain _ hm) hcur
        · exact Expr.temps_substitute (h2.plain _ hm) hcur
      · have := ih (pre ++ [c]) (by simp [he])
        rwa [List.map_append, after_append] at this
  refine ⟨?_, ?_, ?_⟩
  · show Temps none s.stmts
    rw [h5]
    exact hsteps p.stmts [] rfl
  · intro e he
    have he : e ∈ s.finals := he
    rw [h6] at he
    obtain ⟨e, he', rfl⟩ := List.mem_map.1 he
    refine Expr.temps_substitute (h2.plainFinals e he') fun o t ho hl => ?_
    obtain ⟨i, hi, rfl, rfl, a1, a2⟩ := h2.readsFinals e he' o t ho
    obtain ⟨x, hx, rfl⟩ := List.mem_map.1 hi
    rw [lookup_placed h2 hx] at hl
    rcases h8 x hx with ⟨-, hf⟩ | ⟨hne, -⟩
    · omega
    · exact absurd (Option.some.inj hl) hne
  · intro c hc
    have hc : c ∈ s.stmts := hc
    rw [h5] at hc
    obtain ⟨c, hc', rfl⟩ := List.mem_map.1 hc
    exact Stmt.typed_ren _ (hty c hc')

/-! ### What fusing yields -/

theorem combine_typed_stmt {a b c : Stmt} (h : a.combineMulAdd b = some c) (ha : a.Typed) (hb : b.Typed) : c.Typed := by
  unfold Stmt.combineMulAdd at h
  split at h
  · next x l r t y u w t' =>
    obtain ⟨a1, ⟨a2, a3⟩, a4, a5⟩ := ha
    obtain ⟨b1, ⟨b2, b3⟩, b4, b5⟩ := hb
    simp only [Expr.type] at a1 b1
    split at h
    · next hc =>
      obtain ⟨rfl, rfl⟩ := hc
      cases h
      exact ⟨b1, ⟨a3, a2, b3⟩, a5, a4, b5⟩
    · split at h
      · next hc =>
        obtain ⟨rfl, rfl⟩ := hc
        cases h
        exact ⟨b1, ⟨a3, a2, b2⟩, a5, a4, b4⟩
      · cases h
  · cases h

theorem combineGo_typed {v : Live} : ∀ (cs : List Stmt) (i : ℕ) (cand : Option Stmt) (q : List Stmt), combineGo v i cand cs = some q →
    (∀ c ∈ cs, c.Typed) → (∀ c ∈ cand, c.Typed) → ∀ c ∈ q, c.Typed
  | [], i, none, q, h, _, _ => by
    cases h
    simp
  | [], i, some c, q, h, _, hc => by
    cases h
    intro d hd
    rw [List.mem_singleton.1 hd]
    exact hc c rfl
  | s :: ss, i, none, q, h, hs, _ => by
    simp only [combineGo, Option.bind_eq_bind, Option.bind_eq_some_iff] at h
    obtain ⟨able, -, h⟩ := h
    have h1 := hs s (List.mem_cons_self ..)
    have h2 : ∀ c ∈ ss, c.Typed := fun c hc => hs c (List.mem_cons_of_mem _ hc)
    split at h
    · exact combineGo_typed ss _ _ q h h2 (by simpa using h1)
    · simp only [Option.bind_eq_some_iff, Option.pure_def, Option.some.injEq] at h
      obtain ⟨q', hq', rfl⟩ := h
      intro d hd
      rcases List.mem_cons.1 hd with rfl | hd
      · exact h1
      · exact combineGo_typed ss _ _ q' hq' h2 (by simp) d hd
  | s :: ss, i, some c, q, h, hs, hc => by
    simp only [combineGo, Option.bind_eq_bind, Option.bind_eq_some_iff] at h
    obtain ⟨able, -, h⟩ := h
    have h1 := hs s (List.mem_cons_self ..)
    have h2 : ∀ c ∈ ss, c.Typed := fun c hc => hs c (List.mem_cons_of_mem _ hc)
    have h3 := hc c rfl
    split at h
    · next s' hs' =>
      simp only [Option.bind_eq_some_iff, Option.pure_def, Option.some.injEq] at h
      obtain ⟨q', hq', rfl⟩ := h
      intro d hd
      rcases List.mem_cons.1 hd with rfl | hd
      · exact combine_typed_stmt hs' h3 h1
      · exact combineGo_typed ss _ _ q' hq' h2 (by simp) d hd
    · split at h
      · simp only [Option.bind_eq_some_iff, Option.pure_def, Option.some.injEq] at h
        obtain ⟨q', hq', rfl⟩ := h
        intro d hd
        rcases List.mem_cons.1 hd with rfl | hd
        · exact h3
        · exact combineGo_typed ss _ _ q' hq' h2 (by simpa using h1) d hd
      · simp only [Option.bind_eq_some_iff, Option.pure_def, Option.some.injEq] at h
        obtain ⟨q', hq', rfl⟩ := h
        intro d hd
        rcases List.mem_cons.1 hd with rfl | hd
        · exact h3
        · rcases List.mem_cons.1 hd with rfl | hd
          · exact h1
          · exact combineGo_typed ss _ _ q' hq' h2 (by simp) d hd

/-! ### The passes together -/

/-- What has to hold of the program for `aggregate` to keep its results. -/
structure Mergeable (checks : Bool) (stmts : List Stmt) : Prop where
  lonely : NoLonelyPoint stmts
  offsets : SmallOffsets stmts
  pm : SmallPM stmts
  mt : SmallMT stmts
  bases : PlainBases stmts
  powers : NoInterruptedPower stmts
  short : checks = true ∨ ShortPowers stmts
  seq : checks = true ∨ (SmallMMM stmts ∧ NoDescent stmts)

/-- What the passes for powers and products need. -/
structure PowSeq (checks : Bool) (stmts : List Stmt) : Prop where
  typed : ∀ c ∈ stmts, c.Typed
  bases : PlainBases stmts
  powers : NoInterruptedPower stmts
  short : checks = true ∨ ShortPowers stmts
  seq : checks = true ∨ (SmallMMM stmts ∧ NoDescent stmts)

/-- Scalar products. -/
def Stmt.IsMul (c : Stmt) : Prop := ∃ l x y, c = .assign l (.mul x y .scalar)

theorem PowerRun.isMul {run : List Stmt} {a : Expr} (h : PowerRun run a) : ∀ c ∈ run, c.IsMul := by
  obtain ⟨tail, rfl, h⟩ := h
  intro c hc
  rcases List.mem_cons.1 hc with rfl | hc
  · exact ⟨_, _, _, rfl⟩
  · obtain ⟨x, y, -, rfl⟩ := h c hc
    exact ⟨_, _, _, rfl⟩

theorem mmm_isMul (x : ℕ × ℕ × ℕ) : (mmm x).IsMul := ⟨_, _, _, rfl⟩

theorem seq_thin {checks : Bool} {P Q : Stmt → Prop} {a b : List Stmt} (h : Thin P Q a b) (hQ : ∀ x, ¬ Q (mmm x))
    (hs : checks = true ∨ (SmallMMM a ∧ NoDescent a)) : checks = true ∨ (SmallMMM b ∧ NoDescent b) := by
  refine hs.imp_right fun ⟨⟨h1, h2⟩, h3⟩ => ⟨⟨h.length_le.trans_lt h1, fun x hx => h2 x ((h.mem _ hx).resolve_right (hQ x))⟩, ?_⟩
  intro pre offs rest start z he h5 hp
  subst he
  obtain ⟨x0, z0, rfl, -, -⟩ := h.middle fun c hc => by
    obtain ⟨x, -, rfl⟩ := List.mem_map.1 hc
    exact hQ x
  exact h3 x0 offs z0 start z rfl h5 hp

theorem PowSeq.thin {checks : Bool} {P Q : Stmt → Prop} {a b : List Stmt} (h : Thin P Q a b) (hP : ∀ c : Stmt, c.IsMul → ¬ P c)
    (hQ : ∀ c : Stmt, c.IsMul → ¬ Q c) (hQt : ∀ c, Q c → c.Typed) (hs : PowSeq checks a) : PowSeq checks b := by
  refine ⟨?_, ?_, ?_, hs.short.imp_right ?_, seq_thin h (fun x => hQ _ (mmm_isMul x)) hs.seq⟩
  · intro c hc
    rcases h.mem c hc with hc | hc
    · exact hs.typed c hc
    · exact hQt c hc
  · intro a ha
    exact hs.bases a ((h.mem _ ha).resolve_right (hQ _ ⟨_, _, _, rfl⟩))
  · intro pre run a' l x y rest he hr hl hf
    subst he
    have he : pre ++ run ++ .assign l (.mul x y .scalar) :: rest = pre ++ (run ++ [.assign l (.mul x y .scalar)]) ++ rest := by simp
    rw [he] at h
    obtain ⟨x0, z0, rfl, h1, -⟩ := h.middle fun c hc => by
      rcases List.mem_append.1 hc with hc | hc
      · exact hQ c (hr.isMul c hc)
      · rw [List.mem_singleton.1 hc]
        exact hQ _ ⟨_, _, _, rfl⟩
    refine hs.powers x0 run a' l x y z0 (by simp) hr hl fun pre' run' a'' he' hr' => ?_
    obtain ⟨x1, rfl⟩ := h1.suffix he' fun c hc => hP c (hr'.isMul c hc)
    exact hf x1 run' a'' rfl hr'
  · intro hsh pre run a' rest he hr
    subst he
    obtain ⟨x0, z0, rfl, -, -⟩ := h.middle fun c hc => hQ c (hr.isMul c hc)
    exact hsh x0 run a' z0 rfl hr

theorem not_isHash {c : Stmt} (h : c.IsMul) : ¬ c.IsHash := by
  obtain ⟨l, x, y, rfl⟩ := h
  exact id

theorem not_isMulAdd {c : Stmt} (h : c.IsMul) : ¬ c.IsMulAdd := by
  obtain ⟨l, x, y, rfl⟩ := h
  exact id

theorem not_isPM {c : Stmt} (h : c.IsMul) : ¬ c.IsPM := by
  obtain ⟨l, x, y, rfl⟩ := h
  rintro ⟨t, op, h⟩
  simp at h

theorem not_isMT {c : Stmt} (h : c.IsMul) : ¬ c.IsMT := by
  obtain ⟨l, x, y, rfl⟩ := h
  rintro ⟨t, op, h⟩
  simp at h

theorem aggregate_repl {checks : Bool} {p q : Prog} (hty : ∀ c ∈ p.stmts, c.Typed) (h : Mergeable checks p.stmts) (hq : aggregate checks p = some q) :
    q = { p with stmts := q.stmts } ∧ Repl p.stmts q.stmts := by
  simp only [aggregate, Option.bind_eq_bind, Option.bind_eq_some_iff, Option.pure_def, Option.some.injEq] at hq
  obtain ⟨s1, e1, s2, e2, s3, e3, s4, e4, s5, e5, rfl⟩ := hq
  refine ⟨rfl, ?_⟩
  have h0 : PowSeq checks p.stmts := ⟨hty, h.bases, h.powers, h.short, h.seq⟩
  have r1 := (hashMerger_sound h.lonely h.offsets).rep e1
  have h1 := h0.thin r1.thin (fun c hc => not_isHash hc) (fun c hc hd => not_isHash hc hd.1) fun c hc => hc.2
  have pm1 : SmallPM s1 := fun l p t m t' c t'' hm => h.pm l p t m t' c t'' ((r1.thin.mem _ hm).resolve_right fun hd => hd.1)
  have mt1 : SmallMT s1 := fun l m t b c t' t'' hm => h.mt l m t b c t' t'' ((r1.thin.mem _ hm).resolve_right fun hd => hd.1)
  have r2 := (pmMerger_sound h1.typed pm1).rep e2
  have h2 := h1.thin r2.thin (fun c hc => not_isMulAdd hc) (fun c hc => not_isPM hc) fun c hc => by
    obtain ⟨t, op, rfl⟩ := hc
    exact ⟨rfl, rfl, trivial⟩
  have mt2 : SmallMT s2 := fun l m t b c t' t'' hm => mt1 l m t b c t' t'' ((r2.thin.mem _ hm).resolve_right fun hd => by
    obtain ⟨t, op, hd⟩ := hd
    simp at hd)
  have r3 := (mtMerger_sound h2.typed mt2).rep e3
  have h3 := h2.thin r3.thin (fun c hc => not_isMulAdd hc) (fun c hc => not_isMT hc) fun c hc => by
    obtain ⟨t, op, rfl⟩ := hc
    exact ⟨rfl, trivial⟩
  have r4 := (powMerger_sound h3.typed h3.bases h3.powers h3.short).rep e4
  have hseq := seq_thin r4.thin (fun x hx => by
    obtain ⟨⟨l, a, e, he⟩, -⟩ := hx
    simp [mmm] at he) h3.seq
  have ht4 : ∀ c ∈ s4, c.Typed := fun c hc => (r4.thin.mem c hc).elim (h3.typed c) fun hd => hd.2
  have r5 := (seqMerger_sound ht4 hseq).rep e5
  exact r1.repl.trans (r2.repl.trans (r3.repl.trans (r4.repl.trans r5.repl)))

theorem aggregate_total (p : Prog) : ∃ q, aggregate false p = some q := by
  obtain ⟨s1, e1⟩ := Option.isSome_iff_exists.1 (C44_total p.stmts)
  obtain ⟨s2, e2⟩ := pmMerger_total s1
  obtain ⟨s3, e3⟩ := mtMerger_total s2
  obtain ⟨s4, e4⟩ := Option.isSome_iff_exists.1 (C46_total s3)
  obtain ⟨s5, e5⟩ := seqMerger_total s4
  exact ⟨{ p with stmts := s5 }, by simp only [aggregate, e1, e2, e3, e4, e5, Option.bind_eq_bind, Option.bind_some, Option.pure_def]⟩

/-- The generator's pipeline after recording: fusing, allocation, merging. Missing for the full claim: `NoDouble` and `Mergeable`, see
`C43_false` to `C47_false`. -/
theorem C47_pipeline_partial {ord : List Interval → List Interval} (hord : ∀ l, (ord l).Perm l) {p : Prog} (h : p.Recorded) (hty : ∀ c ∈ p.stmts, c.Typed)
    (hs : p.size ≤ Expr.deadbeaf) (hno : NoDouble p.stmts) : ∃ q, memoryOptimize ord p = some q ∧
      (∀ checks r, Mergeable checks q.stmts → aggregate checks q = some r → ∀ c : Call, r.run c = p.run c) ∧ ∃ r, aggregate false q = some r := by
  obtain ⟨q1, h1, h2, h3⟩ := C43_combine_partial h hno
  have hq1 : q1.finals = p.finals ∧ q1.size = p.size ∧ q1.absorbingLength = p.absorbingLength ∧ ∀ c ∈ q1.stmts, c.Typed := by
    simp only [combine, Option.bind_eq_bind, Option.bind_eq_some_iff, Option.pure_def, Option.some.injEq] at h1
    obtain ⟨v, -, st, hst, rfl⟩ := h1
    exact ⟨rfl, rfl, rfl, combineGo_typed _ _ _ _ hst hty (by simp)⟩
  obtain ⟨q, h4, h5⟩ := C42_run hord h2 (hq1.2.1 ▸ hs)
  obtain ⟨g1, g2, g3⟩ := allocate_form hord h2 (hq1.2.1 ▸ hs) h4 hq1.2.2.2
  refine ⟨q, ?_, fun checks r hm hr c => ?_, aggregate_total q⟩
  · simp only [combine, allocate, Option.bind_eq_bind, Option.bind_eq_some_iff, Option.pure_def, Option.some.injEq] at h1 h4
    obtain ⟨v, hv, st, hst, rfl⟩ := h1
    obtain ⟨w, hw, sc, hsc, rfl⟩ := h4
    dsimp only at hw hsc
    simp only [memoryOptimize, hv, hst, hw, hsc, Option.bind_eq_bind, Option.bind_some, Option.pure_def]
  · obtain ⟨e, hr'⟩ := aggregate_repl g3 hm hr
    rw [e, hr'.run g1 g2 c, h5 c, h3 c]

/-! Example: a fifth power, and two points that are absorbed. -/

def recFifth : Prog :=
  ⟨[.assign (.memory 0 .scalar) (.mul (.transcript 0 .scalar) (.transcript 0 .scalar) .scalar),
    .assign (.memory 1 .scalar) (.mul (.memory 0 .scalar) (.memory 0 .scalar) .scalar),
    .assign (.memory 2 .scalar) (.mul (.memory 1 .scalar) (.transcript 0 .scalar) .scalar),
    .updateHash (.transcript 1 .point) 0, .updateHash (.transcript 3 .point) 3], [.memory 2 .scalar], 3, 8⟩

def optFifth : Prog :=
  ⟨[sqStmt (.transcript 0 .scalar), sqStmt (.temp .scalar),
    .assign (.memory 0 .scalar) (.mul (.temp .scalar) (.transcript 0 .scalar) .scalar),
    .updateHash (.transcript 1 .point) 0, .updateHash (.transcript 3 .point) 3], [.memory 0 .scalar], 2, 8⟩

example : recFifth.Recorded ∧ (∀ c ∈ recFifth.stmts, c.Typed) ∧ recFifth.size ≤ Expr.deadbeaf ∧ NoDouble recFifth.stmts := by
  refine ⟨?_, ?_, by decide, ?_⟩
  · simp [recFifth, Prog.Recorded, RecordedFrom, Expr.Known, Expr.leaves, Expr.type, Ty.len]
  · simp [recFifth, Stmt.Typed, Expr.Typed, Expr.type]
  · intro k x l r t y a b t' h1 h2
    have h3 := List.mem_of_getElem? h2
    simp [recFifth] at h3

example : memoryOptimize id recFifth = some optFifth := by decide +kernel

example : aggregate true optFifth = some ⟨[.assign (.memory 0 .scalar) (.pow (.transcript 0 .scalar) 5 .scalar),
    .loop 1 3 2 0 3 .point], [.memory 0 .scalar], 2, 8⟩ := by decide +kernel

theorem optFifth_mergeable : Mergeable false optFifth.stmts := by
  have hpow : ∀ pre run a rest, optFifth.stmts = pre ++ run ++ rest → PowerRun run a → run.length ≤ 3 := by
    rintro pre run a rest h ⟨tail, rfl, ht⟩
    by_contra hl
    have hlen := congrArg List.length h
    simp [optFifth] at hlen hl
    have hm : Stmt.updateHash (.transcript 1 .point) 0 ∈ sqStmt a :: tail := by
      rcases pre with _ | ⟨p, _ | ⟨p', pre⟩⟩
      · rcases tail with _ | ⟨b, _ | ⟨b', _ | ⟨b'', tail⟩⟩⟩ <;> simp [optFifth] at h hl ⊢
        simp [h.2.2.2.1]
      · rcases tail with _ | ⟨b, _ | ⟨b', _ | ⟨b'', tail⟩⟩⟩ <;> simp [optFifth] at h hl ⊢
        simp [h.2.2.2.1]
      · simp at hlen
        omega
    obtain ⟨l, x, y, h⟩ := PowerRun.isMul ⟨tail, rfl, ht⟩ _ hm
    cases h
  refine ⟨?_, ?_, ?_, ?_, ?_, ?_, .inr ?_, .inr ⟨⟨by decide, ?_⟩, ?_⟩⟩
  · intro pre o off rest h
    rcases pre with _ | ⟨p1, _ | ⟨p2, _ | ⟨p3, _ | ⟨p4, _ | ⟨p5, pre⟩⟩⟩⟩⟩ <;> simp [optFifth, sqStmt] at h
    · obtain ⟨-, -, -, ⟨rfl, rfl⟩, rfl⟩ := h
      exact .inr ⟨[], rfl⟩
    · obtain ⟨rfl, rfl, rfl, rfl, ⟨rfl, rfl⟩, rfl⟩ := h
      exact .inl ⟨[_, _, _], 1, 0, rfl, rfl, rfl⟩
  · intro o t off h
    simp [optFifth, sqStmt] at h
    omega
  · intro l p t m t' c t'' h
    simp [optFifth, sqStmt] at h
  · intro l p t m t' c t'' h
    simp [optFifth, sqStmt] at h
  · intro a ha
    simp only [optFifth, sqStmt, List.mem_cons, Stmt.assign.injEq, Expr.mul.injEq, true_and, and_true, List.not_mem_nil, or_false, reduceCtorEq, false_and] at ha
    rcases ha with ⟨rfl, -⟩ | ⟨rfl, -⟩
    · exact .inr fun _ => trivial
    · exact .inl rfl
  · rintro pre run a l x y rest h ⟨tail, rfl, ht⟩ h2 hf
    rcases pre with _ | ⟨p, _ | ⟨p', pre⟩⟩
    · rcases tail with _ | ⟨b, _ | ⟨b', _ | ⟨b'', tail⟩⟩⟩
      · simp at h2
      · simp [optFifth, sqStmt] at h
        obtain ⟨⟨rfl, -⟩, rfl, ⟨rfl, rfl, rfl⟩, -⟩ := h
        exact .inr ⟨by simp, .inl ⟨rfl, rfl⟩⟩
      · simp [optFifth, sqStmt] at h
      · have := hpow [] (sqStmt a :: b :: b' :: b'' :: tail) a _ (by simpa using h) ⟨_, rfl, ht⟩
        simp at this
        omega
    · rcases tail with _ | ⟨b, _ | ⟨b', _ | ⟨b'', tail⟩⟩⟩
      · simp at h2
      · simp [optFifth, sqStmt] at h
      · simp [optFifth, sqStmt] at h
      · have := hpow [p] (sqStmt a :: b :: b' :: b'' :: tail) a _ (by simpa using h) ⟨_, rfl, ht⟩
        simp at this
        omega
    · rcases pre with _ | ⟨d, pre⟩
      · simp [optFifth, sqStmt] at h
      · have hm : sqStmt a ∈ [Stmt.updateHash (.transcript 1 .point) 0, .updateHash (.transcript 3 .point) 3] := by
          have hd : [Stmt.updateHash (.transcript 1 .point) 0, .updateHash (.transcript 3 .point) 3]
              = pre ++ sqStmt a :: tail ++ .assign l (.mul x y .scalar) :: rest := by simpa [optFifth] using congrArg (List.drop 3) h
          rw [hd]
          simp
        simp [sqStmt] at hm
  · intro pre run a rest h hr
    have := hpow pre run a rest h hr
    omega
  · intro x h
    simp [optFifth, sqStmt, mmm] at h
  · intro pre offs rest start z h h5 _
    rcases offs with _ | ⟨x, offs⟩
    · simp at h5
    · have : mmm x ∈ optFifth.stmts := by simp [h]
      simp [optFifth, sqStmt, mmm] at this

end Verif.Sol
