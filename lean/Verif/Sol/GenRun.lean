import Verif.Sol.GenFrame
import Verif.Sol.CombineProps

/-!
# Runs of the generator: C39
-/

namespace Verif.Sol
open Verif.Circuit Verif.Ecc

variable {rate : ℕ}

theorem Gen.bind_some {α β : Type} {x : Gen α} {f : α → Gen β} {k k' : Ctx} {b : β} (h : (x >>= f).1 k = some (b, k')) :
    ∃ a k1, x.1 k = some (a, k1) ∧ (f a).1 k1 = some (b, k') := by
  obtain ⟨r, h1, h2⟩ := Option.bind_eq_some_iff.1 (show (x.1 k).bind (fun r => (f r.1).1 r.2) = some (b, k') from h)
  exact ⟨r.1, r.2, h1, h2⟩

theorem Gen.pure_some {α : Type} {a b : α} {k k' : Ctx} (h : (Pure.pure a : Gen α).1 k = some (b, k')) : b = a ∧ k' = k := by
  cases h
  exact ⟨rfl, rfl⟩

/-! ### The parts of a run -/

theorem tabM_const {ps : Fin rate → N} : ∀ {k k' : Ctx} {a : Fin rate → SVal},
    (show Gen _ from Api.tabM genChip fun i => genChip.assignConst (ps i)).1 k = some (a, k') → k' = k := by
  induction rate with
  | zero =>
    intro k k' a h
    exact (Gen.pure_some h).2
  | succ n ih =>
    intro k k' a h
    obtain ⟨b, k1, h1, h2⟩ := Gen.bind_some h
    obtain ⟨c, k2, h3, h4⟩ := Gen.bind_some h2
    rw [(Gen.pure_some h4).2, ih h3, (Gen.pure_some h1).2]

theorem spongeNew_some {ps : Api.PoseidonSpec N rate} {k k' : Ctx} {a : Api.Sponge SVal rate}
    (h : (show Gen (Api.Sponge SVal rate) from Api.spongeNew genChip ps).1 k = some (a, k')) : k' = k := by
  obtain ⟨b, k1, h1, h2⟩ := Gen.bind_some h
  rw [(Gen.pure_some h2).2, tabM_const h1]

theorem setInstance_some {b : Bool} {k k' : Ctx} {a : Unit} (h : (Gen.setInstance b).1 k = some (a, k')) : k' = { k with inInstance := b } := by
  have h' : (if k.mock then none else some ((), _)) = some (a, k') := h
  split at h' <;> cases h'
  rfl

/-- The assigned instances are the instances of the call, in order. -/
structure Assigned (as : List SVal) (k k' : Ctx) : Prop where
  exprs : as.map SVal.expr = (List.range as.length).map fun i => .inst (k.inst + i) .scalar
  ctx : k' = { k with inst := k.inst + as.length }

theorem Assigned.append {as bs : List SVal} {k k1 k' : Ctx} (ha : Assigned as k k1) (hb : Assigned bs k1 k') : Assigned (as ++ bs) k k' := by
  obtain ⟨h1, rfl⟩ := ha
  obtain ⟨h2, rfl⟩ := hb
  constructor
  · rw [List.map_append, h1, h2, List.length_append, List.range_add, List.map_append, List.map_map]
    congr 1
    apply List.map_congr_left
    intro i _
    show Expr.inst (k.inst + as.length + i) .scalar = .inst (k.inst + (as.length + i)) .scalar
    rw [Nat.add_assoc]
  · rw [List.length_append, ← Nat.add_assoc]

theorem mapM'_assigned {α β : Type} {f : α → Gen β} {flat : β → List SVal} (hf : ∀ a k k' b, (f a).1 k = some (b, k') → k.inInstance = true → Assigned (flat b) k k') :
    ∀ {l : List α} {k k' : Ctx} {bs : List β}, (show Gen _ from Api.mapM' genChip f l).1 k = some (bs, k') → k.inInstance = true →
      Assigned (bs.flatMap flat) k k'
  | [], k, k', bs, h, _ => by
    obtain ⟨rfl, rfl⟩ := Gen.pure_some h
    exact ⟨rfl, rfl⟩
  | a :: l, k, k', bs, h, hi => by
    obtain ⟨b, k1, h1, h2⟩ := Gen.bind_some h
    obtain ⟨bs', k2, h3, h4⟩ := Gen.bind_some h2
    obtain ⟨rfl, rfl⟩ := Gen.pure_some h4
    have g1 := hf a k k1 b h1 hi
    have g2 := mapM'_assigned hf h3 (by rw [g1.ctx]; exact hi)
    exact g1.append g2

theorem assignColumn_some {vk : Api.VK N Pt} {col : List N} {k k' : Ctx} {as : List SVal}
    (h : (show Gen _ from Api.assignColumn (c := genChip) vk col).1 k = some (as, k')) (hi : k.inInstance = true) : Assigned as k k' := by
  unfold Api.assignColumn at h
  split at h
  · have := mapM'_assigned (f := Gen.scalarVar) (flat := fun a => [a]) (fun a k k' b hb hi => by
      obtain ⟨-, -, e⟩ := Gen.scalarVar_some hb
      rw [if_pos hi] at e
      obtain ⟨e1, e2⟩ := Prod.mk.inj e
      exact ⟨by rw [List.map_singleton, e1]; rfl, e2⟩) h hi
    rwa [List.flatMap_singleton'] at this
  · cases h

theorem Assigned.inv {as : List SVal} {k k' : Ctx} (h : Assigned as k k') (hi : k.Inv) : k'.Inv := by
  rw [h.ctx]
  exact ⟨hi.placed, hi.typed, hi.flat⟩

theorem assignInstanceCommitment_some {vk : Api.VK N Pt} {instances : List (List (List N))} {k k' : Ctx} {r : List SVal × List (List PVal)}
    (h : (show Gen _ from Api.assignInstanceCommitment (c := genChip) vk instances).1 k = some (r, k')) (hi : k.inInstance = true)
    (hm : k.mock = false) (hinv : k.Inv) : ∃ k1, Assigned r.1 k k1 ∧ k1.Same k' ∧ k'.Inv := by
  unfold Api.assignInstanceCommitment at h
  split at h
  · obtain ⟨as, k1, h1, h2⟩ := Gen.bind_some h
    obtain ⟨cs, k2, h3, h4⟩ := Gen.bind_some h2
    obtain ⟨rfl, rfl⟩ := Gen.pure_some h4
    have g1 := mapM'_assigned (flat := List.flatten) (fun a k k' b hb hi => by
      have := mapM'_assigned (flat := id) (fun a k k' b hb hi => assignColumn_some hb hi) hb hi
      rwa [List.flatMap_id] at this) h1 hi
    have g2 : Assigned as.flatten.flatten k k1 := by
      have e : ∀ l : List (List (List genChip.S)), l.flatMap List.flatten = l.flatten.flatten := by
        intro l
        induction l with
        | nil => rfl
        | cons a l ih => rw [List.flatMap_cons, ih, List.flatten_cons, List.flatten_append]
      exact (e as) ▸ g1
    have hS := Api.Frame.mapM' (X := sameRules.frame) (Q := fun _ => True) (l := as) (f := Api.mapM' genChip (Api.columnCommitment vk)) fun cols _ =>
      sameRules.frame.mono (Api.Frame.mapM' fun col _ => Api.Frame.columnCommitment vk fun s _ => trivial) fun _ _ => trivial
    obtain ⟨g3, g4, -⟩ := hS k1 cs _ h3 (by rw [g2.ctx]; exact hm) (g2.inv hinv)
    exact ⟨k1, g2, g4, g3⟩
  · cases h

theorem assignInstanceCommitment_order {cs0 : List Stmt} (vk : Api.VK N Pt) (instances : List (List (List N))) :
    OEns cs0 (Api.assignInstanceCommitment (c := genChip) vk instances : Gen _) fun r => ∀ l ∈ r.2, ∀ p ∈ l, (PVal.expr p).Known (defsOf cs0) := by
  let X := (orderRules cs0).frame
  unfold Api.assignInstanceCommitment
  split
  · refine OEns.bind (Api.Frame.mapM' (X := X) (Q := fun cols => ∀ col ∈ cols, ∀ s ∈ col, X.sg s) fun a _ => Api.Frame.mapM' fun col _ => ?_) fun as has =>
      OEns.bind (Api.Frame.mapM' (X := X) (Q := fun cols => ∀ p ∈ cols, X.pg p) fun a ha => Api.Frame.mapM' fun col hcol =>
        Api.Frame.columnCommitment vk (has a ha col hcol)) fun cs hcs => (orderRules cs0).pure hcs
    unfold Api.assignColumn
    split
    · exact Api.Frame.mapM' fun v _ => OEns.scalarVar v
    · exact X.panic
  · exact X.panic

/-! ### A run -/

theorem Job.record_order {cs0 : List Stmt} (j : Job rate) : OEns cs0 j.record fun r =>
    r.left.expr.Known (defsOf cs0) ∧ r.right.expr.Known (defsOf cs0) := by
  refine OEns.bind (Q := fun _ => True) (.quiet fun k a k' h => ⟨by rw [spongeNew_some h], trivial⟩) fun sp _ =>
    OEns.bind (Q := fun _ => True) (.quiet fun k a k' h => ⟨by rw [setInstance_some h], trivial⟩) fun _ _ =>
    OEns.bind (assignInstanceCommitment_order j.vk j.instances) fun i hi =>
    OEns.bind (Q := fun _ => True) (.quiet fun k a k' h => ⟨by rw [setInstance_some h], trivial⟩) fun _ _ =>
    OEns.bind ((orderReading cs0 j.K j.ps).verifyNoEval j.d j.vk hi "" _) fun r hr =>
    OEns.bind (Api.Frame.evaluateMultiopen hr.1) fun e he => (orderRules cs0).pure he

/-- What a run leaves behind. -/
structure Job.Ran (j : Job rate) (r : Recording j) (k : Ctx) : Prop where
  run : j.record.1 Ctx.new = some (r, k)
  at' : k.At r.reader.trace
  instances : r.scalars.map SVal.expr = (List.range r.scalars.length).map fun i => .inst i .scalar
  inst : k.inst = r.scalars.length

theorem Job.ran {j : Job rate} {r : Recording j} {k : Ctx} (h : j.record.1 Ctx.new = some (r, k)) : j.Ran r k := by
  have h0 := h
  obtain ⟨sp, k1, h1, h⟩ := Gen.bind_some h
  obtain ⟨u, k2, h2, h⟩ := Gen.bind_some h
  obtain ⟨i, k3, h3, h⟩ := Gen.bind_some h
  obtain ⟨u', k4, h4, h⟩ := Gen.bind_some h
  obtain ⟨v, k5, h5, h⟩ := Gen.bind_some h
  obtain ⟨e, k6, h6, h⟩ := Gen.bind_some h
  obtain ⟨rfl, rfl⟩ := Gen.pure_some h
  obtain rfl := spongeNew_some h1
  obtain rfl := setInstance_some h2
  obtain ⟨k3', g1, g2, g3⟩ := assignInstanceCommitment_some h3 rfl rfl ⟨.nil, (fun c hc => by cases hc), fun c hc => by cases hc⟩
  obtain rfl := setInstance_some h4
  have hm3 : k3.mock = false := (((Api.assignInstanceCommitment (c := genChip) j.vk j.instances : Gen _)).2 _ _ _ h3).mock
  have hat : Ctx.At { k3 with inInstance := false } [] := by
    refine ⟨hm3, ⟨g3.placed, g3.typed, g3.flat⟩, rfl, ?_⟩
    have e1 := g2.hash
    have e2 := g2.absorbing
    have e3 := g2.maxAbsorbing
    have e4 := g2.transcript
    rw [g1.ctx] at e1 e2 e3 e4
    dsimp only at e1 e2 e3 e4 ⊢
    rw [e1, e2, e3, e4]
    exact .nil
  obtain ⟨⟨g4, g8⟩, g5⟩ := (linkReading j.K j.ps).verifyNoEval j.d j.vk (ics := i.2) (fun _ _ _ _ => trivial) "" _ _ _ _ h5 hat
  obtain ⟨g6, g7, -⟩ := Api.Frame.evaluateMultiopen (X := sameRules.frame) g5.1 _ _ _ h6 g4.mock g4.inv
  refine ⟨h0, g4.same (((Api.evaluateMultiopen genChip v.1.1 : Gen _)).2 _ _ _ h6).mock g6 g7, ?_, ?_⟩
  · have := g1.exprs
    simpa [Ctx.new] using this
  · have e := g2.inst
    rw [g1.ctx] at e
    rw [g7.inst, g8]
    simpa [Ctx.new] using e

theorem RecordedFrom.lower {finals : List Expr} {size : ℕ} : ∀ {cs : List Stmt} {defs : List (ℕ × Ty)} {m m' : ℕ}, m ≤ m' →
    RecordedFrom finals size defs m' cs → RecordedFrom finals size defs m cs
  | [], _, _, _, h, hr => ⟨hr.1, h.trans hr.2⟩
  | .assign (.memory _ _) _ :: _, _, _, _, h, hr => ⟨⟨h.trans hr.1.1, hr.1.2⟩, hr.2⟩
  | .updateHash _ _ :: _, _, _, _, h, hr => ⟨hr.1, hr.2.lower h⟩
  | .assign (.transcript _ _) _ :: _, _, _, _, _, hr | .assign (.inst _ _) _ :: _, _, _, _, _, hr | .assign (.tmpBuf _ _) _ :: _, _, _, _, _, hr
  | .assign (.point _ _) _ :: _, _, _, _, _, hr | .assign (.scalar _) _ :: _, _, _, _, _, hr | .assign (.add _ _ _) _ :: _, _, _, _, _, hr
  | .assign (.sub _ _ _) _ :: _, _, _, _, _, hr | .assign (.mul _ _ _) _ :: _, _, _, _, _, hr | .assign (.div _ _ _) _ :: _, _, _, _, _, hr
  | .assign (.mulAdd _ _ _ _) _ :: _, _, _, _, _, hr | .assign (.mulAddPM _ _ _) _ :: _, _, _, _, _, hr
  | .assign (.mulAddMT _ _) _ :: _, _, _, _, _, hr | .assign (.pow _ _ _) _ :: _, _, _, _, _, hr | .assign (.hash _) _ :: _, _, _, _, _, hr
  | .assign (.temp _) _ :: _, _, _, _, _, hr | .loop .. :: _, _, _, _, _, hr | .mulLoop .. :: _, _, _, _, _, hr => hr.elim

theorem Written.recorded {finals : List Expr} {size : ℕ} {cs : List Stmt} {m : ℕ} (h : Written cs m) :
    ∀ {post : List Stmt}, (∀ pre, Cross pre (cs ++ post)) → RecordedFrom finals size (defsOf cs) m post → RecordedFrom finals size [] 0 (cs ++ post) := by
  induction h with
  | nil => exact fun _ hr => hr
  | gap _ hm ih => exact fun hc hr => ih hc (hr.lower hm)
  | @assign cs m r _ ih =>
    intro post hc hr
    have e : cs ++ [.assign (.memory m r.type) r] ++ post = cs ++ .assign (.memory m r.type) r :: post := by simp
    rw [e] at hc ⊢
    refine ih hc ⟨⟨le_rfl, rfl⟩, hc cs _ _ rfl, ?_⟩
    have : defsOf (cs ++ [.assign (.memory m r.type) r]) = (m, r.type) :: defsOf cs := by simp [defsOf]
    rwa [this] at hr
  | @hash cs m e off _ ih =>
    intro post hc hr
    have he : cs ++ [.updateHash e off] ++ post = cs ++ .updateHash e off :: post := by simp
    rw [he] at hc ⊢
    refine ih hc ⟨hc cs _ _ rfl, ?_⟩
    have : defsOf (cs ++ [.updateHash e off]) = defsOf cs := by simp [defsOf]
    rwa [this] at hr

/-- A context whose statements only read what was assigned before is a recorded program. -/
theorem Ctx.Inv.recorded {k : Ctx} (h : k.Inv) (hc : ∀ pre, Cross pre k.stmts) {finals : List Expr} (hf : ∀ e ∈ finals, e.Known (defsOf k.stmts)) (len : ℕ) :
    (⟨k.stmts, finals, k.memory, len⟩ : Prog).Recorded := by
  have := h.placed.recorded (finals := finals) (size := k.memory) (post := []) (by rwa [List.append_nil]) ⟨hf, le_rfl⟩
  rwa [List.append_nil] at this

/-- The program of a run is recorded and typed. -/
theorem Job.recorded {j : Job rate} {P : Prog} (h : j.generate = some P) : P.Recorded ∧ ∀ c ∈ P.stmts, c.Typed := by
  obtain ⟨⟨r, k⟩, h1, rfl⟩ := Option.map_eq_some_iff.1 h
  have hr := Job.ran h1
  have ho : ∀ cs0, _ := fun cs0 => j.record_order (cs0 := cs0) Ctx.new r k h1 rfl (fun x hx => by cases hx) .nil
  refine ⟨hr.at'.inv.recorded (fun pre => (ho pre).1) ?_ _, hr.at'.inv.typed⟩
  obtain ⟨h2, h3⟩ := (ho k.stmts).2 List.prefix_rfl
  simp only [List.mem_cons, List.not_mem_nil, or_false, forall_eq_or_imp, forall_eq]
  exact ⟨h2, h3⟩

/-! ### Execution of recorded programs -/

/-- The statements about the hash, with the values their expressions have in the end. -/
noncomputable def replay (E : Env) (s : St) : List Word → List Stmt → Option (List Word)
  | abs, [] => some abs
  | abs, .updateHash e off :: cs => do
    let v ← eval E s e
    let s' ← absorb { s with abs := abs } off e.type v
    replay E s s'.abs cs
  | abs, .assign (.memory o _) (.hash off) :: cs => do
    let r ← squeezeChallenge E.D abs off
    if r.2 = s.m o then replay E s r.1 cs else none
  | _, _ => none

theorem eval_below {E : Env} {s s' : St} {defs : List (ℕ × Ty)} {next : ℕ} (hd : ∀ d ∈ defs, d.1 + d.2.len ≤ next) (hm : ∀ i < next, s'.m i = s.m i)
    {e : Expr} (hk : e.Known defs) : eval E s' e = eval E s e := by
  induction e with
  | add l r t ihl ihr | sub l r t ihl ihr | mul l r t ihl ihr | div l r t ihl ihr =>
    simp only [eval, ihl fun x hx => hk x (List.mem_append_left _ hx), ihr fun x hx => hk x (List.mem_append_right _ hx)]
  | mulAdd l r c t ihl ihr ihc =>
    simp only [eval, ihl fun x hx => hk x (List.mem_append_left _ (List.mem_append_left _ hx)),
      ihr fun x hx => hk x (List.mem_append_left _ (List.mem_append_right _ hx)), ihc fun x hx => hk x (List.mem_append_right _ hx)]
  | pow b e t ih => simp only [eval, ih hk]
  | memory o t =>
    have := hd _ ((hk _ (List.mem_singleton.2 rfl)).1 o t rfl)
    cases t
    · simp only [Ty.len] at this
      simp only [eval, Env.readMem, Env.load, hm o (by omega)]
    · simp only [Ty.len] at this
      simp only [eval, Env.readMem, Env.load, hm o (by omega), hm (o + 1) (by omega)]
  | temp t => exact absurd rfl ((hk _ (List.mem_singleton.2 rfl)).2.1 t)
  | mulAddPM a b t => exact absurd rfl ((hk _ (List.mem_singleton.2 rfl)).2.2.1 a b t)
  | mulAddMT a b => exact absurd rfl ((hk _ (List.mem_singleton.2 rfl)).2.2.2 a b)
  | transcript | inst | tmpBuf | point | scalar | hash => rfl

theorem execAll_recorded {finals : List Expr} {c : Call} {size : ℕ} : ∀ {cs : List Stmt} {defs : List (ℕ × Ty)} {next : ℕ} {s sf : St},
    RecordedFrom finals size defs next cs → (∀ d ∈ defs, d.1 + d.2.len ≤ next) → execAll (c.env size) s cs = some sf →
    (∀ i < next, sf.m i = s.m i) ∧ (∀ x ∈ cs, x.HoldsAt (c.env size) sf) ∧
      replay (c.env size) sf s.abs (cs.filter Stmt.isHash) = some sf.abs
  | [], defs, next, s, sf, hr, hd, h => by
    cases h
    exact ⟨fun _ _ => rfl, by simp, rfl⟩
  | .assign (.memory o t) r :: cs, defs, next, s, sf, hr, hd, h => by
    obtain ⟨⟨ho, ht⟩, hk, hr⟩ := hr
    have hsize := RecordedFrom.next_le hr
    obtain ⟨s1, h1, h2⟩ := Option.bind_eq_some_iff.1 h
    obtain ⟨⟨s0, v⟩, h3, h4⟩ := Option.bind_eq_some_iff.1 h1
    have hp := put_memory (E := c.env size) (s := s0) (o := o) (t := t) (v := v) hsize
    have hrd := read_put hsize h4
    split at hp
    · next hty =>
      obtain ⟨s1', e1, e2, -, -, e5, e6⟩ := hp
      dsimp only at h4
      rw [e1] at h4
      cases h4
      have hd' : ∀ d ∈ (o, t) :: defs, d.1 + d.2.len ≤ o + t.len := by
        intro d hd1
        rcases List.mem_cons.1 hd1 with rfl | hd1
        · exact le_rfl
        · have := hd d hd1
          omega
      obtain ⟨g1, g2, g3⟩ := execAll_recorded hr hd' h2
      have hs0 : s0.m = s.m := by
        by_cases hh : ∃ x, r = .hash x
        · obtain ⟨x, rfl⟩ := hh
          obtain ⟨y, -, h6⟩ := Option.bind_eq_some_iff.1 h3
          cases h6
          rfl
        · rw [evalRhs_of_ne fun x hx => hh ⟨x, hx⟩] at h3
          obtain ⟨y, -, h6⟩ := Option.map_eq_some_iff.1 h3
          cases h6
          rfl
      have hlow : ∀ i < next, sf.m i = s.m i := by
        intro i hi
        rw [g1 i (by omega), e6 i (.inl (by omega)), hs0]
      have hl : eval (c.env size) sf (.memory o t) = some v := by
        rw [eval_below hd' g1 (Expr.known_memory List.mem_cons_self)]
        exact hrd
      refine ⟨hlow, ?_, ?_⟩
      · intro x hx
        rcases List.mem_cons.1 hx with rfl | hx
        · by_cases hh : ∃ x, r = .hash x
          · exact .inl hh
          · right
            refine ⟨v, hl, ?_⟩
            rw [evalRhs_of_ne fun x hx => hh ⟨x, hx⟩] at h3
            obtain ⟨y, h5, h6⟩ := Option.map_eq_some_iff.1 h3
            cases h6
            rw [eval_below hd hlow hk]
            exact h5
        · exact g2 x hx
      · by_cases hh : ∃ x, r = .hash x
        · obtain ⟨x, rfl⟩ := hh
          obtain ⟨y, h5, h6⟩ := Option.bind_eq_some_iff.1 h3
          cases h6
          rw [List.filter_cons_of_pos (by rfl), replay, h5]
          obtain rfl : t = .scalar := ht.symm
          have : y.2 = sf.m o := by
            have := readMem_scalar (show (c.env size).readMem sf o .scalar = some (.s y.2) from hl)
            injection this
          rw [Option.bind_eq_bind, Option.bind_some, if_pos this]
          rw [e2] at g3
          exact g3
        · rw [evalRhs_of_ne fun x hx => hh ⟨x, hx⟩] at h3
          obtain ⟨y, h5, h6⟩ := Option.map_eq_some_iff.1 h3
          cases h6
          rw [List.filter_cons_of_neg]
          · rw [e2] at g3
            exact g3
          · cases r <;> first | exact absurd ⟨_, rfl⟩ hh | simp [Stmt.isHash]
    · dsimp only at h4
      rw [hp] at h4
      cases h4
  | .updateHash e off :: cs, defs, next, s, sf, hr, hd, h => by
    obtain ⟨hk, hr⟩ := hr
    obtain ⟨s1, h1, h2⟩ := Option.bind_eq_some_iff.1 h
    obtain ⟨v, h3, h4⟩ := Option.bind_eq_some_iff.1 h1
    have hm : s1.m = s.m ∧ absorb { sf with abs := s.abs } off e.type v = some { sf with abs := s1.abs } := by
      cases ht : e.type <;> cases v <;> rw [ht] at h4 <;> simp only [absorb, reduceCtorEq] at h4
      · obtain ⟨a, h5, rfl⟩ := Option.map_eq_some_iff.1 h4
        exact ⟨rfl, by simp only [absorb, h5]; rfl⟩
      · obtain ⟨a, h5, rfl⟩ := Option.map_eq_some_iff.1 h4
        exact ⟨rfl, by simp only [absorb, h5]; rfl⟩
    obtain ⟨g1, g2, g3⟩ := execAll_recorded hr hd h2
    have hlow : ∀ i < next, sf.m i = s.m i := fun i hi => by rw [g1 i hi, hm.1]
    refine ⟨hlow, ?_, ?_⟩
    · intro x hx
      rcases List.mem_cons.1 hx with rfl | hx
      · trivial
      · exact g2 x hx
    · rw [List.filter_cons_of_pos (by rfl), replay, eval_below hd hlow hk, h3]
      rw [Option.bind_eq_bind, Option.bind_some, hm.2, Option.bind_eq_bind, Option.bind_some]
      exact g3
  | .assign (.transcript _ _) _ :: _, _, _, _, _, hr, _, _ | .assign (.inst _ _) _ :: _, _, _, _, _, hr, _, _ | .assign (.tmpBuf _ _) _ :: _, _, _, _, _, hr, _, _
  | .assign (.point _ _) _ :: _, _, _, _, _, hr, _, _ | .assign (.scalar _) _ :: _, _, _, _, _, hr, _, _ | .assign (.add _ _ _) _ :: _, _, _, _, _, hr, _, _
  | .assign (.sub _ _ _) _ :: _, _, _, _, _, hr, _, _ | .assign (.mul _ _ _) _ :: _, _, _, _, _, hr, _, _ | .assign (.div _ _ _) _ :: _, _, _, _, _, hr, _, _
  | .assign (.mulAdd _ _ _ _) _ :: _, _, _, _, _, hr, _, _ | .assign (.mulAddPM _ _ _) _ :: _, _, _, _, _, hr, _, _
  | .assign (.mulAddMT _ _) _ :: _, _, _, _, _, hr, _, _ | .assign (.pow _ _ _) _ :: _, _, _, _, _, hr, _, _ | .assign (.hash _) _ :: _, _, _, _, _, hr, _, _
  | .assign (.temp _) _ :: _, _, _, _, _, hr, _, _ | .loop .. :: _, _, _, _, _, hr, _, _ | .mulLoop .. :: _, _, _, _, _, hr, _, _ => hr.elim

end Verif.Sol
