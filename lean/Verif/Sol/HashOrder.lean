import Verif.Sol.LinearScan

/-!
# The order in which a `HashSet` is iterated

Register allocation iterates over the set of active intervals to free their words. The words that are free afterwards do not depend on the order.
-/

namespace Verif.Sol

/-- A block of two words starts at an even word. -/
def Block.Even (b : Block) : Prop := b.t = .point → b.pos % 2 = 0

theorem Pool.ext_mem {p q : Pool} (h1 : ∀ z, z ∈ p.free256 ↔ z ∈ q.free256) (h2 : ∀ z, z ∈ p.free512 ↔ z ∈ q.free512) (h3 : p.capability = q.capability) : p = q := by
  obtain ⟨a, b, c⟩ := p
  obtain ⟨a', b', c'⟩ := q
  simp only [Pool.mk.injEq]
  exact ⟨Finset.ext h1, Finset.ext h2, h3⟩

theorem Pool.mem_free256 (p : Pool) (b : Block) (z : ℕ) : z ∈ (p.free b).free256 ↔ z ∈ p.free256 ∨ z = b.pos ∨ b.t = .point ∧ z = b.pos + 1 := by
  obtain ⟨x, t⟩ := b
  cases t <;> simp only [Pool.free, Finset.mem_insert, reduceCtorEq, true_and, false_and, or_false] <;> tauto

theorem Pool.mem_free512 (p : Pool) (b : Block) (z : ℕ) : z ∈ (p.free b).free512 ↔ z ∈ p.free512 ∨ b.t = .point ∧ z = b.pos ∨
    b.t = .scalar ∧ z = b.pos - b.pos % 2 ∧ z ∈ (p.free b).free256 ∧ z + 1 ∈ (p.free b).free256 := by
  rw [Pool.mem_free256, Pool.mem_free256]
  obtain ⟨x, t⟩ := b
  cases t
  · simp only [Pool.free, reduceCtorEq, true_and, false_and, or_false, false_or]
    split
    · next h =>
      simp only [Finset.mem_insert] at h ⊢
      constructor
      · rintro (rfl | h')
        · exact Or.inr ⟨rfl, h.1.symm, h.2.symm⟩
        · exact Or.inl h'
      · rintro (h' | ⟨h', -⟩)
        · exact Or.inr h'
        · exact Or.inl h'
    · next h =>
      simp only [Finset.mem_insert] at h
      refine ⟨Or.inl, ?_⟩
      rintro (h' | ⟨rfl, h1, h2⟩)
      · exact h'
      · exact absurd ⟨h1.symm, h2.symm⟩ h
  · simp only [Pool.free, Finset.mem_insert, reduceCtorEq, true_and, false_and, or_false]
    tauto

theorem Pool.free_comm (p : Pool) {a b : Block} (ha : a.Even) (hb : b.Even) : (p.free a).free b = (p.free b).free a := by
  refine Pool.ext_mem (fun z => ?_) (fun z => ?_) ?_
  · simp only [Pool.mem_free256]
    tauto
  · simp only [Pool.mem_free512, Pool.mem_free256]
    obtain ⟨x, s⟩ := a
    obtain ⟨y, t⟩ := b
    unfold Block.Even at ha hb
    generalize (z ∈ p.free512) = D
    generalize (z ∈ p.free256) = A
    generalize (z + 1 ∈ p.free256) = B
    cases s <;> cases t <;> simp only [reduceCtorEq, false_imp_iff, true_imp_iff, true_and, false_and, or_false, false_or] at ha hb ⊢
    all_goals (by_cases hD : D <;> by_cases h1 : A <;> by_cases h2 : B <;> simp only [hD, h1, h2, true_or, false_or, or_true, true_and, and_true] <;> omega)
  · unfold Pool.free
    split <;> split <;> rfl

/-- The order does not matter where the blocks are even. -/
theorem free_perm {l l' : List Interval} (h : l.Perm l') (he : ∀ i ∈ l, ∀ b, i.block = some b → b.Even) (p : Pool) :
    l.foldlM (fun p j => j.block.map p.free) p = l'.foldlM (fun p j => j.block.map p.free) p := by
  induction h generalizing p with
  | nil => rfl
  | cons x _ ih =>
    simp only [List.foldlM_cons]
    exact congrArg _ (funext fun q => ih (fun i hi => he i (List.mem_cons_of_mem _ hi)) q)
  | swap x y l =>
    simp only [List.foldlM_cons]
    have hx := he x (List.mem_cons_of_mem _ (List.mem_cons_self ..))
    have hy := he y (List.mem_cons_self ..)
    cases ex : x.block with
    | none => cases y.block <;> rfl
    | some a =>
      cases ey : y.block with
      | none => rfl
      | some b =>
        show List.foldlM _ ((p.free b).free a) l = List.foldlM _ ((p.free a).free b) l
        rw [Pool.free_comm p (hx a ex) (hy b ey)]
  | trans h1 _ ih1 ih2 => rw [ih1 he p, ih2 (fun i hi => he i (h1.mem_iff.2 hi)) p]

/-! ### Blocks are even -/

def Pool.Even (p : Pool) : Prop := (∀ z ∈ p.free512, z % 2 = 0) ∧ p.capability % 2 = 0

theorem Pool.Even.free {p : Pool} (h : p.Even) {b : Block} (hb : b.Even) : (p.free b).Even := by
  refine ⟨fun z hz => ?_, ?_⟩
  · rw [Pool.mem_free512] at hz
    rcases hz with hz | ⟨hb', rfl⟩ | ⟨-, rfl, -⟩
    · exact h.1 z hz
    · exact hb hb'
    · omega
  · have : (p.free b).capability = p.capability := by
      unfold Pool.free
      split <;> rfl
    rw [this]
    exact h.2

theorem Pool.Even.freeAll {l : List Interval} (he : ∀ i ∈ l, ∀ b, i.block = some b → b.Even) : ∀ {p p' : Pool}, p.Even →
    l.foldlM (fun p j => j.block.map p.free) p = some p' → p'.Even := by
  induction l with
  | nil =>
    intro p p' h e
    cases e
    exact h
  | cons x l ih =>
    intro p p' h e
    rw [List.foldlM_cons] at e
    obtain ⟨q, h1, e⟩ := Option.bind_eq_some_iff.1 e
    obtain ⟨b, h2, rfl⟩ := Option.map_eq_some_iff.1 h1
    exact ih (fun i hi => he i (List.mem_cons_of_mem _ hi)) (h.free (he x (List.mem_cons_self ..) b h2)) e

theorem Pool.Even.expand {p : Pool} (h : p.Even) : p.expand.Even := by
  refine ⟨fun z hz => ?_, ?_⟩
  · rcases Finset.mem_insert.1 hz with rfl | hz
    · exact h.2
    · exact h.1 z hz
  · show (p.capability + 2) % 2 = 0
    have := h.2
    omega

theorem Pool.first_mem {s : Finset ℕ} {n : ℕ} (h : Pool.first s = some n) : n ∈ s := by
  unfold Pool.first at h
  split at h
  · cases h
    exact Finset.min'_mem _ _
  · cases h

theorem choose_even {i : Interval} {p p' : Pool} {b : Block} (hp : p.Even) (h : choose i p = some (b, p')) : b.Even ∧ p'.Even := by
  unfold choose at h
  split at h
  · cases h
    exact ⟨nofun, hp⟩
  · split at h
    · have hq : (if p.free256 = ∅ then p.expand else p).Even := by
        split
        · exact hp.expand
        · exact hp
      generalize (if p.free256 = ∅ then p.expand else p) = q at h hq
      obtain ⟨n, hn, h⟩ := Option.bind_eq_some_iff.1 h
      cases h
      exact ⟨nofun, fun z hz => hq.1 z (Finset.mem_of_mem_erase hz), hq.2⟩
    · have hq : (if p.free512 = ∅ then p.expand else p).Even := by
        split
        · exact hp.expand
        · exact hp
      generalize (if p.free512 = ∅ then p.expand else p) = q at h hq
      obtain ⟨n, hn, h⟩ := Option.bind_eq_some_iff.1 h
      cases h
      exact ⟨fun _ => hq.1 n (Pool.first_mem hn), fun z hz => hq.1 z (Finset.mem_of_mem_erase hz), hq.2⟩

def Scan.Even (s : Scan) : Prop := s.pool.Even ∧ ∀ i ∈ s.active, ∀ b, i.block = some b → b.Even

theorem expire_order {ord ord' : List Interval → List Interval} (h : ∀ l, (ord l).Perm l) (h' : ∀ l, (ord' l).Perm l) (start : ℕ) {active : List Interval}
    (he : ∀ i ∈ active, ∀ b, i.block = some b → b.Even) (pool : Pool) : expire ord start active pool = expire ord' start active pool := by
  unfold expire
  dsimp only
  rw [free_perm (((h active).trans (h' active).symm).filter _) fun i hi => he i ((h active).mem_iff.1 (List.mem_of_mem_filter hi))]

theorem Scan.Even.step {ord : List Interval → List Interval} (h : ∀ l, (ord l).Perm l) {s s' : Scan} (hs : s.Even) {i : Interval}
    (e : scanStep ord s i = some s') : s'.Even := by
  unfold scanStep at e
  simp only [Option.bind_eq_bind, Option.bind_eq_some_iff, Prod.exists] at e
  obtain ⟨active, pool, e1, block, pool', e2, stmts, -, e⟩ := e
  cases e
  obtain ⟨q, h1, e1⟩ := Option.bind_eq_some_iff.1 e1
  cases e1
  have hq := hs.1.freeAll (fun i hi => hs.2 i ((h _).mem_iff.1 (List.mem_of_mem_filter hi))) h1
  obtain ⟨h2, h3⟩ := choose_even hq e2
  refine ⟨h3, fun j hj b hb => ?_⟩
  split at hj
  · rcases List.mem_cons.1 hj with rfl | hj
    · cases hb
      exact h2
    · exact hs.2 j (List.mem_of_mem_filter hj) b hb
  · exact hs.2 j (List.mem_of_mem_filter hj) b hb

theorem scan_order {ord ord' : List Interval → List Interval} (h : ∀ l, (ord l).Perm l) (h' : ∀ l, (ord' l).Perm l) : ∀ (l : List Interval) {s : Scan}, s.Even →
    l.foldlM (scanStep ord) s = l.foldlM (scanStep ord') s
  | [], _, _ => rfl
  | i :: l, s, hs => by
    have e : scanStep ord s i = scanStep ord' s i := by
      unfold scanStep
      rw [expire_order h h' i.start hs.2]
    rw [List.foldlM_cons, List.foldlM_cons, ← e]
    cases e2 : scanStep ord s i with
    | none => rfl
    | some s' => exact scan_order h h' l (hs.step h e2)

/-- Two runs of `memory_optimize` on the same program give the same result, whatever the order in which the sets are iterated. -/
theorem memoryOptimize_order {ord ord' : List Interval → List Interval} (h : ∀ l, (ord l).Perm l) (h' : ∀ l, (ord' l).Perm l) (p : Prog) :
    memoryOptimize ord p = memoryOptimize ord' p := by
  have e : ∀ l s f, linearScan ord l s f = linearScan ord' l s f := fun l s f =>
    scan_order h h' l ⟨⟨fun _ hz => absurd hz (Finset.notMem_empty _), rfl⟩, fun _ hi => absurd hi List.not_mem_nil⟩
  unfold memoryOptimize
  simp only [e]

end Verif.Sol
