import Verif.Sol.LinearScan

/-!
# The memory pool never hands out overlapping slots (C41)
-/

namespace Verif.Sol

/-! ### Statements -/

/-- The words of a block. -/
def Block.Has (b : Block) (w : ℕ) : Prop := b.pos ≤ w ∧ w < b.pos + b.t.len

/-- No word in common. -/
def Block.Apart (a b : Block) : Prop := ∀ w, a.Has w → ¬ b.Has w

/-- What a user of the pool can do. `free k` gives back the live block with number `k`. -/
inductive PoolOp where
  | expand
  | scalar
  | point
  | free (k : ℕ)

/-- A step of a user, who remembers the live blocks. -/
def poolStep (s : Pool × List Block) : PoolOp → Option (Pool × List Block)
  | .expand => some (s.1.expand, s.2)
  | .scalar => s.1.allocScalar.map fun x => (x.2, x.1 :: s.2)
  | .point => s.1.allocPoint.map fun x => (x.2, x.1 :: s.2)
  | .free k => s.2[k]?.map fun b => (s.1.free b, s.2.eraseIdx k)

/-- A history, from the empty pool. -/
def poolRun (ops : List PoolOp) : Option (Pool × List Block) := ops.foldlM poolStep (Pool.empty, [])

/-! ### Invariant -/

structure Pool.Ok (p : Pool) (live : List Block) : Prop where
  even : p.capability % 2 = 0
  apart : live.Pairwise Block.Apart
  inRange : ∀ b ∈ live, b.pos + b.t.len ≤ p.capability
  aligned : ∀ b ∈ live, b.t = .point → b.pos % 2 = 0
  words : ∀ w, w ∈ p.free256 ↔ w < p.capability ∧ ∀ b ∈ live, ¬ b.Has w
  pairs : ∀ w, w ∈ p.free512 ↔ w % 2 = 0 ∧ w ∈ p.free256 ∧ w + 1 ∈ p.free256

namespace Pool

theorem first_some {s : Finset ℕ} {n : ℕ} (h : first s = some n) : n ∈ s ∧ ∀ k ∈ s, n ≤ k := by
  unfold first at h
  split at h
  · next hs =>
    cases h
    exact ⟨s.min'_mem hs, fun k hk => s.min'_le k hk⟩
  · cases h

theorem first_isSome {s : Finset ℕ} (h : s ≠ ∅) : ∃ n, first s = some n := by
  unfold first
  rw [dif_pos (Finset.nonempty_iff_ne_empty.2 h)]
  exact ⟨_, rfl⟩

theorem Ok.empty : Ok Pool.empty [] := by
  constructor <;> simp [Pool.empty]

theorem Ok.expand {p : Pool} {live : List Block} (h : p.Ok live) : p.expand.Ok live := by
  have hcap := h.even
  have hr : ∀ w, p.capability ≤ w → ∀ b ∈ live, ¬ b.Has w := by
    intro w hw b hb hh
    have := h.inRange b hb
    have := hh.2
    omega
  constructor
  · simp only [Pool.expand]; omega
  · exact h.apart
  · intro b hb
    have := h.inRange b hb
    simp only [Pool.expand]; omega
  · exact h.aligned
  · intro w
    simp only [Pool.expand, Finset.mem_insert, h.words]
    constructor
    · rintro (rfl | rfl | ⟨h1, h2⟩)
      · exact ⟨by omega, hr _ (by omega)⟩
      · exact ⟨by omega, hr _ (by omega)⟩
      · exact ⟨by omega, h2⟩
    · rintro ⟨h1, h2⟩
      by_cases hw : w < p.capability
      · exact .inr (.inr ⟨hw, h2⟩)
      · omega
  · intro w
    simp only [Pool.expand, Finset.mem_insert, h.pairs]
    have hno : ∀ w, w ∈ p.free256 → w < p.capability := fun w hw => ((h.words w).1 hw).1
    constructor
    · rintro (rfl | ⟨h1, h2, h3⟩)
      · exact ⟨hcap, by simp, by simp⟩
      · exact ⟨h1, .inr (.inr h2), .inr (.inr h3)⟩
    · rintro ⟨h1, h2, h3⟩
      rcases h2 with h2 | h2 | h2
      · omega
      · exact .inl h2
      · have := hno _ h2
        rcases h3 with h3 | h3 | h3
        · omega
        · omega
        · exact .inr ⟨h1, h2, h3⟩

theorem Ok.scalar {p p' : Pool} {live : List Block} {b : Block} (h : p.Ok live) (ha : p.allocScalar = some (b, p')) :
    p'.Ok (b :: live) ∧ b.t = .scalar ∧ b.pos ∈ p.free256 ∧ (∀ w ∈ p.free256, b.pos ≤ w) ∧ p'.capability = p.capability := by
  unfold allocScalar at ha
  rcases hf : first p.free256 with _ | pos <;> rw [hf] at ha
  · cases ha
  cases ha
  obtain ⟨hm, hmin⟩ := first_some hf
  have hw := (h.words pos).1 hm
  have hhas : ∀ w, Block.Has ⟨pos, .scalar⟩ w ↔ w = pos := by
    intro w; simp only [Block.Has, Ty.len]; omega
  have hcap := h.even
  refine ⟨⟨h.even, ?_, ?_, ?_, ?_, ?_⟩, rfl, hm, hmin, rfl⟩
  · refine List.pairwise_cons.2 ⟨fun c hc w h1 h2 => ?_, h.apart⟩
    rw [hhas] at h1
    subst h1
    exact hw.2 c hc h2
  · intro c hc
    rcases List.mem_cons.1 hc with rfl | hc
    · simp only [Ty.len]; omega
    · exact h.inRange c hc
  · intro c hc ht
    rcases List.mem_cons.1 hc with rfl | hc
    · cases ht
    · exact h.aligned c hc ht
  · intro w
    simp only [Finset.mem_erase, h.words, List.forall_mem_cons, hhas]
    tauto
  · intro w
    simp only [Finset.mem_erase, h.pairs]
    constructor
    · rintro ⟨h1, h2, h3, h4⟩
      exact ⟨h2, ⟨by omega, h3⟩, ⟨by omega, h4⟩⟩
    · rintro ⟨h1, ⟨h2, h3⟩, ⟨h4, h5⟩⟩
      exact ⟨by omega, h1, h3, h5⟩

theorem Ok.point {p p' : Pool} {live : List Block} {b : Block} (h : p.Ok live) (ha : p.allocPoint = some (b, p')) :
    p'.Ok (b :: live) ∧ b.t = .point ∧ b.pos ∈ p.free512 ∧ (∀ w ∈ p.free512, b.pos ≤ w) ∧ p'.capability = p.capability := by
  unfold allocPoint at ha
  rcases hf : first p.free512 with _ | pos <;> rw [hf] at ha
  · cases ha
  cases ha
  obtain ⟨hm, hmin⟩ := first_some hf
  obtain ⟨he, hm1, hm2⟩ := (h.pairs pos).1 hm
  have hw1 := (h.words pos).1 hm1
  have hw2 := (h.words (pos + 1)).1 hm2
  have hhas : ∀ w, Block.Has ⟨pos, .point⟩ w ↔ w = pos ∨ w = pos + 1 := by
    intro w; simp only [Block.Has, Ty.len]; omega
  refine ⟨⟨h.even, ?_, ?_, ?_, ?_, ?_⟩, rfl, hm, hmin, rfl⟩
  · refine List.pairwise_cons.2 ⟨fun c hc w h1 h2 => ?_, h.apart⟩
    rw [hhas] at h1
    rcases h1 with rfl | rfl
    · exact hw1.2 c hc h2
    · exact hw2.2 c hc h2
  · intro c hc
    rcases List.mem_cons.1 hc with rfl | hc
    · simp only [Ty.len]; omega
    · exact h.inRange c hc
  · intro c hc ht
    rcases List.mem_cons.1 hc with rfl | hc
    · exact he
    · exact h.aligned c hc ht
  · intro w
    simp only [Finset.mem_erase, h.words, List.forall_mem_cons, hhas]
    tauto
  · intro w
    simp only [Finset.mem_erase, h.pairs]
    constructor
    · rintro ⟨h1, h2, h3, h4⟩
      exact ⟨h2, ⟨by omega, by omega, h3⟩, ⟨by omega, by omega, h4⟩⟩
    · rintro ⟨h1, ⟨h2, h2', h3⟩, ⟨h4, h4', h5⟩⟩
      exact ⟨by omega, h1, h3, h5⟩

theorem Ok.perm {p : Pool} {live live' : List Block} (h : p.Ok live) (hp : live.Perm live') : p.Ok live' := by
  have hsymm : Symmetric Block.Apart := fun a b hab w h1 h2 => hab w h2 h1
  refine ⟨h.even, (hp.pairwise_iff (fun {a b} h => hsymm h)).1 h.apart, fun b hb => h.inRange b (hp.mem_iff.2 hb),
    fun b hb => h.aligned b (hp.mem_iff.2 hb), fun w => (h.words w).trans ?_, h.pairs⟩
  simp only [hp.mem_iff]

theorem Ok.free {p : Pool} {live : List Block} {b : Block} (h : p.Ok (b :: live)) : (p.free b).Ok live := by
  have hap := List.pairwise_cons.1 h.apart
  have hin := h.inRange b (List.mem_cons_self ..)
  have hal := h.aligned b (List.mem_cons_self ..)
  have hcap := h.even
  obtain ⟨pos, t⟩ := b
  have key : ∀ w, (w ∈ p.free256 ∨ Block.Has ⟨pos, t⟩ w) ↔ w < p.capability ∧ ∀ c ∈ live, ¬ c.Has w := by
    intro w
    rw [h.words]
    simp only [List.forall_mem_cons]
    constructor
    · rintro (⟨h1, h2, h3⟩ | h1)
      · exact ⟨h1, h3⟩
      · exact ⟨lt_of_lt_of_le h1.2 hin, fun c hc h2 => hap.1 c hc w h1 h2⟩
    · rintro ⟨h1, h2⟩
      by_cases hb : Block.Has ⟨pos, t⟩ w
      · exact .inr hb
      · exact .inl ⟨h1, hb, h2⟩
  cases t with
  | scalar =>
    have hhas : ∀ w, Block.Has ⟨pos, .scalar⟩ w ↔ w = pos := by
      intro w; simp only [Block.Has, Ty.len]; omega
    refine ⟨h.even, hap.2, fun c hc => h.inRange c (List.mem_cons_of_mem _ hc), fun c hc => h.aligned c (List.mem_cons_of_mem _ hc), ?_, ?_⟩
    · intro w
      refine Iff.trans ?_ (key w)
      simp only [Pool.free, Finset.mem_insert, hhas]
      tauto
    · intro w
      have h1 : w ∈ p.free512 ↔ w % 2 = 0 ∧ w ∈ p.free256 ∧ w + 1 ∈ p.free256 := h.pairs w
      simp only [Pool.free, Finset.mem_insert]
      split
      · next hc =>
        simp only [Finset.mem_insert, h1]
        constructor
        · rintro (rfl | ⟨h2, h3, h4⟩)
          · exact ⟨by omega, hc.1, hc.2⟩
          · exact ⟨h2, .inr h3, .inr h4⟩
        · rintro ⟨h2, h3, h4⟩
          by_cases hw : w = pos - pos % 2
          · exact .inl hw
          · refine .inr ⟨h2, h3.resolve_left ?_, h4.resolve_left ?_⟩ <;> omega
      · next hc =>
        rw [h1]
        constructor
        · rintro ⟨h2, h3, h4⟩
          exact ⟨h2, .inr h3, .inr h4⟩
        · rintro ⟨h2, h3, h4⟩
          have hw : w ≠ pos - pos % 2 := by
            rintro rfl
            exact hc ⟨h3, h4⟩
          refine ⟨h2, h3.resolve_left ?_, h4.resolve_left ?_⟩ <;> omega
  | point =>
    have he : pos % 2 = 0 := hal rfl
    have hhas : ∀ w, Block.Has ⟨pos, .point⟩ w ↔ w = pos ∨ w = pos + 1 := by
      intro w; simp only [Block.Has, Ty.len]; omega
    refine ⟨h.even, hap.2, fun c hc => h.inRange c (List.mem_cons_of_mem _ hc), fun c hc => h.aligned c (List.mem_cons_of_mem _ hc), ?_, ?_⟩
    · intro w
      refine Iff.trans ?_ (key w)
      simp only [Pool.free, Finset.mem_insert, hhas]
      tauto
    · intro w
      simp only [Pool.free, Finset.mem_insert, h.pairs]
      constructor
      · rintro (rfl | ⟨h2, h3, h4⟩)
        · exact ⟨he, by simp, by simp⟩
        · exact ⟨h2, .inr (.inr h3), .inr (.inr h4)⟩
      · rintro ⟨h2, h3, h4⟩
        by_cases hw : w = pos
        · exact .inl hw
        · refine .inr ⟨h2, ?_, ?_⟩
          · rcases h3 with h3 | h3 | h3
            · omega
            · omega
            · exact h3
          · rcases h4 with h4 | h4 | h4
            · omega
            · omega
            · exact h4

end Pool

theorem poolStep_ok {s s' : Pool × List Block} (h : s.1.Ok s.2) {op : PoolOp} (hs : poolStep s op = some s') : s'.1.Ok s'.2 := by
  cases op with
  | expand => cases hs; exact h.expand
  | scalar =>
    simp only [poolStep, Option.map_eq_some_iff] at hs
    obtain ⟨⟨b, p⟩, h1, rfl⟩ := hs
    exact (h.scalar h1).1
  | point =>
    simp only [poolStep, Option.map_eq_some_iff] at hs
    obtain ⟨⟨b, p⟩, h1, rfl⟩ := hs
    exact (h.point h1).1
  | free k =>
    simp only [poolStep, Option.map_eq_some_iff] at hs
    obtain ⟨b, h1, rfl⟩ := hs
    obtain ⟨hk, rfl⟩ := List.getElem?_eq_some_iff.1 h1
    exact (h.perm (List.getElem_cons_eraseIdx_perm hk).symm).free

theorem poolRun_ok {ops : List PoolOp} : ∀ {s s' : Pool × List Block}, s.1.Ok s.2 → ops.foldlM poolStep s = some s' → s'.1.Ok s'.2 := by
  induction ops with
  | nil => intro s s' h hs; cases hs; exact h
  | cons op ops ih =>
    intro s s' h hs
    rw [List.foldlM_cons] at hs
    rcases h1 : poolStep s op with _ | s1 <;> rw [h1] at hs
    · cases hs
    · exact ih (poolStep_ok h h1) hs

/-! ### Theorems -/

/-- After every history, live blocks have no word in common, points start at an even word, and all words are below the size of `m`. -/
theorem C41_apart {ops : List PoolOp} {p : Pool} {live : List Block} (h : poolRun ops = some (p, live)) :
    live.Pairwise Block.Apart ∧ (∀ b ∈ live, b.t = .point → b.pos % 2 = 0) ∧ (∀ b ∈ live, ∀ w, b.Has w → w < p.capability) := by
  have h := poolRun_ok Pool.Ok.empty h
  exact ⟨h.apart, h.aligned, fun b hb w hw => lt_of_lt_of_le hw.2 (h.inRange b hb)⟩

/-- What is not live is available: a scalar can be allocated exactly when some word below the size is in no live block, and it gets the
first such word; a point can be allocated exactly when some even word and its successor are in none, and it gets the first such pair. -/
theorem C41_available {ops : List PoolOp} {p : Pool} {live : List Block} (h : poolRun ops = some (p, live)) :
    (∀ w, (∃ p', p.allocScalar = some (⟨w, .scalar⟩, p')) ↔
      IsLeast {w | w < p.capability ∧ ∀ b ∈ live, ¬ b.Has w} w) ∧
    (∀ w, (∃ p', p.allocPoint = some (⟨w, .point⟩, p')) ↔
      IsLeast {w | w % 2 = 0 ∧ (w < p.capability ∧ ∀ b ∈ live, ¬ b.Has w) ∧ (w + 1 < p.capability ∧ ∀ b ∈ live, ¬ b.Has (w + 1))} w) := by
  have h := poolRun_ok Pool.Ok.empty h
  have key : ∀ (s : Finset ℕ) (T : Set ℕ), (∀ w, w ∈ s ↔ w ∈ T) → ∀ w, Pool.first s = some w ↔ IsLeast T w := by
    intro s T hs w
    constructor
    · intro hf
      obtain ⟨h1, h2⟩ := Pool.first_some hf
      exact ⟨(hs w).1 h1, fun k hk => h2 k ((hs k).2 hk)⟩
    · rintro ⟨h1, h2⟩
      obtain ⟨n, hn⟩ := Pool.first_isSome (s := s) (Finset.nonempty_iff_ne_empty.1 ⟨w, (hs w).2 h1⟩)
      obtain ⟨h3, h4⟩ := Pool.first_some hn
      rw [hn, le_antisymm (h4 w ((hs w).2 h1)) (h2 ((hs n).1 h3))]
  constructor
  · intro w
    refine Iff.trans ?_ (key p.free256 {w | w < p.capability ∧ ∀ b ∈ live, ¬ b.Has w} h.words w)
    unfold Pool.allocScalar
    rcases Pool.first p.free256 with _ | n
    · simp
    · simp
  · intro w
    have hp : ∀ w, w ∈ p.free512 ↔ w ∈ {w | w % 2 = 0 ∧ (w < p.capability ∧ ∀ b ∈ live, ¬ b.Has w) ∧
        (w + 1 < p.capability ∧ ∀ b ∈ live, ¬ b.Has (w + 1))} := by
      intro w
      rw [h.pairs, h.words, h.words]
      rfl
    rw [← key p.free512 _ hp]
    unfold Pool.allocPoint
    rcases Pool.first p.free512 with _ | n
    · simp
    · simp

/-- Three live blocks after a history with a free: the point does not fit beside the scalar in word 0. -/
example : (poolRun [.expand, .scalar, .scalar, .expand, .point, .free 2, .scalar, .expand, .point]).map (fun s => s.2) =
    some [⟨4, .point⟩, ⟨0, .scalar⟩, ⟨2, .point⟩, ⟨1, .scalar⟩] := by
  decide +kernel

end Verif.Sol
