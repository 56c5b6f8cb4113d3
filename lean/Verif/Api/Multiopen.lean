import Verif.Api.Schema
import Verif.Api.Sums
import Mathlib.Algebra.Polynomial.Eval.SMul

/-!
# Multi-opening and aggregation

`systems/halo2/multiopen.rs` and the part of `systems/halo2/verify.rs` that evaluates and aggregates opening proofs, in
`halo2-snark-aggregator-api/src`.
-/

namespace Verif.Api

/-! ### Model -/

section Model
variable {F G : Type} (c : Chip F G)

/-- evaluation.rs lines 93-98. -/
structure EvalQuery where
  point : c.S
  rotation : ℤ
  s : Schema c.P c.S

/-- evaluation.rs lines 101-119. -/
def EvalQuery.mk' (rotation : ℤ) (key : String) (point : c.S) (commitment : c.P) (eval : c.S) : EvalQuery c :=
  let s : CommitQuery c.P c.S := ⟨key, some commitment, some eval⟩
  ⟨point, rotation, .commitment s + .eval s⟩

/-- A rotation with its point and schemas, multiopen.rs line 31. -/
abbrev Group := ℤ × c.S × List (Schema c.P c.S)

/-- multiopen.rs lines 34-42: push to the group with this rotation, or open a new one. -/
def addQuery (q : EvalQuery c) : List (Group c) → List (Group c)
  | [] => [(q.rotation, q.point, [q.s])]
  | g :: gs => if g.1 = q.rotation then (g.1, g.2.1, g.2.2 ++ [q.s]) :: gs else g :: addQuery q gs

/-- multiopen.rs lines 31-43. -/
def groupQueries (qs : List (EvalQuery c)) : List (Group c) := qs.foldl (fun gs q => addQuery c q gs) []

/-- `reduce(|acc, q| scalar!(v) * acc + q)`. -/
def reduceLeft (v : c.S) : List (Schema c.P c.S) → Option (Schema c.P c.S)
  | [] => none
  | a :: l => some (l.foldl (fun acc q => .scalar v * acc + q) a)

/-- multiopen.rs lines 56-60: `rev().reduce(|acc, q| scalar!(self.v) * acc + q)`. -/
def reduceSchemas (v : c.S) (l : List (Schema c.P c.S)) : Option (Schema c.P c.S) := reduceLeft c v l.reverse

/-- evaluation.rs lines 86-90. -/
structure EvalProof where
  point : c.S
  s : Schema c.P c.S
  w : c.P

/-- multiopen.rs lines 50-68: one proof per group. -/
def pointProofs (v : c.S) : List (Group c) → List c.P → c.m (List (EvalProof c))
  | g :: gs, w :: ws => do
    let s ← unwrap c (reduceSchemas c v g.2.2)
    let ps ← pointProofs v gs ws
    return ⟨g.2.1, s, w⟩ :: ps
  | _, _ => return []

/-- multiopen.rs lines 23-69, from the queries on. -/
def getPointSchemas (v : c.S) (w : List c.P) (queries : List (EvalQuery c)) : c.m (List (EvalProof c)) :=
  let points := groupQueries c queries
  if w.length = points.length then pointProofs c v points w else c.panic

/-- multiopen.rs lines 10-13. -/
structure MultiOpen where
  wx : Schema c.P c.S
  wg : Schema c.P c.S

/-- `format!("{}_w{}", self.key, i)`. -/
def wKey (key : String) (i : ℕ) : String := key ++ "_w" ++ toString i

/-- multiopen.rs lines 82-96, one iteration. -/
def batchStep (key : String) (u : c.S) (i : ℕ) (p : EvalProof c) (acc : Option (Schema c.P c.S) × Option (Schema c.P c.S)) :
    Option (Schema c.P c.S) × Option (Schema c.P c.S) :=
  let w : CommitQuery c.P c.S := ⟨wKey key i, some p.w, none⟩
  (some (match acc.1 with
    | none => .commitment w
    | some wx => .scalar u * wx + .commitment w),
   some (match acc.2 with
    | none => .scalar p.point * .commitment w + p.s
    | some wg => .scalar u * wg + .scalar p.point * .commitment w + p.s))

/-- multiopen.rs lines 79-97: the loop over `proofs.into_iter().enumerate().rev()`. -/
def batchLoop (key : String) (u : c.S) (proofs : List (EvalProof c)) : Option (Schema c.P c.S) × Option (Schema c.P c.S) :=
  (proofs.zipIdx.reverse).foldl (fun acc p => batchStep c key u p.2 p.1 acc) (none, none)

/-- multiopen.rs lines 71-102, from the queries on. -/
def batchMultiOpen (key : String) (u v : c.S) (w : List c.P) (queries : List (EvalQuery c)) : c.m (MultiOpen c) := do
  let proofs ← getPointSchemas c v w queries
  let acc := batchLoop c key u proofs
  let wx ← unwrap c acc.1
  let wg ← unwrap c acc.2
  return ⟨wx, wg⟩

/-- systems/halo2/verify.rs lines 715-721. -/
def addGen (generator : c.P) (p : c.P) : Option c.S → c.m c.P
  | none => return p
  | some e => do
    let s ← c.scalarMul e generator
    c.pAdd p s

/-- systems/halo2/verify.rs lines 722-728. -/
def subGen (generator : c.P) (p : c.P) : Option c.S → c.m c.P
  | none => return p
  | some e => do
    let s ← c.scalarMul e generator
    c.pSub p s

/-- systems/halo2/verify.rs lines 690-745, without the pairing whose result is only printed. -/
def evaluateMultiopen (proof : MultiOpen c) : c.m (c.P × c.P) := do
  let one ← c.assignOne
  let l ← evalSchema c one proof.wx
  let r ← evalSchema c one proof.wg
  let generator ← c.pAssignOne
  let left ← addGen c generator l.1 l.2.1
  let right ← subGen c generator r.1 r.2.1
  return (left, right)

/-- systems/halo2/verify.rs lines 925-936: the loop that combines the proofs. -/
def aggregateLoop (ch : c.S) : List (MultiOpen c) → Option (MultiOpen c) → Option (MultiOpen c)
  | [], acc => acc
  | p :: ps, none => aggregateLoop ch ps (some p)
  | p :: ps, some acc => aggregateLoop ch ps (some ⟨acc.wx * .scalar ch + p.wx, acc.wg * .scalar ch + p.wg⟩)

/-- systems/halo2/verify.rs lines 925-941. -/
def aggregate (ch : c.S) (proofs : List (MultiOpen c)) : c.m (c.P × c.P) := do
  let proof ← unwrap c (aggregateLoop c ch proofs none)
  evaluateMultiopen c proof

end Model

/-! ### Specification -/

/-- A claim that the polynomial committed to by `C` has value `e` at `z`, which belongs to `rotation`. -/
structure Claim (F G : Type) where
  rotation : ℤ
  z : F
  C : G
  e : F

/-- The elements with equal `f`, in order of first use. -/
def groupsOf {α : Type} (f : α → ℤ) : List α → List (List α)
  | [] => []
  | q :: qs => (q :: qs.filter fun r => f r = f q) :: groupsOf f (qs.filter fun r => f r ≠ f q)
termination_by l => l.length
decreasing_by
  rw [List.length_unattach, List.length_cons]
  exact Nat.lt_succ_of_le ((List.length_filter_le _ _).trans (List.length_attach).le)

section Spec
variable {F G : Type} [Field F] [AddCommGroup G] [Module F G]

/-- The point of a group of claims: that of the first. -/
def groupPoint (g : List (Claim F G)) : F := (g.head?.map Claim.z).getD 0

/-- `Σ_j v^j (C_j - e_j gen)`. -/
def openingSum (gen : G) (v : F) (g : List (Claim F G)) : G := powSum v (g.map fun q => q.C - q.e • gen)

/-- `Σ_i u^i W_i`. -/
def leftSum (u : F) (Ws : List G) : G := powSum u Ws

/-- `Σ_i u^i (z_i W_i + Σ_j v^j (C_ij - e_ij gen))`, one term for each rotation. -/
def rightSum (gen : G) (u v : F) (Ws : List G) (qs : List (Claim F G)) : G :=
  powSum u (List.zipWith (fun W g => groupPoint g • W + openingSum gen v g) Ws (groupsOf Claim.rotation qs))

/-- The opening identity of one group for the secret `τ`: what the pairing checks. -/
def Opens (τ : F) (gen : G) (v : F) (W : G) (g : List (Claim F G)) : Prop :=
  (τ - groupPoint g) • W = openingSum gen v g

end Spec

/-! ### Grouping -/

section Grouping

theorem groupsOf_cons {α : Type} (f : α → ℤ) (q : α) (qs : List α) :
    groupsOf f (q :: qs) = (q :: qs.filter fun r => f r = f q) :: groupsOf f (qs.filter fun r => f r ≠ f q) := by
  rw [groupsOf]

theorem groupsOf_nil {α : Type} (f : α → ℤ) : groupsOf f ([] : List α) = [] := by rw [groupsOf]

theorem groupsOf_map {α β : Type} (g : β → α) (f : α → ℤ) : ∀ (n : ℕ) (l : List β), l.length ≤ n →
    groupsOf f (l.map g) = (groupsOf (fun b => f (g b)) l).map (List.map g)
  | _, [], _ => by simp [groupsOf_nil]
  | 0, _ :: _, h => by simp at h
  | n + 1, a :: l, h => by
    rw [List.map_cons, groupsOf_cons, groupsOf_cons, List.map_cons, List.map_cons, List.filter_map, List.filter_map]
    congr 1
    refine groupsOf_map g f n _ ?_
    exact (List.length_filter_le _ _).trans (by simpa using h)

theorem groupsOf_ne_nil {α : Type} (f : α → ℤ) : ∀ (n : ℕ) (l : List α), l.length ≤ n → ∀ g ∈ groupsOf f l, g ≠ []
  | _, [], _ => by simp [groupsOf_nil]
  | 0, _ :: _, h => by simp at h
  | n + 1, a :: l, h => by
    rw [groupsOf_cons]
    intro g hg
    rcases List.mem_cons.1 hg with rfl | hg
    · simp
    · exact groupsOf_ne_nil f n _ ((List.length_filter_le _ _).trans (by simpa using h)) g hg

theorem groupsOf_mem {α : Type} (f : α → ℤ) : ∀ (n : ℕ) (l : List α), l.length ≤ n → ∀ g ∈ groupsOf f l, ∀ q ∈ g, q ∈ l
  | _, [], _ => by simp [groupsOf_nil]
  | 0, _ :: _, h => by simp at h
  | n + 1, a :: l, h => by
    rw [groupsOf_cons]
    intro g hg q hq
    rcases List.mem_cons.1 hg with rfl | hg
    · rcases List.mem_cons.1 hq with rfl | hq
      · simp
      · exact List.mem_cons_of_mem _ (List.mem_filter.1 hq).1
    · exact List.mem_cons_of_mem _ (List.mem_filter.1
        (groupsOf_mem f n _ ((List.length_filter_le _ _).trans (by simpa using h)) g hg q hq)).1

/-- All members of a group have the same rotation. -/
theorem groupsOf_same {α : Type} (f : α → ℤ) : ∀ (n : ℕ) (l : List α), l.length ≤ n → ∀ g ∈ groupsOf f l, ∀ q ∈ g, ∀ r ∈ g,
    f q = f r
  | _, [], _ => by simp [groupsOf_nil]
  | 0, _ :: _, h => by simp at h
  | n + 1, a :: l, h => by
    rw [groupsOf_cons]
    intro g hg
    rcases List.mem_cons.1 hg with rfl | hg
    · have : ∀ q ∈ a :: l.filter (fun r => f r = f a), f q = f a := by
        intro q hq
        rcases List.mem_cons.1 hq with rfl | hq
        · rfl
        · simpa using (List.mem_filter.1 hq).2
      intro q hq r hr
      rw [this q hq, this r hr]
    · exact groupsOf_same f n _ ((List.length_filter_le _ _).trans (by simpa using h)) g hg

variable {F G : Type} {c : Chip F G}

/-- The group a nonempty list of queries becomes. -/
def toGroup (g : List (EvalQuery c)) : Option (Group c) :=
  match g with
  | [] => none
  | q :: qs => some (q.rotation, q.point, (q :: qs).map EvalQuery.s)

/-- A group after the queries with its rotation have been pushed. -/
def extend (qs : List (EvalQuery c)) (g : Group c) : Group c :=
  (g.1, g.2.1, g.2.2 ++ (qs.filter fun r => r.rotation = g.1).map EvalQuery.s)

theorem addQuery_mem (q : EvalQuery c) : ∀ {gs : List (Group c)}, (gs.map Prod.fst).Nodup → q.rotation ∈ gs.map Prod.fst →
    addQuery c q gs = gs.map (extend [q])
  | [], _, h => by simp at h
  | g :: gs, hn, h => by
    rw [List.map_cons, List.nodup_cons] at hn
    unfold addQuery
    split
    · next hg =>
      rw [List.map_cons]
      congr 1
      · simp [extend, hg]
      · conv_lhs => rw [← List.map_id gs]
        refine List.map_congr_left fun g' hg' => ?_
        have : q.rotation ≠ g'.1 := fun he => hn.1 (by rw [hg, he]; exact List.mem_map_of_mem hg')
        simp [extend, this]
    · next hg =>
      rw [List.map_cons]
      congr 1
      · have : q.rotation ≠ g.1 := fun he => hg he.symm
        simp [extend, this]
      · refine addQuery_mem q hn.2 ?_
        rcases List.mem_cons.1 h with h | h
        · exact absurd h.symm hg
        · exact h

theorem addQuery_not_mem (q : EvalQuery c) : ∀ {gs : List (Group c)}, q.rotation ∉ gs.map Prod.fst →
    addQuery c q gs = gs ++ [(q.rotation, q.point, [q.s])]
  | [], _ => rfl
  | g :: gs, h => by
    rw [List.map_cons, List.mem_cons, not_or] at h
    unfold addQuery
    rw [if_neg fun he => h.1 he.symm, addQuery_not_mem q h.2]
    rfl

theorem filterMap_toGroup_cons (q : EvalQuery c) (qs : List (EvalQuery c)) (gs : List (List (EvalQuery c))) :
    ((q :: qs) :: gs).filterMap toGroup = (q.rotation, q.point, (q :: qs).map EvalQuery.s) :: gs.filterMap toGroup := rfl

theorem groups_fold : ∀ (qs : List (EvalQuery c)) (gs : List (Group c)), (gs.map Prod.fst).Nodup →
    qs.foldl (fun gs q => addQuery c q gs) gs = gs.map (extend qs) ++
      (groupsOf EvalQuery.rotation (qs.filter fun q => q.rotation ∉ gs.map Prod.fst)).filterMap toGroup
  | [], gs, _ => by
    have : gs.map (extend []) = gs := by
      conv_rhs => rw [← List.map_id gs]
      exact List.map_congr_left fun g _ => by simp [extend]
    simp [this, groupsOf_nil]
  | q :: qs, gs, hn => by
    rw [List.foldl_cons]
    by_cases hq : q.rotation ∈ gs.map Prod.fst
    · have hfst : (gs.map (extend [q])).map Prod.fst = gs.map Prod.fst := by
        rw [List.map_map]; exact List.map_congr_left fun g _ => rfl
      rw [addQuery_mem q hn hq, groups_fold qs _ (by rw [hfst]; exact hn), hfst, List.map_map,
        List.filter_cons_of_neg (by simpa using hq)]
      congr 1
      refine List.map_congr_left fun g _ => ?_
      simp only [Function.comp, extend]
      congr 2
      by_cases hg : q.rotation = g.1 <;> simp [hg] <;> rfl
    · rw [addQuery_not_mem q hq, groups_fold qs _ (by
        rw [List.map_append, List.nodup_append]
        refine ⟨hn, by simp, ?_⟩
        intro a ha b hb
        simp only [List.map_cons, List.map_nil, List.mem_singleton] at hb
        rintro rfl
        exact hq (hb ▸ ha))]
      rw [List.filter_cons_of_pos (by simpa using hq), groupsOf_cons, filterMap_toGroup_cons, List.map_append,
        List.append_assoc]
      congr 1
      · refine List.map_congr_left fun g hg => ?_
        have : q.rotation ≠ g.1 := fun he => hq (he ▸ List.mem_map_of_mem hg)
        simp [extend, this]
      · rw [List.map_cons, List.map_nil, List.singleton_append]
        congr 1
        · simp only [extend, List.map_cons, List.singleton_append, List.filter_filter]
          congr 4
          apply List.filter_congr
          intro r _
          by_cases hr : r.rotation = q.rotation
          · simp only [hr, decide_true, Bool.true_and]
            simpa using hq
          · simp [hr]
        · congr 2
          rw [List.filter_filter]
          apply List.filter_congr
          intro r _
          simp only [List.map_append, List.map_cons, List.map_nil, List.mem_append, List.mem_singleton, not_or]
          by_cases h1 : r.rotation = q.rotation <;> by_cases h2 : r.rotation ∈ gs.map Prod.fst <;> simp [h1, h2]

theorem groupQueries_eq (qs : List (EvalQuery c)) :
    groupQueries c qs = (groupsOf EvalQuery.rotation qs).filterMap toGroup := by
  have := groups_fold qs ([] : List (Group c)) (by simp)
  unfold groupQueries
  simpa using this

theorem filterMap_toGroup_length : ∀ {gs : List (List (EvalQuery c))}, (∀ g ∈ gs, g ≠ []) →
    (gs.filterMap toGroup).length = gs.length
  | [], _ => rfl
  | [] :: gs, h => absurd rfl (h [] (by simp))
  | (q :: qs) :: gs, h => by
    rw [filterMap_toGroup_cons, List.length_cons, List.length_cons,
      filterMap_toGroup_length fun g hg => h g (by simp [hg])]

end Grouping

/-! ### Proofs -/

variable {F G : Type} {c : Chip F G} [Field F] [AddCommGroup G] [Module F G] {gen : G}

namespace Logic
variable (L : Logic c gen) (K : String → G)

/-- What a schema stands for. -/
abbrev den (s : Schema c.P c.S) : G × F := s.sem K L.sv

/-- The claim a query makes. -/
def claim (q : EvalQuery c) : Claim F G := ⟨q.rotation, L.sv q.point, (L.den K q.s).1, (L.den K q.s).2⟩

variable {K}

theorem den_scale (v : c.S) (s : Schema c.P c.S) : L.den K (.scalar v * s) = L.sv v • L.den K s := by
  ext <;> simp [den, Schema.sem, Prod.smul_fst, Prod.smul_snd]

theorem den_scale' (v : c.S) (s : Schema c.P c.S) : L.den K (s * .scalar v) = L.sv v • L.den K s := by
  ext <;> simp [den, Schema.sem, Prod.smul_fst, Prod.smul_snd, mul_comm]

theorem den_add (a b : Schema c.P c.S) : L.den K (a + b) = L.den K a + L.den K b := rfl

theorem wf_scale (v : c.S) {s : Schema c.P c.S} (h : s.WF L.pv K) : (Schema.scalar v * s).WF L.pv K :=
  Schema.wf_mul.2 ⟨trivial, h, rfl⟩

theorem wf_scale' (v : c.S) {s : Schema c.P c.S} (h : s.WF L.pv K) : (s * Schema.scalar v).WF L.pv K :=
  Schema.wf_mul.2 ⟨h, trivial, by simp [Schema.hasCommitment]⟩

theorem scaled_true {s : Schema c.P c.S} : ∀ {b : Bool}, s.Scaled b → s.Scaled true := by
  induction s with
  | commitment q => exact fun _ => rfl
  | eval q => exact fun h => h
  | scalar s => exact fun h => h
  | add l lc r rc hl hr => exact fun h => h.imp hl hr
  | mul l lc r rc hl hr => exact fun h => h

theorem scaled_of_hasCommitment {s : Schema c.P c.S} : s.WF L.pv K → s.hasCommitment = true → s.Scaled true := by
  induction s with
  | commitment q => exact fun _ _ => rfl
  | eval q => exact fun _ h => absurd h (by simp [Schema.hasCommitment])
  | scalar s => exact fun _ h => absurd h (by simp [Schema.hasCommitment])
  | add l lc r rc hl hr =>
    rintro ⟨g1, g2, g3, g4⟩ h
    rcases (Bool.or_eq_true _ _).mp h with h | h
    · exact .inl (hl g1 (by rw [← g3]; exact h))
    · exact .inr (hr g2 (by rw [← g4]; exact h))
  | mul l lc r rc hl hr =>
    rintro ⟨g1, g2, g3, g4, -⟩ h
    rcases (Bool.or_eq_true _ _).mp h with h | h
    · exact .inl (hl g1 (by rw [← g3]; exact h))
    · exact .inr (hr g2 (by rw [← g4]; exact h))

theorem reduce_foldr (v : c.S) : ∀ (l : List (Schema c.P c.S)) (a : Schema c.P c.S), (∀ s ∈ l, s.WF L.pv K) → a.WF L.pv K →
    (l.foldr (fun q acc => .scalar v * acc + q) a).WF L.pv K ∧
    L.den K (l.foldr (fun q acc => .scalar v * acc + q) a) = powSum (L.sv v) ((l.map (L.den K)) ++ [L.den K a])
  | [], a, _, ha => ⟨ha, by simp⟩
  | s :: l, a, hl, ha => by
    obtain ⟨h1, h2⟩ := reduce_foldr v l a (fun s hs => hl s (by simp [hs])) ha
    refine ⟨Schema.wf_add.2 ⟨L.wf_scale v h1, hl s (by simp)⟩, ?_⟩
    rw [List.foldr_cons, den_add, den_scale, h2, List.map_cons, List.cons_append, powSum_cons, add_comm]

theorem reduceSchemas (v : c.S) {l : List (Schema c.P c.S)} (hne : l ≠ []) (hl : ∀ s ∈ l, s.WF L.pv K) :
    ∃ s, Api.reduceSchemas c v l = some s ∧ s.WF L.pv K ∧ L.den K s = powSum (L.sv v) (l.map (L.den K)) := by
  obtain ⟨l', a, rfl⟩ : ∃ l' a, l = l' ++ [a] := ⟨l.dropLast, l.getLast hne, (List.dropLast_append_getLast hne).symm⟩
  unfold Api.reduceSchemas
  rw [List.reverse_append, List.reverse_singleton, List.singleton_append]
  unfold Api.reduceLeft
  dsimp only
  rw [List.foldl_reverse]
  obtain ⟨h1, h2⟩ := L.reduce_foldr v l' a (fun s hs => hl s (by simp [hs])) (hl a (by simp))
  exact ⟨_, rfl, h1, by rw [h2, List.map_append]; rfl⟩

/-- A proof for one point: the opening, the group it opens. -/
structure Opening (v : F) (p : EvalProof c) (W : G) (g : List (Claim F G)) : Prop where
  w : L.pv p.w W
  point : L.sv p.point = groupPoint g
  wf : p.s.WF L.pv K
  den : L.den K p.s = powSum v (g.map fun q => (q.C, q.e))

theorem pointProofs (v : c.S) : ∀ {gs : List (List (EvalQuery c))} {ws : List c.P} {Ws : List G}, (∀ g ∈ gs, g ≠ []) →
    (∀ g ∈ gs, ∀ q ∈ g, q.s.WF L.pv K) → List.Forall₂ L.pv ws Ws → ws.length = gs.length →
    L.Ens (Api.pointProofs c v (gs.filterMap toGroup) ws) fun ps => ps.map EvalProof.w = ws ∧
      List.Forall₂ (fun p (x : G × List (Claim F G)) => L.Opening (K := K) (L.sv v) p x.1 x.2) ps
        (Ws.zip (gs.map fun g => g.map (L.claim K)))
  | [], [], _, _, _, .nil, _ => L.pure ⟨rfl, .nil⟩
  | [], _ :: _, _, _, _, _, h => by simp at h
  | [] :: _, _, _, h, _, _, _ => absurd rfl (h [] (by simp))
  | (q :: qs) :: gs, [], _, _, _, _, h => by simp at h
  | (q :: qs) :: gs, w :: ws, _, hne, hwf, .cons (b := W) (l₂ := Ws) hw hws, hlen => by
    rw [filterMap_toGroup_cons]
    obtain ⟨s, h1, h2, h3⟩ := L.reduceSchemas (K := K) v (l := (q :: qs).map EvalQuery.s) (by simp) fun s hs => by
      obtain ⟨q', hq', rfl⟩ := List.mem_map.1 hs
      exact hwf _ (by simp) q' hq'
    refine L.bind (L.unwrap h1) fun s' hs' => ?_
    subst hs'
    refine L.bind (pointProofs v (fun g hg => hne g (by simp [hg])) (fun g hg => hwf g (by simp [hg])) hws
      (by simpa using hlen)) fun ps hps => L.pure ⟨by rw [List.map_cons, hps.1], ?_⟩
    rw [List.map_cons (l := gs), List.zip_cons_cons]
    refine .cons ⟨hw, rfl, h2, ?_⟩ hps.2
    rw [h3, List.map_map, List.map_map]
    rfl

theorem getPointSchemas (v : c.S) {qs : List (EvalQuery c)} {ws : List c.P} {Ws : List G} (hq : ∀ q ∈ qs, q.s.WF L.pv K)
    (hws : List.Forall₂ L.pv ws Ws) (hlen : ws.length = (groupsOf Claim.rotation (qs.map (L.claim K))).length) :
    L.Ens (Api.getPointSchemas c v ws qs) fun ps => ps.map EvalProof.w = ws ∧
      List.Forall₂ (fun p (x : G × List (Claim F G)) => L.Opening (K := K) (L.sv v) p x.1 x.2) ps
        (Ws.zip (groupsOf Claim.rotation (qs.map (L.claim K)))) := by
  rw [groupsOf_map (L.claim K) Claim.rotation qs.length qs le_rfl] at hlen ⊢
  have hrot : (fun b => (L.claim K b).rotation) = EvalQuery.rotation := rfl
  rw [hrot] at hlen ⊢
  have hne := groupsOf_ne_nil (EvalQuery.rotation (c := c)) qs.length qs le_rfl
  unfold Api.getPointSchemas
  rw [groupQueries_eq]
  dsimp only
  rw [List.length_map] at hlen
  rw [if_pos (by rw [filterMap_toGroup_length hne, hlen])]
  exact L.pointProofs v hne (fun g hg q hq' => hq q (groupsOf_mem _ qs.length qs le_rfl g hg q hq')) hws hlen

/-- The schemas after the proofs `ps`, whose numbers start at `i`, have been folded in. -/
theorem batchFold (key : String) (u v : c.S) : ∀ {ps : List (EvalProof c)} {Ws : List G} {gs : List (List (Claim F G))} (i : ℕ),
    ps ≠ [] → Ws.length = gs.length →
    List.Forall₂ (fun p (x : G × List (Claim F G)) => L.Opening (K := K) (L.sv v) p x.1 x.2) ps (Ws.zip gs) →
    (∀ j W, Ws[j]? = some W → K (wKey key (i + j)) = W ∧ wKey key (i + j) ≠ "") →
    ∃ wx wg, (ps.zipIdx i).foldr (fun p acc => batchStep c key u p.2 p.1 acc) (none, none) = (some wx, some wg) ∧
      wx.WF L.pv K ∧ wg.WF L.pv K ∧ L.den K wx = (powSum (L.sv u) Ws, 0) ∧
      L.den K wg = powSum (L.sv u) (List.zipWith (fun W g => (groupPoint g • W, 0) +
        powSum (L.sv v) (g.map fun q => (q.C, q.e))) Ws gs) ∧
      wg.Scaled false ∧ (2 ≤ ps.length → wx.Scaled false) ∧ wx.hasCommitment = true
  | [], _, _, _, h, _, _, _ => absurd rfl h
  | p :: ps, W :: Ws, g :: gs, i, _, hlen, hops, hK => by
    rw [List.zip_cons_cons] at hops
    obtain ⟨hp, hps⟩ := List.forall₂_cons.1 hops
    have hk0 := hK 0 W rfl
    rw [Nat.add_zero] at hk0
    have hcw : (Schema.commitment ⟨wKey key i, some p.w, none⟩ : Schema c.P c.S).WF L.pv K :=
      ⟨hk0.2, p.w, rfl, by rw [hk0.1]; exact hp.w⟩
    have hdw : L.den K (Schema.commitment ⟨wKey key i, some p.w, none⟩) = (W, 0) := by
      show (K (wKey key i), (0 : F)) = (W, 0)
      rw [hk0.1]
    rw [List.zipIdx_cons, List.foldr_cons]
    cases ps with
    | nil =>
      have hWs : Ws = [] := by
        cases hps' : Ws.zip gs with
        | nil =>
          cases Ws with
          | nil => rfl
          | cons a b => cases gs with
            | nil => simp at hlen
            | cons => simp at hps'
        | cons a b => rw [hps'] at hps; cases hps
      subst hWs
      have hgs : gs = [] := by cases gs with
        | nil => rfl
        | cons => simp at hlen
      subst hgs
      refine ⟨.commitment ⟨wKey key i, some p.w, none⟩, .scalar p.point * .commitment ⟨wKey key i, some p.w, none⟩ + p.s, rfl, hcw,
        Schema.wf_add.2 ⟨L.wf_scale _ hcw, hp.wf⟩, ?_, ?_, ?_, by simp, rfl⟩
      · rw [hdw]; simp
      · rw [den_add, den_scale, hdw, hp.point, hp.den]
        simp
      · refine Schema.scaled_add.2 (.inl (Schema.scaled_mul.2 (.inr ?_)))
        exact (rfl : true = true)
    | cons p' ps' =>
      obtain ⟨wx, wg, h1, h2, h3, h4, h5, h6, h7, h8⟩ := batchFold key u v (i + 1) (by simp) (by simpa using hlen) hps
        (fun j W' hj => by
          have := hK (j + 1) W' (by simpa using hj)
          rwa [show i + (j + 1) = i + 1 + j by omega] at this)
      rw [h1]
      refine ⟨.scalar u * wx + .commitment ⟨wKey key i, some p.w, none⟩,
        .scalar u * wg + .scalar p.point * .commitment ⟨wKey key i, some p.w, none⟩ + p.s, rfl,
        Schema.wf_add.2 ⟨L.wf_scale _ h2, hcw⟩,
        Schema.wf_add.2 ⟨Schema.wf_add.2 ⟨L.wf_scale _ h3, L.wf_scale _ hcw⟩, hp.wf⟩, ?_, ?_, ?_, ?_, ?_⟩
      · rw [den_add, den_scale, h4, hdw]
        ext <;> simp [add_comm]
      · rw [den_add, den_add, den_scale, h5, den_scale, hdw, hp.point, hp.den, List.zipWith_cons_cons, powSum_cons]
        have : groupPoint g • ((W, 0) : G × F) = (groupPoint g • W, 0) := by ext <;> simp
        rw [this]
        abel
      · refine Schema.scaled_add.2 (.inl (Schema.scaled_add.2 (.inr (Schema.scaled_mul.2 (.inr ?_)))))
        exact (rfl : true = true)
      · intro _
        exact Schema.scaled_add.2 (.inl (Schema.scaled_mul.2 (.inr (L.scaled_of_hasCommitment h2 h8))))
      · simp [Schema.hasCommitment_add, Schema.hasCommitment]
  | p :: ps, [], _, _, _, _, h, _ => by simp at h
  | p :: ps, W :: Ws, [], _, _, h, _, _ => by simp at h

/-- The group and scalar parts of the right-hand side. -/
def rightPair (u v : F) (Ws : List G) (qs : List (Claim F G)) : G × F :=
  powSum u (List.zipWith (fun W g => (groupPoint g • W, 0) + powSum v (g.map fun q => (q.C, q.e))) Ws
    (groupsOf Claim.rotation qs))

/-- A pair of schemas stands for the pairs `l`, `r`. -/
structure Pair (p : MultiOpen c) (l r : G × F) : Prop where
  wx : p.wx.WF L.pv K
  wg : p.wg.WF L.pv K
  left : L.den K p.wx = l
  right : L.den K p.wg = r

/-- `batch_multi_open_proofs`. -/
theorem batchMultiOpen (key : String) (u v : c.S) {qs : List (EvalQuery c)} {ws : List c.P} {Ws : List G}
    (hq : ∀ q ∈ qs, q.s.WF L.pv K) (hws : List.Forall₂ L.pv ws Ws) (hne : ws ≠ [])
    (hlen : ws.length = (groupsOf Claim.rotation (qs.map (L.claim K))).length)
    (hK : ∀ j W, Ws[j]? = some W → K (wKey key j) = W) :
    L.Ens (Api.batchMultiOpen c key u v ws qs) fun r =>
      L.Pair (K := K) r (leftSum (L.sv u) Ws, 0) (rightPair (L.sv u) (L.sv v) Ws (qs.map (L.claim K))) ∧
      r.wg.Scaled false ∧ (2 ≤ ws.length → r.wx.Scaled false) ∧ r.wx.hasCommitment = true := by
  refine L.bind (L.getPointSchemas v hq hws hlen) fun ps hps => ?_
  have hl : ps.length = ws.length := by rw [← hps.1, List.length_map]
  obtain ⟨wx, wg, h1, h2, h3, h4, h5, h6, h7, h8⟩ := L.batchFold key u v 0 (by
    intro h; rw [h] at hl; exact hne (List.length_eq_zero_iff.1 hl.symm)) (by rw [← hws.length_eq, hlen]) hps.2
    (fun j W hj => by
      rw [Nat.zero_add]
      refine ⟨hK j W hj, fun h => ?_⟩
      have := congrArg String.length h
      simp [wKey, String.length_append] at this)
  have hloop : batchLoop c key u ps = (some wx, some wg) := by
    unfold batchLoop
    rw [List.foldl_reverse]
    exact h1
  dsimp only
  refine L.bind (L.unwrap (a := wx) (by rw [hloop])) fun a ha => L.bind (L.unwrap (a := wg) (by rw [hloop])) fun b hb => L.pure ?_
  subst ha hb
  exact ⟨⟨h2, h3, h4, h5⟩, h6, fun h => h7 (by rw [hl]; exact h), h8⟩

theorem addGen {g p : c.P} {P : G} (hg : L.pv g gen) (hp : L.pv p P) (e : Option c.S) :
    L.Ens (Api.addGen c g p e) fun r => L.pv r (P + (e.map L.sv).getD 0 • gen) := by
  cases e with
  | none => exact L.pure (by simpa using hp)
  | some e => exact L.bind (L.scalarMul e hg) fun s hs => L.pAdd hp hs

theorem subGen {g p : c.P} {P : G} (hg : L.pv g gen) (hp : L.pv p P) (e : Option c.S) :
    L.Ens (Api.subGen c g p e) fun r => L.pv r (P - (e.map L.sv).getD 0 • gen) := by
  cases e with
  | none => exact L.pure (by simpa using hp)
  | some e => exact L.bind (L.scalarMul e hg) fun s hs => L.pSub hp hs

/-- `evaluate_multiopen_proof`. -/
theorem evaluateMultiopen {p : MultiOpen c} {l r : G × F} (h : L.Pair (K := K) p l r) (hl : p.wx.Scaled false)
    (hr : p.wg.Scaled false) :
    L.Ens (Api.evaluateMultiopen c p) fun x => L.pv x.1 (l.1 + l.2 • gen) ∧ L.pv x.2 (r.1 - r.2 • gen) := by
  refine L.bind L.assignOne fun one h1 => L.bind (L.evalSchema h1 h.wx hl) fun a ha => L.bind (L.evalSchema h1 h.wg hr) fun b hb => ?_
  refine L.bind L.pAssignOne fun g hg => ?_
  refine L.bind (L.addGen hg ha.1 a.2.1) fun x hx => L.bind (L.subGen hg hb.1 b.2.1) fun y hy => L.pure ⟨?_, ?_⟩
  · rw [ha.2.1, show p.wx.sem K L.sv = l from h.left] at hx
    exact hx
  · rw [hb.2.1, show p.wg.sem K L.sv = r from h.right] at hy
    exact hy

/-- The pairs of group elements the proofs stand for, combined with powers of the challenge; the last one has coefficient one. -/
theorem aggregateLoop (ch : c.S) : ∀ {ps : List (MultiOpen c)} {xs : List ((G × F) × (G × F))} {acc : MultiOpen c}
    {l r : G × F}, List.Forall₂ (fun p x => L.Pair (K := K) p x.1 x.2) ps xs → (∀ p ∈ ps, p.wx.hasCommitment = true) →
    L.Pair (K := K) acc l r → acc.wx.hasCommitment = true → ∃ p, Api.aggregateLoop c ch ps (some acc) = some p ∧
      L.Pair (K := K) p (powSum (L.sv ch) ((xs.map Prod.fst).reverse ++ [l])) (powSum (L.sv ch) ((xs.map Prod.snd).reverse ++ [r])) ∧
      (acc.wx.Scaled false ∨ ps ≠ [] → p.wx.Scaled false) ∧ (acc.wg.Scaled false → p.wg.Scaled false)
  | [], _, acc, l, r, .nil, _, hacc, hc => ⟨acc, rfl, by simpa using hacc, by simp, id⟩
  | p :: ps, _, acc, l, r, .cons (b := x) (l₂ := xs) hp hps, hall, hacc, hc => by
    have hnew : L.Pair (K := K) ⟨acc.wx * .scalar ch + p.wx, acc.wg * .scalar ch + p.wg⟩ (L.sv ch • l + x.1) (L.sv ch • r + x.2) :=
      ⟨Schema.wf_add.2 ⟨L.wf_scale' ch hacc.wx, hp.wx⟩, Schema.wf_add.2 ⟨L.wf_scale' ch hacc.wg, hp.wg⟩,
        by rw [den_add, den_scale', hacc.left, hp.left], by rw [den_add, den_scale', hacc.right, hp.right]⟩
    obtain ⟨q, h1, h2, h3, h4⟩ := aggregateLoop ch hps (fun p hp => hall p (by simp [hp])) hnew
      (by simp [Schema.hasCommitment_add, Schema.hasCommitment_mul, hc])
    refine ⟨q, h1, ?_, fun _ => h3 (.inl ?_), fun h => h4 ?_⟩
    · simp only [List.map_cons, List.reverse_cons, List.append_assoc, List.singleton_append]
      have key : ∀ (a b : G × F) (ys : List (G × F)), powSum (L.sv ch) (ys ++ [b, a]) = powSum (L.sv ch) (ys ++ [L.sv ch • a + b]) := by
        intro a b ys
        rw [powSum_append, powSum_append]
        congr 2
        simp [add_comm]
      rw [key, key]
      exact h2
    · exact Schema.scaled_add.2 (.inl (Schema.scaled_mul.2 (.inl (L.scaled_of_hasCommitment hacc.wx hc))))
    · exact Schema.scaled_add.2 (.inl (Schema.scaled_mul.2 (.inl (scaled_true h))))

/-- The aggregation of proofs, of which either there are several or the only one has a commitment with a coefficient. -/
theorem aggregate (ch : c.S) {ps : List (MultiOpen c)} {xs : List ((G × F) × (G × F))}
    (hps : List.Forall₂ (fun p x => L.Pair (K := K) p x.1 x.2) ps xs) (hall : ∀ p ∈ ps, p.wx.hasCommitment = true)
    (hg : ∀ p ∈ ps, p.wg.Scaled false) (hne : ps ≠ []) (hl : (∀ p ∈ ps, p.wx.Scaled false) ∨ 2 ≤ ps.length) :
    L.Ens (Api.aggregate c ch ps) fun x =>
      L.pv x.1 (powSum (L.sv ch) ((xs.map fun x => x.1.1 + x.1.2 • gen).reverse)) ∧
      L.pv x.2 (powSum (L.sv ch) ((xs.map fun x => x.2.1 - x.2.2 • gen).reverse)) := by
  cases hps with
  | nil => exact absurd rfl hne
  | @cons p x ps xs hp hps =>
    obtain ⟨q, h1, h2, h3, h4⟩ := L.aggregateLoop ch hps (fun p hp => hall p (by simp [hp])) hp (hall p (by simp))
    refine L.bind (L.unwrap (show Api.aggregateLoop c ch (p :: ps) none = some q from h1)) fun q' hq' => ?_
    subst hq'
    have hx : q'.wx.Scaled false := h3 (hl.imp (fun h => h p (by simp)) fun h => by
      rintro rfl; simp at h)
    refine L.mono (L.evaluateMultiopen h2 hx (h4 (hg p (by simp)))) fun y hy => ?_
    have hleft : ∀ (f : (G × F) →ₗ[F] G) (g : (G × F) × (G × F) → G × F), f (powSum (L.sv ch) ((xs.map g).reverse ++ [g x])) =
        powSum (L.sv ch) (((x :: xs).map fun x => f (g x)).reverse) := by
      intro f g
      rw [← powSum_map, List.map_append, List.map_reverse, List.map_map, List.map_cons (f := fun x => f (g x)), List.reverse_cons]
      rfl
    have e1 := hleft (LinearMap.fst F G F + (LinearMap.toSpanSingleton F G gen).comp (LinearMap.snd F G F)) Prod.fst
    have e2 := hleft (LinearMap.fst F G F - (LinearMap.toSpanSingleton F G gen).comp (LinearMap.snd F G F)) Prod.snd
    simp only [LinearMap.add_apply, LinearMap.sub_apply, LinearMap.fst_apply, LinearMap.comp_apply, LinearMap.snd_apply,
      LinearMap.toSpanSingleton_apply] at e1 e2
    rw [e1, e2] at hy
    exact hy

/-- The right-hand side of a single proof. -/
theorem rightPair_value (u v : F) (Ws : List G) (qs : List (Claim F G)) :
    (rightPair u v Ws qs).1 - (rightPair u v Ws qs).2 • gen = rightSum gen u v Ws qs := by
  let f : (G × F) →ₗ[F] G := LinearMap.fst F G F - (LinearMap.toSpanSingleton F G gen).comp (LinearMap.snd F G F)
  have hf : ∀ x : G × F, f x = x.1 - x.2 • gen := fun x => rfl
  rw [← hf, rightPair, ← powSum_map, rightSum, List.map_zipWith]
  congr 2
  funext W g
  rw [map_add, ← powSum_map, List.map_map, openingSum]
  congr 1
  rw [hf]
  simp

/-- One proof, evaluated by itself. -/
theorem single (key : String) (u v : c.S) {qs : List (EvalQuery c)} {ws : List c.P} {Ws : List G}
    (hq : ∀ q ∈ qs, q.s.WF L.pv K) (hws : List.Forall₂ L.pv ws Ws) (hne : 2 ≤ ws.length)
    (hlen : ws.length = (groupsOf Claim.rotation (qs.map (L.claim K))).length)
    (hK : ∀ j W, Ws[j]? = some W → K (wKey key j) = W) :
    L.Ens (Api.batchMultiOpen c key u v ws qs >>= Api.evaluateMultiopen c) fun r =>
      L.pv r.1 (leftSum (L.sv u) Ws) ∧ L.pv r.2 (rightSum gen (L.sv u) (L.sv v) Ws (qs.map (L.claim K))) := by
  refine L.bind (L.batchMultiOpen key u v hq hws (by rintro rfl; simp at hne) hlen hK) fun p hp => ?_
  refine L.mono (L.evaluateMultiopen hp.1 (hp.2.2.1 hne) hp.2.1) fun x hx => ?_
  rw [rightPair_value] at hx
  simpa using hx

end Logic

/-! ### What the pairing check proves -/

section Check
variable {F G : Type} [Field F] [AddCommGroup G] [Module F G] {gen : G}

/-- `τ·left = right`, group by group. -/
theorem check_iff (τ u v : F) {Ws : List G} {qs : List (Claim F G)} (hlen : Ws.length = (groupsOf Claim.rotation qs).length) :
    τ • leftSum u Ws = rightSum gen u v Ws qs ↔
      powSum u (List.zipWith (fun W g => (τ - groupPoint g) • W - openingSum gen v g) Ws (groupsOf Claim.rotation qs)) = 0 := by
  rw [← sub_eq_zero, leftSum, rightSum, ← powSum_smul, powSum_sub _ (by simp [hlen]), List.zipWith_map_left]
  have : List.zipWith (fun a b => τ • a - b) Ws
      (List.zipWith (fun W g => groupPoint g • W + openingSum gen v g) Ws (groupsOf Claim.rotation qs)) =
      List.zipWith (fun W g => (τ - groupPoint g) • W - openingSum gen v g) Ws (groupsOf Claim.rotation qs) := by
    apply List.ext_getElem
    · simp
    · intro i h1 h2
      simp only [List.getElem_zipWith]
      rw [sub_smul]
      abel
  rw [this]

theorem check_of_opens {τ u v : F} {Ws : List G} {qs : List (Claim F G)} (hlen : Ws.length = (groupsOf Claim.rotation qs).length)
    (h : List.Forall₂ (Opens τ gen v) Ws (groupsOf Claim.rotation qs)) : τ • leftSum u Ws = rightSum gen u v Ws qs := by
  rw [check_iff τ u v hlen]
  apply powSum_eq_zero_of_all
  intro a ha
  rw [List.mem_iff_getElem] at ha
  obtain ⟨i, hi, rfl⟩ := ha
  rw [List.getElem_zipWith, sub_eq_zero]
  exact (List.forall₂_iff_get.1 h).2 i _ _

theorem opens_of_check {τ v : F} {Ws : List G} {qs : List (Claim F G)} (hlen : Ws.length = (groupsOf Claim.rotation qs).length)
    (U : Finset F) (hU : Ws.length ≤ U.card) (h : ∀ u ∈ U, τ • leftSum u Ws = rightSum gen u v Ws qs) :
    List.Forall₂ (Opens τ gen v) Ws (groupsOf Claim.rotation qs) := by
  have hz := powSum_all_zero (l := List.zipWith (fun W g => (τ - groupPoint g) • W - openingSum gen v g) Ws
    (groupsOf Claim.rotation qs)) U (by simpa [← hlen] using hU) fun u hu => (check_iff τ u v hlen).1 (h u hu)
  refine List.forall₂_iff_get.2 ⟨hlen, fun i h1 h2 => ?_⟩
  exact sub_eq_zero.1 (hz _ (List.mem_iff_getElem.2 ⟨i, by simpa [← hlen] using h1, by rw [List.getElem_zipWith]; rfl⟩))

open Polynomial in
/-- The honest prover: commitments to polynomials with the claimed values, opened with the quotient. -/
theorem opens_honest {τ v : F} {g : List (Claim F G)} {ps : List F[X]} {q : F[X]}
    (hp : List.Forall₂ (fun (p : F[X]) (x : Claim F G) => x.C = p.eval τ • gen ∧ x.e = p.eval (groupPoint g)) ps g)
    (hq : (X - C (groupPoint g)) * q = powSum v (ps.map fun p => p - C (p.eval (groupPoint g)))) :
    Opens τ gen v (q.eval τ • gen) g := by
  have h1 := congrArg (Polynomial.leval τ) hq
  rw [← powSum_map, List.map_map] at h1
  have h2 := congrArg (LinearMap.toSpanSingleton F G gen) h1
  rw [← powSum_map, List.map_map] at h2
  simp only [leval_apply, LinearMap.toSpanSingleton_apply, eval_mul, eval_sub, eval_X, eval_C] at h2
  rw [Opens, smul_smul, h2, openingSum]
  congr 1
  generalize groupPoint g = z at hp
  clear h1 h2 hq
  induction hp with
  | nil => rfl
  | cons h _ ih =>
    rw [List.map_cons, List.map_cons, ih, h.1, h.2]
    simp [sub_smul]

open Polynomial in
/-- The quotient exists. -/
theorem quotient_exists (v z : F) (ps : List F[X]) : ∃ q : F[X], (X - C z) * q = powSum v (ps.map fun p => p - C (p.eval z)) := by
  have : (X - C z) ∣ powSum v (ps.map fun p => p - C (p.eval z)) := by
    rw [dvd_iff_isRoot, IsRoot, ← leval_apply, ← powSum_map, List.map_map]
    apply powSum_eq_zero_of_all
    intro a ha
    obtain ⟨p, -, rfl⟩ := List.mem_map.1 ha
    simp
  exact ⟨_, this.choose_spec.symm⟩

/-- Aggregated pairs: `τ·left = right` is a combination of the individual identities. -/
theorem aggregate_iff (τ ch : F) (xs : List (G × G)) :
    τ • powSum ch (xs.map Prod.fst).reverse = powSum ch (xs.map Prod.snd).reverse ↔
      powSum ch (xs.map fun x => τ • x.1 - x.2).reverse = 0 := by
  rw [← sub_eq_zero, ← powSum_smul, powSum_sub _ (by simp), ← List.map_reverse, ← List.map_reverse, List.map_map, List.zipWith_map,
    List.zipWith_self, List.map_reverse]
  rfl

theorem aggregate_of_all {τ ch : F} {xs : List (G × G)} (h : ∀ x ∈ xs, τ • x.1 = x.2) :
    τ • powSum ch (xs.map Prod.fst).reverse = powSum ch (xs.map Prod.snd).reverse := by
  rw [aggregate_iff]
  apply powSum_eq_zero_of_all
  intro a ha
  rw [List.mem_reverse, List.mem_map] at ha
  obtain ⟨x, hx, rfl⟩ := ha
  rw [h x hx, sub_self]

/-- If some proof fails its identity, the aggregate passes for fewer challenges than there are proofs. -/
theorem aggregate_sound {τ : F} {xs : List (G × G)} (hbad : ∃ x ∈ xs, τ • x.1 ≠ x.2) (U : Finset F)
    (h : ∀ ch ∈ U, τ • powSum ch (xs.map Prod.fst).reverse = powSum ch (xs.map Prod.snd).reverse) : U.card < xs.length := by
  by_contra hU
  obtain ⟨x, hx, hne⟩ := hbad
  have := powSum_all_zero (l := (xs.map fun x => τ • x.1 - x.2).reverse) U (by simpa using hU)
    (fun ch hch => (aggregate_iff τ ch xs).1 (h ch hch)) (τ • x.1 - x.2) (by
      rw [List.mem_reverse]; exact List.mem_map_of_mem hx)
  exact hne (sub_eq_zero.1 this)

end Check

end Verif.Api
