import Verif.Api.Record

/-!
# How many opening proofs a key asks for
-/

namespace Verif.Api

section Spec
variable {F G : Type}

/-- The rotations at which polynomials are opened, for `k` instances. -/
def VK.rotations (vk : VK F G) (k : ℕ) : List ℤ :=
  ((List.range k).flatMap fun _ => vk.instanceQueries.map Prod.snd ++ vk.adviceQueries.map Prod.snd ++
    ((List.range (chunks (vk.degree - 2) vk.permColumns).length).flatMap (fun _ => [0, 1]) ++
      List.replicate ((chunks (vk.degree - 2) vk.permColumns).length - 1) (-((vk.blinding + 1 : ℕ) : ℤ))) ++
    vk.lookups.flatMap fun _ => [0, 0, 0, -1, 1]) ++
  vk.fixedQueries.map Prod.snd ++ List.replicate vk.permutationCommitments.length 0 ++ [0, 0]

end Spec

theorem groupsOf_length {α : Type} (f : α → ℤ) : ∀ (n : ℕ) (l : List α), l.length ≤ n → (groupsOf f l).length = (l.map f).toFinset.card
  | _, [], _ => by simp [groupsOf_nil]
  | 0, q :: l, h => by simp at h
  | n + 1, q :: l, h => by
    rw [groupsOf_cons, List.length_cons, groupsOf_length f n _ ((List.length_filter_le _ _).trans (by simpa using h))]
    have e : ((l.filter fun r => f r ≠ f q).map f).toFinset = (l.map f).toFinset.erase (f q) := by
      ext z
      simp only [List.mem_toFinset, List.mem_map, List.mem_filter, Finset.mem_erase, decide_eq_true_eq]
      constructor
      · rintro ⟨r, ⟨h1, h2⟩, rfl⟩
        exact ⟨h2, r, h1, rfl⟩
      · rintro ⟨h1, r, h2, rfl⟩
        exact ⟨r, ⟨h2, h1⟩, rfl⟩
    have e2 : insert (f q) (l.map f).toFinset = insert (f q) ((l.map f).toFinset.erase (f q)) := by
      ext z
      simp only [Finset.mem_insert, Finset.mem_erase]
      tauto
    rw [e, List.map_cons, List.toFinset_cons, e2, Finset.card_insert_of_notMem (by simp)]

theorem mapIdx_map_snd {α β γ : Type} (l : List (α × β)) (f : ℕ → α × β → γ) (g : γ → β) (h : ∀ i q, g (f i q) = q.2) :
    (l.mapIdx f).map g = l.map Prod.snd := by
  refine List.ext_getElem (by simp) fun i h1 h2 => ?_
  rw [List.getElem_map, List.getElem_mapIdx, List.getElem_map, h]

variable {F G : Type} [Field F] [AddCommGroup G] [Module F G]

theorem flatMap_map_const {α β γ δ : Type} {l : List α} {l' : List γ} (f : α → List β) (g : γ → List β) (h : l.length = l'.length)
    (hfg : ∀ a ∈ l, ∀ b ∈ l', f a = g b) : l.flatMap f = l'.flatMap g := by
  induction l generalizing l' with
  | nil => cases l' with
    | nil => rfl
    | cons b l' => simp at h
  | cons a l ih => cases l' with
    | nil => simp at h
    | cons b l' =>
      rw [List.flatMap_cons, List.flatMap_cons, hfg a (by simp) b (by simp), ih (by simpa using h) fun a' ha' b' hb' =>
        hfg a' (by simp [ha']) b' (by simp [hb'])]

theorem Params.claims_rotation {vk : VK F G} {v : Params G F} {Is : List (List G)} {pre : String} (hs : v.Shape vk Is pre)
    (hf : v.For vk) : v.claims.map Claim.rotation = vk.rotations Is.length := by
  have hcol : ∀ (qs : List (ℕ × ℤ)) (cs : List G) (es : List F), (v.columnClaims qs cs es).map Claim.rotation = qs.map Prod.snd :=
    fun qs cs es => mapIdx_map_snd qs _ _ fun _ _ => rfl
  unfold Params.claims VK.rotations
  simp only [List.map_append, List.map_cons, List.map_nil, hcol, hs.instanceCommitments, hs.fixedQueries]
  have h1 : (List.zipWith (fun C e => (⟨0, v.x, C, e⟩ : Claim F G)) v.permutationCommitments v.permutationEvals).map Claim.rotation =
      List.replicate vk.permutationCommitments.length 0 := by
    rw [List.map_zipWith, List.eq_replicate_iff]
    refine ⟨by rw [List.length_zipWith, hf.permutationCommitments, hs.permutationEvals, min_self], fun b hb => ?_⟩
    obtain ⟨i, hi, rfl⟩ := List.mem_iff_getElem.1 hb
    rw [List.getElem_zipWith]
  rw [h1]
  congr 3
  rw [List.map_flatMap]
  refine List.flatMap_congr fun i hi => ?_
  rw [List.mem_range] at hi
  unfold Params.proofClaims
  simp only [List.map_append, hcol, hs.instanceQueries, hs.adviceQueries]
  have hi1 : i < v.perms.length := by rw [hs.permsLen]; exact hi
  have hi2 : i < v.lookups.length := by rw [hs.lookupsLen]; exact hi
  congr 1
  · congr 1
    obtain ⟨-, g2, -, -, g5, -⟩ := hs.perms i _ (List.getElem?_eq_getElem hi1)
    rw [List.getElem?_eq_getElem hi1]
    show (PermEval.claims _ v).map _ = _
    unfold PermEval.claims
    rw [List.map_append, List.map_flatMap, List.map_map, g2]
    congr 1
    · exact flatMap_map_const (δ := ℕ) _ _ (by simp [g5]) fun _ _ _ _ => rfl
    · rw [List.eq_replicate_iff]
      refine ⟨by simp [g5], fun b hb => ?_⟩
      obtain ⟨s, -, rfl⟩ := List.mem_map.1 hb
      rfl
  · obtain ⟨g1, -⟩ := hs.lookups i _ (List.getElem?_eq_getElem hi2)
    rw [List.getD_eq_getElem?_getD, List.getElem?_eq_getElem hi2, Option.getD_some, List.map_flatMap]
    exact flatMap_map_const (δ := ℕ) _ _ g1 fun _ _ _ _ => rfl

/-- The number of groups of claims is the number of different rotations, which the key determines. -/
theorem Params.groups_length {vk : VK F G} {v : Params G F} {Is : List (List G)} {pre : String} (hs : v.Shape vk Is pre)
    (hf : v.For vk) : (groupsOf Claim.rotation v.claims).length = (vk.rotations Is.length).toFinset.card := by
  rw [groupsOf_length _ _ _ le_rfl, claims_rotation hs hf]

end Verif.Api
