import Verif.Sol.Script

/-!
# The generated verifier: C73

A call of the generated function that does not revert has computed the pair of points that belongs to the proof and the instances of the
call, with the challenges of its own transcript.
-/

namespace Verif.Api
variable {P S P' S' : Type} (f : P → P') (g : S → S')

/-- Events with other points and scalars. -/
def Event.map : Event P S → Event P' S'
  | .commonPoint p => .commonPoint (f p)
  | .commonScalar s => .commonScalar (g s)
  | .point p => .point (f p)
  | .scalar s => .scalar (g s)
  | .challenge s => .challenge (g s)

theorem Params.layout_map {F G : Type} (vk : VK F G) (digest : S) (p : Params P S) :
    (p.map f g).layout vk (g digest) = (p.layout vk digest).map (Event.map f g) := by
  unfold layout
  have hflat : ∀ {α β γ : Type} (h : α → β) (e : β → γ) (l : List (List α)), (l.map (List.map h)).flatten.map e = l.flatten.map fun a => e (h a) := by
    intro α β γ h e l
    rw [← List.map_flatten, List.map_map]
    rfl
  have app : ∀ {a a' : List (Event P' S')} {b b' : List (Event P S)}, a = b.map (Event.map f g) → a' = b'.map (Event.map f g) →
      a ++ a' = (b ++ b').map (Event.map f g) := by
    rintro _ _ b b' rfl rfl
    rw [List.map_append]
  refine app (app (app (app (app (app (app (app (app (app (app (app (app (app (app (app (app (app (app (app (app ?_ ?_) ?_) ?_) ?_) ?_) ?_) ?_) ?_)
    ?_) ?_) ?_) ?_) ?_) ?_) ?_) ?_) ?_) ?_) ?_) ?_) ?_
  all_goals simp only [Params.map, List.map_cons, List.map_nil, List.map_map, List.map_flatMap, List.flatMap_map, List.map_append, hflat,
    Event.map, onPhase_map, PermEval.map, LookupEval.map, PermSet.map, Function.comp_def, Option.toList_map]
  all_goals (rw [← List.map_flatten, List.flatMap_map]; rfl)

variable {F G : Type} [Field F] [AddCommGroup G] [Module F G] {c : Chip F G} {gen : G} {L : Logic c gen}

theorem Logic.evaluate_opened {K : String → G} {r : MultiOpen c} {v : Params G F} (ho : L.Opened K r v) (hw : 2 ≤ v.w.length) :
    L.Ens (Api.evaluateMultiopen c r) fun x => L.pv x.1 v.left ∧ L.pv x.2 (v.right gen) := by
  refine L.mono (L.evaluateMultiopen ho.pair (ho.wx hw) ho.wg) fun x hx => ?_
  rw [rightPair_value] at hx
  refine ⟨?_, hx.2⟩
  have hx1 := hx.1
  rwa [show (v.left, (0 : F)).2 = 0 from rfl, zero_smul, add_zero] at hx1

end Verif.Api

namespace Verif.Sol
open Verif.Circuit Verif.Ecc

variable {χ : Word → Word → Pt} {E : Env} {s : St}

/-! ### Divisions -/

theorem GEns.and {α : Type} {x : Gen α} {Q R : α → Prop} (h1 : GEns E s x Q) (h2 : GEns E s x R) : GEns E s x fun a => Q a ∧ R a :=
  fun k a k' hk hm hc hh => ⟨h1 k a k' hk hm hc hh, h2 k a k' hk hm hc hh⟩

theorem GEns.const {α : Type} {x : Gen α} {X : Prop} (h : X) : GEns E s x fun _ => X := fun _ _ _ _ _ _ _ => h

/-- A value in a location that is below the modulus, or a constant. -/
def SVal.Canon (E : Env) (s : St) (a : SVal) : Prop := ∀ w, eval E s a.expr = some (.s w) → w.toNat < frMod

theorem SVal.canon_const {a : SVal} (h : a.isConst = true) : a.Canon E s := by
  intro w hw
  rw [a.lit h] at hw
  obtain ⟨u, h1, h2⟩ := Option.map_eq_some_iff.1 (show (Sol.lit a.v.val).map Val.s = some (.s w) from hw)
  cases h2
  rw [(lit_eq h1).2]
  exact ZMod.val_lt _

theorem wordOf_lt (a : N) : (wordOf a).toNat < frMod := by
  rw [wordOf_toNat]
  exact ZMod.val_lt a

theorem SVal.sub_canon {a b : SVal} (hb : sval E s b.expr ≠ 0) : GEns E s (a.sub b) (SVal.Canon E s) := by
  unfold sub
  split
  · exact .pure (canon_const rfl)
  split
  · next h => exact absurd ((sval_lit h.1).trans h.2) hb
  refine .bind (.assignMemory nofun) fun o ho => .pure fun w hw => ?_
  obtain ⟨v, h1, h2⟩ := ho
  have hw' : eval E s (.memory o .scalar) = some (.s w) := hw
  obtain rfl : v = .s w := Option.some.inj (h1.symm.trans hw')
  obtain ⟨x, y, g1, g2, g3⟩ := eval_bin h2
  cases x <;> cases y <;> simp only [opSub, reduceCtorEq] at g3
  next x y =>
    obtain ⟨u, h3, h4⟩ := Option.map_eq_some_iff.1 g3
    cases h4
    by_cases hy : y.toNat ≤ frMod
    · rw [C50_sub hy] at h3
      cases h3
      exact wordOf_lt _
    · rw [C50_sub_reverts (by omega)] at h3
      cases h3

/-- The contract has no division by zero, as long as the divisor is below the modulus. -/
theorem SVal.div_strict {a b : SVal} (hb : b.Canon E s) : GEns E s (a.div b) fun _ => sval E s b.expr ≠ 0 := by
  unfold div
  split
  · exact .fail
  next h0 =>
  split
  · next h => exact .const (by rw [sval_lit h.2]; exact h0)
  split
  · next h => exact .const (by rw [sval_lit (a := b) h.1]; exact h0)
  refine .mono (.scalar nofun rfl) fun r ⟨w, h1, h2⟩ => ?_
  obtain ⟨x, y, g1, g2, g3⟩ := eval_bin h1
  cases x <;> cases y <;> simp only [opDiv, reduceCtorEq] at g3
  next x y =>
    obtain ⟨u, h3, h4⟩ := Option.map_eq_some_iff.1 g3
    rw [← b.eval_s g2]
    exact (C50_div_canonical (hb y g2) h3).1

open Api in
/-- The division of the vanishing argument. -/
theorem vanish_strict {es : List SVal} {y xn one : SVal} {random : PVal} {re : SVal} {cs : List PVal} {key : String} (h1 : sval E s one.expr = 1) :
    GEns E s (VanishEval.new genChip es y xn random re cs one key : Gen _) fun _ => sval E s xn.expr ≠ 1 := by
  refine .bind (.triv _) fun e _ => .bind (Q := fun _ => sval E s xn.expr ≠ 1) ?_ fun _ h => .const h
  refine .bind (.triv _) fun e' _ => .bind (Q := fun d => SVal.Canon E s d ∧ sval E s (SVal.expr d) = sval E s xn.expr - sval E s one.expr) ?_
    fun d hd => .mono (SVal.div_strict hd.1) fun _ h => ?_
  · refine .bind (.pure rfl) fun xn' (hx : xn = xn') => .bind (.pure rfl) fun one' (ho : one = one') => ?_
    subst hx ho
    exact .and (SVal.sub_canon (by rw [h1]; exact one_ne_zero)) (SVal.sub_ens _ _)
  · rw [hd.2, h1] at h
    exact fun hx => h (by rw [hx, sub_self])

open Api in
/-- A recorded opening that holds is at a challenge outside of the domain. -/
theorem open_strict {p : Params PVal SVal} (h1 : sval E s p.one.expr = 1) :
    GEns E s (openParams (c := genChip) p : Gen _) fun _ => sval E s p.xn.expr ≠ 1 := by
  refine .bind (Q := fun _ => sval E s p.xn.expr ≠ 1) ?_ fun _ h => .const h
  refine .bind (.triv _) fun _ _ => .bind (.triv _) fun _ _ => .bind (.triv _) fun _ _ => .bind (.triv _) fun _ _ => .bind (.triv _) fun _ _ =>
    .bind (.triv _) fun _ _ => .bind (.triv _) fun _ _ => .bind (.triv _) fun _ _ => .bind (vanish_strict h1) fun _ h => .const h

/-! ### Commitments -/

/-- The words describe a point; so they are those of its coordinates. -/
def PVal.Canon (E : Env) (s : St) (a : PVal) : Prop := ∀ x y, eval E s a.expr = some (.p x y) → ∃ P, g1 x y = some P

namespace PVal

theorem canon_const {a : PVal} (h : a.isConst = true) : a.Canon E s := by
  intro x y hxy
  rw [a.lit h] at hxy
  obtain ⟨u, h1, h2⟩ := Option.bind_eq_some_iff.1 hxy
  obtain ⟨v, h3, h4⟩ := Option.bind_eq_some_iff.1 h2
  cases h4
  exact ⟨a.v, g1_iff.2 (by rw [(lit_eq h1).1, (lit_eq h3).1]; rfl)⟩

theorem point_canon {e : Expr} {v : Pt} (he : ∀ o, e ≠ .hash o) (ht : e.type = .point) (hc : ∀ x y, eval E s e = some (.p x y) → ∃ P, g1 x y = some P) :
    GEns E s (Gen.point e v) (Canon E s) := by
  unfold Gen.point
  split
  · exact .fail
  · refine .bind (.assignMemory he) fun o ho => .pure fun x y hxy => hc x y ?_
    obtain ⟨v, h1, h2⟩ := ho
    rw [ht] at h1
    rw [h2, ← h1]
    exact hxy

theorem add_canon (a b : PVal) : GEns E s (a.add b) (Canon E s) := by
  unfold add
  split
  · exact .pure (canon_const rfl)
  refine point_canon nofun rfl fun x y h => ?_
  obtain ⟨u, v, e1, e2, e3⟩ := eval_bin h
  obtain ⟨ax, ay, bx, by', rfl, rfl, h3⟩ := opAdd_point e3
  obtain ⟨P, k1, h4⟩ := Option.bind_eq_some_iff.1 h3
  obtain ⟨Q, k2, h5⟩ := Option.bind_eq_some_iff.1 h4
  exact ⟨_, g1_iff.2 (Option.some.inj h5).symm⟩

theorem mulConstant_canon (k : SVal) (P : Pt) : GEns E s (mulConstant k P) (Canon E s) := by
  unfold mulConstant
  split
  · exact .pure (canon_const rfl)
  refine point_canon nofun rfl fun x y h => ?_
  obtain ⟨u, v, e1, e2, e3⟩ := eval_bin h
  obtain ⟨w, px, py, rfl, rfl, h3⟩ := opMul_point e3
  obtain ⟨P, k1, h4⟩ := Option.bind_eq_some_iff.1 h3
  exact ⟨_, g1_iff.2 (Option.some.inj h4).symm⟩

end PVal

open Api

theorem columnAcc_canon {vk : VK N Pt} : ∀ (l : List SVal) (i : ℕ) (acc : Option PVal), (∀ a, acc = some a → a.Canon E s) →
    GEns E s (columnAcc (c := genChip) vk i l acc : Gen _) fun r => ∀ a : PVal, r = some a → a.Canon E s
  | [], i, acc, h => .pure h
  | k :: l, i, acc, h => by
    refine .bind (.triv _) fun g _ => .bind (PVal.mulConstant_canon k g) fun ls hl => ?_
    cases acc with
    | none => exact columnAcc_canon l _ _ fun a ha => by cases ha; exact hl
    | some a => exact .bind (PVal.add_canon a ls) fun a' ha' => columnAcc_canon l _ _ fun b hb => by cases hb; exact ha'

theorem columnCommitment_canon (vk : VK N Pt) (col : List SVal) : GEns E s (columnCommitment (c := genChip) vk col : Gen _) (PVal.Canon E s) := by
  refine .bind (columnAcc_canon col 0 none nofun) fun r hr => ?_
  cases r with
  | none => exact .pure (PVal.canon_const rfl)
  | some a => exact .pure (hr a rfl)

theorem mapM'_canon {α β : Type} {f : α → Gen β} {Q : β → Prop} (hf : ∀ a, GEns E s (f a) Q) : ∀ l : List α,
    GEns E s (mapM' genChip f l : Gen _) fun bs => ∀ b ∈ bs, Q b
  | [] => .pure (by simp)
  | a :: l => .bind (hf a) fun b hb => .bind (mapM'_canon hf l) fun bs hbs => .pure (by simpa using ⟨hb, hbs⟩)

theorem commitments_canon (vk : VK N Pt) (instances : List (List (List N))) :
    GEns E s (assignInstanceCommitment (c := genChip) vk instances : Gen _) fun r => ∀ row ∈ r.2, ∀ p ∈ row, PVal.Canon E s p := by
  unfold assignInstanceCommitment
  split
  · exact .bind (.triv _) fun as _ => .bind (mapM'_canon (mapM'_canon (columnCommitment_canon vk)) as) fun cs hcs => .pure hcs
  · exact .fail

theorem mulConstant_reads (k : SVal) (P : Pt) : GEns E s (PVal.mulConstant k P) fun _ => ∃ w, eval E s k.expr = some (.s w) := by
  unfold PVal.mulConstant
  split
  · next h =>
    refine .const ?_
    rw [k.lit h]
    exact ⟨BitVec.ofNat 256 k.v.val, by simp only [eval, lit, if_pos ((ZMod.val_lt k.v).trans frMod_lt)]; rfl⟩
  refine .mono (.point (χ := fun _ _ => 0) nofun rfl) fun r ⟨x, y, h1, h2⟩ => ?_
  obtain ⟨u, v, e1, e2, e3⟩ := eval_bin h1
  obtain ⟨w, px, py, rfl, rfl, h3⟩ := opMul_point e3
  exact ⟨w, e1⟩

theorem columnAcc_reads {vk : VK N Pt} : ∀ (l : List SVal) (i : ℕ) (acc : Option PVal),
    GEns E s (columnAcc (c := genChip) vk i l acc : Gen _) fun _ => ∀ a ∈ l, ∃ w, eval E s a.expr = some (.s w)
  | [], i, acc => .const (by simp)
  | k :: l, i, acc => by
    refine .bind (.triv _) fun g _ => .bind (mulConstant_reads k g) fun ls hl => ?_
    have he : ∀ acc, GEns E s (columnAcc (c := genChip) vk (i + 1) l acc : Gen _) fun _ => ∀ a ∈ k :: l, ∃ w, eval E s a.expr = some (.s w) :=
      fun acc => .mono (columnAcc_reads l _ _) fun _ h => by simpa using ⟨hl, h⟩
    cases acc with
    | none => exact he _
    | some a => exact .bind (.triv _) fun a' _ => he _

theorem mapM'_reads {α β : Type} {f : α → Gen β} {R : α → Prop} (hf : ∀ a, GEns E s (f a) fun _ => R a) : ∀ l : List α,
    GEns E s (mapM' genChip f l : Gen _) fun _ => ∀ a ∈ l, R a
  | [] => .const (by simp)
  | a :: l => .bind (hf a) fun b hb => .bind (mapM'_reads hf l) fun bs hbs => .const (by simpa using ⟨hb, hbs⟩)

/-- The assigned instances are words of the call. -/
theorem instances_read (vk : VK N Pt) (instances : List (List (List N))) :
    GEns E s (assignInstanceCommitment (c := genChip) vk instances : Gen _) fun r => ∀ a ∈ r.1, ∃ w, eval E s (SVal.expr a) = some (.s w) := by
  unfold assignInstanceCommitment
  split
  · refine .bind (.triv _) fun as _ => .bind (mapM'_reads (mapM'_reads fun col => .bind (columnAcc_reads col 0 none) fun _ h => .const h) as) fun cs hcs =>
      .pure fun a ha => ?_
    obtain ⟨col, h1, h2⟩ := List.mem_flatten.1 ha
    obtain ⟨i, h3, h4⟩ := List.mem_flatten.1 h1
    exact hcs i h3 col h4 a h2
  · exact .fail

/-! ### Values -/

variable {rate : ℕ} {hχ : χ 0 pMod = 0}

/-- `verify_single_proof_no_eval`, with what the divisions of the contract add. -/
theorem verifyNoEval_strict {T : Transcript genChip} {d : Codec N Pt} (hd : 0 < d.pointLen) {vk : VK N Pt} (hvk : vk.WF) (hdom : vk.Domain)
    {ics : List (List PVal)} {Is : List (List Pt)} (hI : List.Forall₂ (List.Forall₂ (contractLogic E s hχ).pv) ics Is)
    (hrow : ∀ r ∈ ics, r.length = vk.numInstance) (key : String) (m : ℕ) :
    (contractLogic E s hχ).Reads (T := T) d (vk.kinds ics.length m) (verifyNoEval d vk ics key) fun r evs => ∃ p : Params PVal SVal,
      (p.Shape vk ics key ∧ (contractLogic E s hχ).Values vk p ∧ (∃ k, (contractLogic E s hχ).known k vk.digest ∧ evs = p.layout vk k) ∧
        p.adviceCommitments[0]? = some r.2 ∧
        ((contractLogic E s hχ).Usable vk p → ∀ K : String → Pt, (∀ e ∈ ((contractLogic E s hχ).record vk Is p).keyTable, K e.1 = e.2) →
          (contractLogic E s hχ).Opened K r.1 ((contractLogic E s hχ).record vk Is p))) ∧ sval E s p.xn.expr ≠ 1 := by
  have hP : (contractLogic E s hχ).Partial := contract_partial
  refine Logic.Reads.bind0 ((contractLogic E s hχ).buildParams d (contract_safe T) hd hvk (hdom.omega_ne hvk.n.1) ics key m) fun p evs hp => ?_
  obtain ⟨hs, hv, -, k, hs1, hs2⟩ := hp
  refine Logic.Reads.bind0' (Logic.Reads.lift (GEns.and (Logic.openParams_partial hP hvk hdom hI hrow hs hv) (open_strict hv.one))) fun r e1 hr => ?_
  refine Logic.Reads.bind0' (Logic.Reads.lift (x := Api.index genChip p.adviceCommitments 0) (post := fun a => p.adviceCommitments[0]? = some a) ?_)
    fun a e2 ha => Logic.Reads.ret ⟨p, ⟨hs, hv, ⟨k, hs1, ?_⟩, ha.1, hr.1.1⟩, hr.1.2⟩
  · by_cases h0 : 0 < p.adviceCommitments.length
    · exact (contractLogic E s hχ).mono ((contractLogic E s hχ).index h0) fun a ha => by rw [ha, List.getElem?_eq_getElem h0]
    · unfold Api.index
      rw [List.getElem?_eq_none (by omega)]
      exact hP.panic _
  · rw [hs2, hr.2, ha.2, List.append_nil, List.append_nil, List.append_nil]
    rfl

variable (E s hχ) in
/-- What the recorded values stand for, when the recorded assignments hold. -/
structure Job.Means (j : Job rate) (r : Recording j) (as : List (List (List SVal))) (p : Params PVal SVal) : Prop where
  scalars : r.scalars = as.flatten.flatten
  assigned : List.Forall₂ (List.Forall₂ (List.Forall₂ fun a k => SVal.v a = k)) as j.instances
  commitments : List.Forall₂ (List.Forall₂ (contractLogic E s hχ).pv) p.instanceCommitments
    (as.map (List.map fun col => j.vk.commit (col.map (contractLogic E s hχ).sv)))
  reads : ∀ a ∈ r.scalars, ∃ w, eval E s a.expr = some (.s w)
  canon : ∀ row ∈ p.instanceCommitments, ∀ q ∈ row, q.Canon E s
  shape : p.Shape j.vk p.instanceCommitments ""
  values : (contractLogic E s hχ).Values j.vk p
  trace : ∃ k : SVal, k.isConst = true ∧ k.v = j.vk.digest ∧ r.reader.trace = p.layout j.vk k
  xn : sval E s p.xn.expr ≠ 1
  pair : j.instances.length = 1 → 2 ≤ (j.vk.rotations 1).toFinset.card →
    pval χ E s r.left.expr = ((contractLogic E s hχ).valueOf j.vk as p).left ∧
    pval χ E s r.right.expr = ((contractLogic E s hχ).valueOf j.vk as p).right gen

theorem Job.means {j : Job rate} (hd : 0 < j.d.pointLen) (hvk : j.vk.WF) (hdom : j.vk.Domain) :
    GEns E s j.record fun r => ∃ as p, j.Means E s hχ r as p := by
  have hP : (contractLogic E s hχ).Partial := contract_partial
  refine .bind (.triv _) fun sp _ => .bind (.triv _) fun _ _ =>
    .bind (GEns.and ((contractLogic E s hχ).assignInstanceCommitment hdom.basis j.instances (.inr hP)) (.and (commitments_canon j.vk j.instances) (instances_read j.vk j.instances))) fun i hi =>
    .bind (.triv _) fun _ _ => ?_
  obtain ⟨⟨as, h1, h2, h3, h4⟩, hcanon, hreads⟩ := hi
  refine .bind (verifyNoEval_strict hd hvk hdom h4 h3 "" 0 _ [] (.inr hP)) fun r hr => ?_
  obtain ⟨-, evs, t1, t2, p, ⟨g1, g2, ⟨k, g3, g4⟩, g5, g6⟩, hxn⟩ := hr
  have hu : (contractLogic E s hχ).Usable j.vk p := by
    refine ⟨fun q _ => ⟨_, rfl⟩, fun hx => hxn ?_⟩
    exact g2.xn.trans hx
  refine .bind (Q := fun e => j.instances.length = 1 → 2 ≤ (j.vk.rotations 1).toFinset.card →
      pval χ E s (PVal.expr e.1) = ((contractLogic E s hχ).valueOf j.vk as p).left ∧
      pval χ E s (PVal.expr e.2) = ((contractLogic E s hχ).valueOf j.vk as p).right gen) ?_ fun e he => .pure ⟨as, p, ?_⟩
  · by_cases hc : j.instances.length = 1 ∧ 2 ≤ (j.vk.rotations 1).toFinset.card
    · obtain ⟨c1, c3⟩ := hc
      have hsh : ((contractLogic E s hχ).valueOf j.vk as p).Shape j.vk _ "" := Logic.record_shape h4 g1
      obtain ⟨K, hK⟩ := Params.keys_single hsh.keyed (show (as.map _).length = 1 by rw [List.length_map, h2.length_eq, c1])
      have ho := g6 hu K hK
      have hwl : 2 ≤ ((contractLogic E s hχ).valueOf j.vk as p).w.length := by
        have hl : (as.map (List.map fun col => j.vk.commit (col.map (contractLogic E s hχ).sv))).length = 1 := by rw [List.length_map, h2.length_eq, c1]
        have h5 := ho.w_length hsh g2
        rw [hl] at h5
        exact (h5 ▸ c3).trans_eq (List.length_map _).symm
      exact (contractLogic E s hχ).mono (Logic.evaluate_opened ho hwl) fun x hx _ _ => hx
    · exact .mono (.triv _) fun x _ c1 c3 => absurd ⟨c1, c3⟩ hc
  · have hic := g1.instanceCommitments
    constructor
    · exact h1
    · exact h2
    · rw [hic]; exact h4
    · exact hreads
    · rw [hic]; exact hcanon
    · rw [hic]; exact g1
    · exact g2
    · exact ⟨k, g3.1, g3.2, t1.trans ((List.nil_append _).trans g4)⟩
    · exact hxn
    · exact he

/-! ### The transcript -/

variable (χ) in
/-- The transcript of a call: what is absorbed, where the values come from, and where the position in the proof is afterwards. What the
verifier knows is absorbed as the words of its value; what comes from the proof is absorbed as it stands there. -/
inductive Follows (c : Call) (start : Abs) : List (Event Pt N) → ℕ → Abs → Prop
  | nil : Follows c start [] 0 start
  | commonPoint {tr : List (Event Pt N)} {t : ℕ} {a b : Abs} (P : Pt) : Follows c start tr t a →
    absStep c.D a (.point (g1Words P).1 (g1Words P).2) = some (b, none) → Follows c start (tr ++ [.commonPoint P]) t b
  | commonScalar {tr : List (Event Pt N)} {t : ℕ} {a b : Abs} (k : N) : Follows c start tr t a →
    absStep c.D a (.scalar (wordOf k)) = some (b, none) → Follows c start (tr ++ [.commonScalar k]) t b
  | point {tr : List (Event Pt N)} {t : ℕ} {a b : Abs} {x y : Word} : Follows c start tr t a → c.proof[t]? = some x → c.proof[t + 1]? = some y →
    absStep c.D a (.point x y) = some (b, none) → Follows c start (tr ++ [.point (ptOf χ x y)]) (t + 2) b
  | scalar {tr : List (Event Pt N)} {t : ℕ} {a b : Abs} {w : Word} : Follows c start tr t a → c.proof[t]? = some w →
    absStep c.D a (.scalar w) = some (b, none) → Follows c start (tr ++ [.scalar (frOf w)]) (t + 1) b
  | challenge {tr : List (Event Pt N)} {t : ℕ} {a b : Abs} {w : Word} : Follows c start tr t a → absStep c.D a .challenge = some (b, some w) →
    Follows c start (tr ++ [.challenge (frOf w)]) t b

theorem replay_append {cs ds : List Stmt} {abs r : List Word} (h : replay E s abs (cs ++ ds) = some r) :
    ∃ m, replay E s abs cs = some m ∧ replay E s m ds = some r := by
  induction cs generalizing abs with
  | nil => exact ⟨abs, rfl, h⟩
  | cons x cs ih =>
    match x, h with
    | .updateHash e off, h =>
      obtain ⟨v, h1, h2⟩ := Option.bind_eq_some_iff.1 (show ((eval E s e).bind _) = some r from h)
      obtain ⟨s', h3, h4⟩ := Option.bind_eq_some_iff.1 h2
      obtain ⟨m, h5, h6⟩ := ih h4
      refine ⟨m, ?_, h6⟩
      show ((eval E s e).bind _) = some m
      rw [h1, Option.bind_some, h3]
      exact h5
    | .assign (.memory o t) (.hash off), h =>
      obtain ⟨v, h1, h2⟩ := Option.bind_eq_some_iff.1 (show ((squeezeChallenge E.D abs off).bind _) = some r from h)
      split at h2
      · next h3 =>
        obtain ⟨m, h5, h6⟩ := ih h2
        refine ⟨m, ?_, h6⟩
        show ((squeezeChallenge E.D abs off).bind _) = some m
        rw [h1, Option.bind_some, if_pos h3]
        exact h5
      · cases h2

theorem readArr_get_scalar {a : List Word} {o : ℕ} {w : Word} (h : readArr a o .scalar = some (.s w)) : a[o]? = some w := by
  obtain ⟨u, h1, h2⟩ := Option.map_eq_some_iff.1 h
  cases h2
  exact h1

theorem readArr_get_point {a : List Word} {o : ℕ} {x y : Word} (h : readArr a o .point = some (.p x y)) : a[o]? = some x ∧ a[o + 1]? = some y := by
  obtain ⟨u, h1, h2⟩ := Option.bind_eq_some_iff.1 h
  obtain ⟨v, h3, h4⟩ := Option.bind_eq_some_iff.1 h2
  cases h4
  exact ⟨h1, h3⟩

/-- Events whose words are known without the call. -/
def Event.Known (E : Env) (s : St) : Event PVal SVal → Prop
  | .commonPoint p => p.Canon E s
  | .commonScalar k => k.isConst = true
  | _ => True

theorem replay_update {e : Expr} {off : ℕ} {abs abs' : List Word} (h : replay E s abs [.updateHash e off] = some abs') :
    ∃ v, eval E s e = some v ∧ ∃ s', absorb { s with abs := abs } off e.type v = some s' ∧ s'.abs = abs' := by
  obtain ⟨v, h1, h2⟩ := Option.bind_eq_some_iff.1 (show ((eval E s e).bind _) = some abs' from h)
  obtain ⟨s', h3, h4⟩ := Option.bind_eq_some_iff.1 h2
  cases h4
  exact ⟨v, h1, s', h3, rfl⟩

theorem replay_point {p : PVal} {off : ℕ} {abs abs' : List Word} (h : replay E s abs [.updateHash p.expr off] = some abs') :
    ∃ x y, eval E s p.expr = some (.p x y) ∧ updateHashPoint x y abs off = some abs' := by
  obtain ⟨v, h1, s', h2, rfl⟩ := replay_update h
  obtain ⟨x, y, rfl, -⟩ := eval_pform (χ := fun _ _ => 0) p.form h1
  have ht : p.expr.type = .point := p.form.typed.1
  rw [ht] at h2
  obtain ⟨a, h3, rfl⟩ := Option.map_eq_some_iff.1 h2
  exact ⟨x, y, h1, h3⟩

theorem replay_scalar {k : SVal} {off : ℕ} {abs abs' : List Word} (h : replay E s abs [.updateHash k.expr off] = some abs') :
    ∃ w, eval E s k.expr = some (.s w) ∧ updateHashScalar w abs off = some abs' := by
  obtain ⟨v, h1, s', h2, rfl⟩ := replay_update h
  obtain ⟨w, rfl, -⟩ := eval_sform k.form h1
  have ht : k.expr.type = .scalar := k.form.typed.1
  rw [ht] at h2
  obtain ⟨a, h3, rfl⟩ := Option.map_eq_some_iff.1 h2
  exact ⟨w, h1, h3⟩

theorem Linked.follows {c : Call} {size : ℕ} {tr : List (Event PVal SVal)} {cs : List Stmt} {a m t : ℕ} (h : Linked tr cs a m t)
    (hk : ∀ e ∈ tr, Event.Known (c.env size) s e) {abs0 abs : List Word} (hr : replay (c.env size) s abs0 cs = some abs) :
    Follows χ c ⟨abs0, 0⟩ (tr.map (Event.map (fun p => pval χ (c.env size) s p.expr) fun k => sval (c.env size) s k.expr)) t ⟨abs, a⟩ := by
  induction h generalizing abs with
  | nil =>
    cases hr
    exact .nil
  | commonPoint p _ ih =>
    obtain ⟨b, h1, h2⟩ := replay_append hr
    have g := ih (fun e he => hk e (List.mem_append_left _ he)) h1
    obtain ⟨x, y, h3, h4⟩ := replay_point h2
    obtain ⟨P, hP⟩ : ∃ P, g1 x y = some P := hk _ (List.mem_append_right _ (List.mem_singleton.2 rfl)) x y h3
    rw [List.map_append]
    refine .commonPoint _ g ?_
    dsimp only
    rw [← p.eval_p h3, ptOf_eq hP, ← g1_iff.1 hP]
    show (updateHashPoint x y b _).map _ = _
    rw [h4]
    rfl
  | commonScalar k _ ih =>
    obtain ⟨b, h1, h2⟩ := replay_append hr
    have g := ih (fun e he => hk e (List.mem_append_left _ he)) h1
    obtain ⟨w, h3, h4⟩ := replay_scalar h2
    have hc : k.isConst = true := hk _ (List.mem_append_right _ (List.mem_singleton.2 rfl))
    rw [List.map_append]
    refine .commonScalar _ g ?_
    dsimp only
    rw [← k.eval_s h3, wordOf_frOf (SVal.canon_const hc w h3)]
    show (updateHashScalar w b _).map _ = _
    rw [h4]
    rfl
  | @point tr cs a m t p _ hp ih =>
    obtain ⟨b, h1, h2⟩ := replay_append hr
    have g := ih (fun e he => hk e (List.mem_append_left _ he)) h1
    obtain ⟨x, y, h3, h4⟩ := replay_point h2
    have h3' := h3
    rw [hp] at h3'
    obtain ⟨g1, g2⟩ := readArr_get_point (show readArr c.proof t .point = some (.p x y) from h3')
    rw [List.map_append]
    have := Follows.point (χ := χ) g g1 g2 (b := ⟨abs, a + 3⟩) (by
      show (updateHashPoint x y b _).map _ = _
      rw [h4]
      rfl)
    rw [p.eval_p h3] at this
    exact this
  | @scalar tr cs a m t k _ hp ih =>
    obtain ⟨b, h1, h2⟩ := replay_append hr
    have g := ih (fun e he => hk e (List.mem_append_left _ he)) h1
    obtain ⟨w, h3, h4⟩ := replay_scalar h2
    have h3' := h3
    rw [hp] at h3'
    have g1 := readArr_get_scalar (show readArr c.proof t .scalar = some (.s w) from h3')
    rw [List.map_append]
    have := Follows.scalar (χ := χ) g g1 (b := ⟨abs, a + 2⟩) (by
      show (updateHashScalar w b _).map _ = _
      rw [h4]
      rfl)
    rw [k.eval_s h3] at this
    exact this
  | @challenge tr cs a m t o k _ hp ih =>
    obtain ⟨b, h1, h2⟩ := replay_append hr
    have g := ih (fun e he => hk e (List.mem_append_left _ he)) h1
    obtain ⟨v, h3, h4⟩ := Option.bind_eq_some_iff.1 (show ((squeezeChallenge c.D b a).bind _) = some abs from h2)
    split at h4
    · next h5 =>
      cases h4
      rw [List.map_append]
      have := Follows.challenge (χ := χ) g (b := ⟨v.1, 1⟩) (w := v.2) (by
        show (squeezeChallenge c.D b a).map _ = _
        rw [h3]
        rfl)
      rw [h5] at this
      have e : sval (c.env size) s k.expr = frOf (s.m o) := by rw [hp]; rfl
      rw [← e] at this
      exact this
    · cases h4

/-! ### The theorem -/

theorem contract_ptOf (p : PVal) : (contractLogic E s hχ).ptOf p = pval χ E s p.expr :=
  ((contractLogic E s hχ).pv_ptOf ⟨_, rfl⟩).symm

theorem layout_record {vk : VK N Pt} {Is : List (List Pt)} {p : Params PVal SVal} (hI : List.Forall₂ (List.Forall₂ (contractLogic E s hχ).pv) p.instanceCommitments Is)
    {k : SVal} (hk : k.isConst = true) (hv : k.v = vk.digest) : ((contractLogic E s hχ).record vk Is p).layout vk vk.digest =
      (p.layout vk k).map (Event.map (fun p => pval χ E s p.expr) fun k => sval E s k.expr) := by
  rw [← Params.layout_map (fun p : PVal => pval χ E s p.expr) (fun k : SVal => sval E s k.expr), SVal.sval_lit hk, hv]
  have e1 : (contractLogic E s hχ).ptOf = fun p : PVal => pval χ E s p.expr := funext contract_ptOf
  have e2 : Is = p.instanceCommitments.map (List.map fun p => pval χ E s p.expr) := by
    clear hv
    generalize p.instanceCommitments = ics at hI
    induction hI with
    | nil => rfl
    | @cons row R ics Is h _ ih =>
      rw [List.map_cons, ← ih]
      congr 1
      clear ih
      induction h with
      | nil => rfl
      | @cons q Q row R h _ ih => rw [List.map_cons, ← ih, ← show pval χ E s (PVal.expr q) = Q from h]
  subst e2
  unfold Logic.record
  rw [e1]
  rfl

theorem eval_instances {l : List SVal} (he : l.map SVal.expr = (List.range l.length).map fun i => .inst i .scalar)
    (hr : ∀ a ∈ l, ∃ w, eval E s a.expr = some (.s w)) : ∃ ws rest, E.inst = ws ++ rest ∧ l.map (fun a => sval E s a.expr) = ws.map frOf := by
  have hlen : l.length ≤ E.inst.length := by
    rcases Nat.eq_zero_or_pos l.length with h0 | h0
    · omega
    · obtain ⟨w, hw⟩ := hr (l[l.length - 1]) (List.getElem_mem _)
      have e : (l[l.length - 1]).expr = .inst (l.length - 1) .scalar := by
        have := congrArg (fun x => x[l.length - 1]?) he
        simpa [h0] using this
      rw [e] at hw
      have := readArr_get_scalar (show readArr E.inst (l.length - 1) .scalar = some (.s w) from hw)
      have := (List.getElem?_eq_some_iff.1 this).1
      omega
  refine ⟨E.inst.take l.length, E.inst.drop l.length, (List.take_append_drop ..).symm, ?_⟩
  have : l.map (fun a => sval E s a.expr) = (l.map SVal.expr).map (sval E s) := by rw [List.map_map]; rfl
  rw [this, he, List.map_map]
  apply List.ext_getElem
  · simp [hlen]
  · intro i h1 h2
    simp only [List.length_map, List.length_range] at h1
    simp [sval, List.getD_eq_getElem?_getD, List.getElem?_eq_getElem (show i < E.inst.length by omega)]

theorem layout_known {vk : VK N Pt} {p : Params PVal SVal} {k : SVal} (hk : k.isConst = true)
    (hc : ∀ row ∈ p.instanceCommitments, ∀ q ∈ row, q.Canon E s) : ∀ e ∈ p.layout vk k, Event.Known E s e := by
  intro e he
  cases e with
  | commonPoint q =>
    unfold Params.layout at he
    simp only [List.mem_append, List.mem_map, List.mem_flatMap, List.mem_cons, List.not_mem_nil, or_false, reduceCtorEq,
      and_false, exists_false, or_self, false_or, Event.commonPoint.injEq, exists_eq_right] at he
    obtain ⟨row, h1, h2⟩ := List.mem_flatten.1 he
    exact hc row h1 q h2
  | commonScalar q =>
    unfold Params.layout at he
    simp only [List.mem_append, List.mem_map, List.mem_flatMap, List.mem_cons, List.not_mem_nil, or_false, reduceCtorEq,
      and_false, exists_false, or_self, Event.commonScalar.injEq] at he
    subst he
    exact hk
  | point | scalar | challenge => trivial

/-- **C73**, the generated function `get_wx_wg` before it is optimised. If a call returns, then the words of the call are the instances and
the transcript of a record `v` of the shape the key asks for: the instance commitments of `v` are those of the instance words, the points
and scalars of `v` stand in the proof in the order of the halo2 verifier, and every challenge is the hash of what is absorbed before it
(`Follows`). `x` is not in the domain. The four returned words are the two sides of the opening check of `v`.

Nothing is assumed of the sample proof the program is recorded with, nor of the words of the call. `χ` says which point a pair of words that
is not the encoding of a point is taken for; the statement holds for each choice. -/
theorem C73_contract {j : Job rate} (hd : 0 < j.d.pointLen) (hvk : j.vk.WF) (hdom : j.vk.Domain) {P : Prog} (hg : j.generate = some P) {c : Call}
    {vals : List Val} (hr : P.run c = some vals) (hχ : χ 0 pMod = 0) :
    ∃ (ws rest : List Word) (Is : List (List (List N))) (v : Params Pt N) (t : ℕ) (a : Abs) (lx ly rx ry : Word),
      c.inst = ws ++ rest ∧ Is.flatten.flatten = ws.map frOf ∧
      List.Forall₂ (List.Forall₂ fun x y => x.length = y.length) Is j.instances ∧
      v.For j.vk ∧ v.Shape j.vk (Is.map (List.map j.vk.commit)) "" ∧
      Follows χ c ⟨List.replicate (P.absorbingLength + 1) 0, 0⟩ (v.layout j.vk j.vk.digest) t a ∧ v.x ^ j.vk.n ≠ 1 ∧
      vals = [.p lx ly, .p rx ry] ∧
      (j.instances.length = 1 → 2 ≤ (j.vk.rotations 1).toFinset.card → ptOf χ lx ly = v.left ∧ ptOf χ rx ry = v.right gen) := by
  obtain ⟨hrec, -⟩ := Job.recorded hg
  obtain ⟨⟨r, k⟩, h1, rfl⟩ := Option.map_eq_some_iff.1 hg
  have hran := Job.ran h1
  obtain ⟨sf, h2, h3⟩ := Option.bind_eq_some_iff.1 hr
  obtain ⟨-, g2, g3⟩ := execAll_recorded hrec (by simp) h2
  obtain ⟨as, p, hm⟩ : ∃ as p, j.Means (c.env k.memory) sf hχ r as p := Job.means (χ := χ) (hχ := hχ) hd hvk hdom Ctx.new r k h1 rfl (fun x hx => by cases hx) g2
  obtain ⟨ws, rest, e1, e2⟩ := eval_instances hran.instances hm.reads
  obtain ⟨d, d1, d2, d3⟩ := hm.trace
  obtain ⟨xl, xr, rfl, l1, l2⟩ : ∃ xl xr, vals = [xl, xr] ∧ eval (c.env k.memory) sf r.left.expr = some xl ∧ eval (c.env k.memory) sf r.right.expr = some xr := by
    match vals, mapM_some h3 with
    | _, .cons a1 (.cons a2 .nil) => exact ⟨_, _, rfl, a1, a2⟩
  obtain ⟨lx, ly, rfl, m1⟩ := eval_pform (χ := χ) r.left.form l1
  obtain ⟨rx, ry, rfl, m2⟩ := eval_pform (χ := χ) r.right.form l2
  have hf := hran.at'.linked.follows (χ := χ) (c := c) (size := k.memory) (by rw [d3]; exact layout_known d1 hm.canon) g3
  rw [d3, ← layout_record (hχ := hχ) hm.commitments d1 d2] at hf
  refine ⟨ws, rest, as.map (List.map (List.map fun a => sval (c.env k.memory) sf a.expr)), (contractLogic (c.env k.memory) sf hχ).valueOf j.vk as p, _, _,
    lx, ly, rx, ry, e1, ?_, ?_, Logic.record_for hm.values, ?_, hf, ?_, rfl, ?_⟩
  · rw [← e2, hm.scalars, List.map_flatten, List.map_flatten]
  · rw [List.forall₂_map_left_iff]
    refine hm.assigned.imp fun x y h => ?_
    rw [List.forall₂_map_left_iff]
    exact h.imp fun x y h => by rw [List.length_map, h.length_eq]
  · have := Logic.record_shape hm.commitments hm.shape
    rw [List.map_map]
    refine (congrArg (fun I => Params.Shape j.vk I "" _) (List.map_congr_left fun x _ => ?_)).mp this
    rw [Function.comp, List.map_map]
    rfl
  · exact fun hx => hm.xn (hm.values.xn.trans hx)
  · intro c1 c2
    rw [m1, m2]
    exact hm.pair c1 c2

end Verif.Sol
