import Verif.Ecc.Program
import Verif.Ecc.Mul

/-!
# Soundness of ECC programs (helper lemmas)
-/

namespace Verif.Circuit

open Verif.Ecc

theorem EState.pt_run {s : EState} {i : ℕ} {ctx ctx' : Ctx N} {a : APt} (h : s.pt i ctx = some (a, ctx')) :
    s.pts[i]? = some a ∧ ctx' = ctx := by
  unfold EState.pt unwrapM at h
  simp only [Option.map_eq_some_iff, Prod.mk.injEq] at h
  obtain ⟨b, h1, rfl, rfl⟩ := h
  exact ⟨h1, rfl⟩

theorem EState.sc_run {s : EState} {i : ℕ} {ctx ctx' : Ctx N} {a : AV N} (h : s.sc i ctx = some (a, ctx')) :
    s.scs[i]? = some a ∧ ctx' = ctx := by
  unfold EState.sc unwrapM at h
  simp only [Option.map_eq_some_iff, Prod.mk.injEq] at h
  obtain ⟨b, h1, rfl, rfl⟩ := h
  exact ⟨h1, rfl⟩

theorem unwrapN_run {α : Type} {o : Option α} {ctx ctx' : Ctx N} {a : α} (h : unwrapM o ctx = some (a, ctx')) :
    o = some a ∧ ctx' = ctx := by
  unfold unwrapM at h
  simp only [Option.map_eq_some_iff, Prod.mk.injEq] at h
  obtain ⟨b, h1, rfl, rfl⟩ := h
  exact ⟨h1, rfl⟩

theorem forall2_get? {α β : Type} {R : α → β → Prop} {l : List α} {l' : List β} (h : List.Forall₂ R l l') {i : ℕ}
    {a : α} (ha : l[i]? = some a) : ∃ b, l'[i]? = some b ∧ R a b := by
  induction h generalizing i with
  | nil => simp at ha
  | cons hab _ ih =>
    cases i with
    | zero => simp only [List.getElem?_cons_zero, Option.some.injEq] at ha; subst ha; exact ⟨_, rfl, hab⟩
    | succ i => simpa using ih (by simpa using ha)

theorem forall2_mapM {α β : Type} {R : α → β → Prop} {l : List α} {l' : List β} (h : List.Forall₂ R l l') :
    ∀ {is : List ℕ} {as : List α}, is.mapM (fun i => l[i]?) = some as →
      ∃ bs, is.mapM (fun i => l'[i]?) = some bs ∧ List.Forall₂ R as bs
  | [], as, ha => by
    simp only [List.mapM_nil, Option.pure_def, Option.some.injEq] at ha
    subst ha
    exact ⟨[], rfl, .nil⟩
  | i :: is, as, ha => by
    simp only [List.mapM_cons, Option.bind_eq_bind, Option.bind_eq_some_iff, Option.pure_def,
      Option.some.injEq] at ha
    obtain ⟨a, h1, as', h2, rfl⟩ := ha
    obtain ⟨b, hb, r1⟩ := forall2_get? h h1
    obtain ⟨bs, hbs, r2⟩ := forall2_mapM h h2
    exact ⟨b :: bs, by simp [hb, hbs], .cons r1 r2⟩

theorem represents_assign {adv : Advice N} {p : APt} (hx : IntGood adv p.x) (hy : IntGood adv p.y)
    (hc : p.curv = none) (hz : BitCell adv p.z)
    (h : residue adv p.y ^ 2 = residue adv p.x ^ 3 + 3 ∨ p.z.val adv = 1) : ∃ P, Represents adv p P := by
  by_cases h1 : p.z.val adv = 1
  · exact ⟨0, ⟨hx, hy, fun _ => h1, fun h => absurd rfl h, by rw [hc]; rintro _ ⟨⟩⟩, tangentOk_none hc⟩
  · have h0 : p.z.val adv = 0 := hz.resolve_right h1
    have he := h.resolve_right h1
    exact ⟨pt _ _ he, ⟨hx, hy, fun h => absurd h (aff_pt he).ne_zero, fun _ => ⟨h0, aff_pt he⟩,
      by rw [hc]; rintro _ ⟨⟩⟩, tangentOk_none hc⟩

theorem assertEqual_sem {adv : Advice N} {a b : APt} {P Q : Pt} (hP : Represents adv a P) (hQ : Represents adv b Q)
    (h : (residue adv a.x = residue adv b.x ∧ residue adv a.y = residue adv b.y) ∨ a.z.val adv * b.z.val adv = 1) :
    (P = 0 ↔ Q = 0) → P = Q := by
  intro hi
  by_cases h0 : P = 0
  · rw [h0, hi.1 h0]
  · have h0' : Q ≠ 0 := fun h => h0 (hi.2 h)
    obtain ⟨z, aP⟩ := hP.1.affine h0
    obtain ⟨-, aQ⟩ := hQ.1.affine h0'
    rcases h with ⟨e1, e2⟩ | h
    · rw [e1, e2] at aP
      exact aP.ext aQ
    · rw [z, zero_mul] at h
      exact absurd h zero_ne_one

/-- Soundness of one call. -/
theorem Spec.eop (s : EState) (op : EOp) : Spec tables (op.run s) (fun adv s' =>
    (∃ l, s'.inputs = s.inputs ++ l) ∧ ∀ e, EStands adv s e → (∀ z ∈ s'.inputs, BitCell adv z) →
      ∃ e', op.Sem e e' ∧ EStands adv s' e') := by
  constructor
  intro ctx s' ctx' h adv hs
  have snoc : ∀ {l l'} {a : APt} {P : Pt}, List.Forall₂ (Represents adv) l l' → Represents adv a P →
      List.Forall₂ (Represents adv) (l ++ [a]) (l' ++ [P]) := fun h h' => List.rel_append h (.cons h' .nil)
  cases op with
  | scalar v =>
    simp only [EOp.run, bind_run, pure_run] at h
    obtain ⟨r, c1, h1, rfl, rfl⟩ := h
    obtain ⟨s0, -⟩ := (Spec.assign _).run _ _ _ h1 adv hs
    exact ⟨s0, ⟨[], by simp⟩, fun e he _ => ⟨⟨e.pts, e.scs ++ [r.val adv]⟩, ⟨_, rfl⟩, he.pts,
      List.rel_append he.scs (.cons rfl .nil)⟩⟩
  | assign c =>
    simp only [EOp.run, bind_run, pure_run] at h
    obtain ⟨p, c1, h1, rfl, rfl⟩ := h
    obtain ⟨s0, q1, q2, q3, q4⟩ := (Spec.assignPoint _).run _ _ _ h1 adv hs
    refine ⟨s0, ⟨_, rfl⟩, fun e he hb => ?_⟩
    obtain ⟨P, hP⟩ := represents_assign q1 q2 q3 (hb p.z (by simp)) q4
    exact ⟨⟨e.pts ++ [P], e.scs⟩, ⟨P, rfl⟩, snoc he.pts hP, he.scs⟩
  | constant c =>
    simp only [EOp.run, bind_run, pure_run] at h
    obtain ⟨p, c1, h1, rfl, rfl⟩ := h
    obtain ⟨s0, q⟩ := (Spec.assignConstantPoint _).run _ _ _ h1 adv hs
    exact ⟨s0, ⟨[], by simp⟩, fun e he _ => ⟨_, rfl, snoc he.pts q, he.scs⟩⟩
  | identity =>
    simp only [EOp.run, bind_run, pure_run] at h
    obtain ⟨p, c1, h1, rfl, rfl⟩ := h
    obtain ⟨s0, q⟩ := Spec.assignIdentity.run _ _ _ h1 adv hs
    exact ⟨s0, ⟨[], by simp⟩, fun e he _ => ⟨_, rfl, snoc he.pts q, he.scs⟩⟩
  | add i j =>
    simp only [EOp.run, bind_run, Prod.exists, pure_run] at h
    obtain ⟨a, _, ha, b, _, hb, p, a', c1, h1, rfl, rfl⟩ := h
    obtain ⟨ga, rfl⟩ := EState.pt_run ha
    obtain ⟨gb, rfl⟩ := EState.pt_run hb
    obtain ⟨s0, q⟩ := (Spec.pAdd _ _).run _ _ _ h1 adv hs
    refine ⟨s0, ⟨[], by simp⟩, fun e he _ => ?_⟩
    obtain ⟨P, hP, rP⟩ := forall2_get? he.pts ga
    obtain ⟨Q, hQ, rQ⟩ := forall2_get? he.pts gb
    obtain ⟨r1, r2, r3⟩ := q _ _ rP.1 rQ.1 (fun _ => rP.2)
    exact ⟨_, ⟨P, Q, hP, hQ, rfl⟩, snoc (forall2_set he.pts hP ⟨r2, r3 rP.2⟩) r1, he.scs⟩
  | double i =>
    simp only [EOp.run, bind_run, Prod.exists, pure_run] at h
    obtain ⟨a, _, ha, p, a', c1, h1, rfl, rfl⟩ := h
    obtain ⟨ga, rfl⟩ := EState.pt_run ha
    obtain ⟨s0, q⟩ := (Spec.pDouble _).run _ _ _ h1 adv hs
    refine ⟨s0, ⟨[], by simp⟩, fun e he _ => ?_⟩
    obtain ⟨P, hP, rP⟩ := forall2_get? he.pts ga
    obtain ⟨r1, r2⟩ := q _ rP
    exact ⟨_, ⟨P, hP, rfl⟩, snoc (forall2_set he.pts hP r2) r1, he.scs⟩
  | neg i =>
    simp only [EOp.run, bind_run, pure_run] at h
    obtain ⟨a, _, ha, p, c1, h1, rfl, rfl⟩ := h
    obtain ⟨ga, rfl⟩ := EState.pt_run ha
    obtain ⟨s0, q⟩ := (Spec.pNeg _).run _ _ _ h1 adv hs
    refine ⟨s0, ⟨[], by simp⟩, fun e he _ => ?_⟩
    obtain ⟨P, hP, rP⟩ := forall2_get? he.pts ga
    exact ⟨_, ⟨P, hP, rfl⟩, snoc he.pts (q _ rP.1), he.scs⟩
  | sub i j =>
    simp only [EOp.run, bind_run, Prod.exists, pure_run] at h
    obtain ⟨a, _, ha, b, _, hb, p, a', c1, h1, rfl, rfl⟩ := h
    obtain ⟨ga, rfl⟩ := EState.pt_run ha
    obtain ⟨gb, rfl⟩ := EState.pt_run hb
    obtain ⟨s0, q⟩ := (Spec.pSub _ _).run _ _ _ h1 adv hs
    refine ⟨s0, ⟨[], by simp⟩, fun e he _ => ?_⟩
    obtain ⟨P, hP, rP⟩ := forall2_get? he.pts ga
    obtain ⟨Q, hQ, rQ⟩ := forall2_get? he.pts gb
    obtain ⟨r1, r2⟩ := q _ _ rP rQ.1
    exact ⟨_, ⟨P, Q, hP, hQ, rfl⟩, snoc (forall2_set he.pts hP r2) r1, he.scs⟩
  | reduce i =>
    simp only [EOp.run, bind_run, Prod.exists, pure_run] at h
    obtain ⟨a, _, ha, p, a', c1, h1, rfl, rfl⟩ := h
    obtain ⟨ga, rfl⟩ := EState.pt_run ha
    obtain ⟨s0, q⟩ := (Spec.pReduce _).run _ _ _ h1 adv hs
    refine ⟨s0, ⟨[], by simp⟩, fun e he _ => ?_⟩
    obtain ⟨P, hP, rP⟩ := forall2_get? he.pts ga
    obtain ⟨r1, r2, r3, -⟩ := q _ rP.1
    exact ⟨_, ⟨P, hP, rfl⟩, snoc (forall2_set he.pts hP ⟨r2, r3 rP.2⟩) r1, he.scs⟩
  | mul i k =>
    simp only [EOp.run, bind_run, pure_run] at h
    obtain ⟨a, _, ha, c, _, hc, p, c1, h1, rfl, rfl⟩ := h
    obtain ⟨ga, rfl⟩ := EState.pt_run ha
    obtain ⟨gc, rfl⟩ := EState.sc_run hc
    obtain ⟨s0, q⟩ := (Spec.pMul _ _).run _ _ _ h1 adv hs
    refine ⟨s0, ⟨[], by simp⟩, fun e he _ => ?_⟩
    obtain ⟨P, hP, rP⟩ := forall2_get? he.pts ga
    obtain ⟨v, hv, rfl⟩ := forall2_get? he.scs gc
    exact ⟨_, ⟨P, _, hP, hv, rfl⟩, snoc he.pts (q _ rP), he.scs⟩
  | constantMul c k =>
    simp only [EOp.run, bind_run, pure_run] at h
    obtain ⟨c, _, hc, p, c1, h1, rfl, rfl⟩ := h
    obtain ⟨gc, rfl⟩ := EState.sc_run hc
    obtain ⟨s0, q⟩ := (Spec.constantMul _ _).run _ _ _ h1 adv hs
    refine ⟨s0, ⟨[], by simp⟩, fun e he _ => ?_⟩
    obtain ⟨v, hv, rfl⟩ := forall2_get? he.scs gc
    exact ⟨_, ⟨_, hv, rfl⟩, snoc he.pts q, he.scs⟩
  | shamir is ks =>
    simp only [EOp.run, bind_run, pure_run] at h
    obtain ⟨as, _, ha, cs, _, hc, p, c1, h1, rfl, rfl⟩ := h
    obtain ⟨ga, rfl⟩ := unwrapN_run ha
    obtain ⟨gc, rfl⟩ := unwrapN_run hc
    obtain ⟨s0, -, q⟩ := (Spec.shamir _ _).run _ _ _ h1 adv hs
    refine ⟨s0, ⟨[], by simp⟩, fun e he _ => ?_⟩
    obtain ⟨Ps, hP, rP⟩ := forall2_mapM he.pts ga
    obtain ⟨vs, hv, rv⟩ := forall2_mapM he.scs gc
    refine ⟨_, ⟨Ps, vs, hP, hv, rfl⟩, snoc he.pts ?_, he.scs⟩
    have e : vs = cs.map fun c => c.val adv := by
      clear * - rv
      induction rv with
      | nil => rfl
      | cons h _ ih => rw [List.map_cons, ih, h]
    rw [e, List.zipWith_map_right]
    exact q _ rP
  | assertEqual i j =>
    simp only [EOp.run, bind_run, pure_run] at h
    obtain ⟨a, _, ha, b, _, hb, _, c1, h1, rfl, rfl⟩ := h
    obtain ⟨ga, rfl⟩ := EState.pt_run ha
    obtain ⟨gb, rfl⟩ := EState.pt_run hb
    obtain ⟨s0, q⟩ := (Spec.pAssertEqual _ _).run _ _ _ h1 adv hs
    refine ⟨s0, ⟨[], by simp⟩, fun e he _ => ?_⟩
    obtain ⟨P, hP, rP⟩ := forall2_get? he.pts ga
    obtain ⟨Q, hQ, rQ⟩ := forall2_get? he.pts gb
    exact ⟨e, ⟨rfl, P, Q, hP, hQ, assertEqual_sem rP rQ (q rP.1.x rP.1.y rQ.1.x rQ.1.y)⟩, he⟩

/-- Soundness of a program. -/
theorem Spec.eprog : ∀ (ops : List EOp) (s : EState), Spec tables (runEProg ops s) (fun adv s' =>
    (∃ l, s'.inputs = s.inputs ++ l) ∧ ∀ e, EStands adv s e → (∀ z ∈ s'.inputs, BitCell adv z) →
      ∃ e', EProgSem ops e e' ∧ EStands adv s' e')
  | [], s => (Spec.pure _).mono (by
      rintro adv s' rfl
      exact ⟨⟨[], by simp⟩, fun e he _ => ⟨e, rfl, he⟩⟩)
  | op :: ops, s => by
    refine ((Spec.eop s op).bind fun s1 => Spec.eprog ops s1).mono ?_
    rintro adv s' ⟨s1, ⟨⟨l1, e1⟩, h1⟩, ⟨l2, e2⟩, h2⟩
    refine ⟨⟨l1 ++ l2, by rw [e2, e1, List.append_assoc]⟩, fun e he hb => ?_⟩
    obtain ⟨m, q1, q2⟩ := h1 e he (fun z hz => hb z (by rw [e2]; exact List.mem_append_left _ hz))
    obtain ⟨e', q3, q4⟩ := h2 m q2 hb
    exact ⟨e', ⟨m, q1, q3⟩, q4⟩

end Verif.Circuit
