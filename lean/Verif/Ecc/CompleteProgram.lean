import Verif.Ecc.CompletePoint
import Verif.Ecc.Props

/-!
# Every call sequence, for an honest prover

`EOp.Honest` says, in terms of group elements, what a call needs from its arguments for an honest computation to go through, and
what it returns.  A point is marked *regular* if its cells hold reduced coordinates of the point that may be used in any later call; the
results of `neg` and `sub`, and an identity obtained by adding a point to its opposite, can only be reduced.
-/

set_option exponentiation.threshold 600

namespace Verif.Circuit

open Verif.Ecc

/-- Group elements with their marks, and scalars. -/
structure HEnv where
  pts : List (Pt × Bool)
  scs : List N

/-- The same without marks. -/
def HEnv.plain (e : HEnv) : EEnv := ⟨e.pts.map Prod.fst, e.scs⟩

/-- What one call needs and returns. -/
def EOp.Honest (e : HEnv) : EOp → HEnv → Prop
  | .scalar v, e' => e' = ⟨e.pts, e.scs ++ [v]⟩
  | .assign c, e' => e' = ⟨e.pts ++ [(c, true)], e.scs⟩
  | .constant c, e' => e' = ⟨e.pts ++ [(c, true)], e.scs⟩
  | .identity, e' => e' = ⟨e.pts ++ [(0, true)], e.scs⟩
  | .add i j, e' => ∃ P Q b, e.pts[i]? = some (P, true) ∧ e.pts[j]? = some (Q, true) ∧ Safe P ∧
      (b = true → P + Q = 0 → P = 0) ∧ e' = ⟨e.pts ++ [(P + Q, b)], e.scs⟩
  | .double i, e' => ∃ P, e.pts[i]? = some (P, true) ∧ Safe P ∧ e' = ⟨e.pts ++ [(P + P, true)], e.scs⟩
  | .neg i, e' => ∃ P, e.pts[i]? = some (P, true) ∧ e' = ⟨e.pts ++ [(-P, false)], e.scs⟩
  | .sub i j, e' => ∃ P Q, e.pts[i]? = some (P, true) ∧ e.pts[j]? = some (Q, true) ∧ Safe P ∧
      e' = ⟨e.pts ++ [(P - Q, false)], e.scs⟩
  | .reduce i, e' => ∃ P b, e.pts[i]? = some (P, b) ∧ e' = ⟨e.pts ++ [(P, true)], e.scs⟩
  | .mul i k, e' => ∃ P s, e.pts[i]? = some (P, true) ∧ e.scs[k]? = some s ∧ MulSafe P s.val ∧
      e' = ⟨e.pts ++ [(s.val • P, true)], e.scs⟩
  | .constantMul c k, e' => ∃ s, e.scs[k]? = some s ∧ e' = ⟨e.pts ++ [(s.val • c, true)], e.scs⟩
  | .shamir is ks, e' => ∃ Ps ss, is.mapM (fun i => e.pts[i]?) = some (Ps.map fun P => (P, true)) ∧
      ks.mapM (fun i => e.scs[i]?) = some ss ∧ is ≠ [] ∧ is.length = ks.length ∧ ShamirSafe Ps (ss.map ZMod.val) ∧
      e' = ⟨e.pts ++ [((List.zipWith (fun (P : Pt) (s : N) => s.val • P) Ps ss).sum, true)], e.scs⟩
  | .assertEqual i j, e' => e' = e ∧ ∃ P, e.pts[i]? = some (P, true) ∧ e.pts[j]? = some (P, true)

/-- A program whose calls get what they need. -/
def EProgHonest : List EOp → HEnv → HEnv → Prop
  | [], e, e' => e' = e
  | op :: ops, e, e' => ∃ m, op.Honest e m ∧ EProgHonest ops m e'

/-- An honest point with its mark. -/
def HMark (c : Ctx N) (p : APt) (x : Pt × Bool) : Prop := if x.2 then HQ c p x.1 else HOut c p x.1

theorem HMark.ext {c c' : Ctx N} {p : APt} {x : Pt × Bool} (h : HMark c p x) (he : Ext c c') : HMark c' p x := by
  obtain ⟨P, b⟩ := x
  cases b with
  | true => exact HQ.ext h he
  | false => exact HOut.ext h he

theorem HMark.rep {c : Ctx N} {p : APt} {x : Pt × Bool} (h : HMark c p x) : Represents c.wit p x.1 := by
  unfold HMark at h
  split at h
  · exact h.rep
  · exact h.rep

/-- The state of the chip holds `e`. -/
structure HEState (c : Ctx N) (s : EState) (e : HEnv) : Prop where
  pts : List.Forall₂ (HMark c) s.pts e.pts
  scs : List.Forall₂ (fun (a : AV N) v => ValidAV c a ∧ a.value = v) s.scs e.scs

theorem HEState.ext {c c' : Ctx N} {s : EState} {e : HEnv} (h : HEState c s e) (he : Ext c c') : HEState c' s e :=
  ⟨h.pts.imp fun _ _ h => h.ext he, h.scs.imp fun _ _ h => ⟨h.1.ext he, h.2⟩⟩

theorem HEState.stands {c : Ctx N} {s : EState} {e : HEnv} (h : HEState c s e) : EStands c.wit s e.plain :=
  ⟨by
    unfold HEnv.plain
    rw [List.forall₂_map_right_iff]
    exact h.pts.imp fun _ _ h => h.rep, h.scs.imp fun _ _ h => by rw [val_wit h.1, h.2]⟩

theorem forall₂_get {α β : Type} {R : α → β → Prop} {l : List α} {l' : List β} (h : List.Forall₂ R l l') {i : ℕ} {y : β}
    (hy : l'[i]? = some y) : ∃ x, l[i]? = some x ∧ R x y := by
  induction h generalizing i with
  | nil => simp at hy
  | cons h _ ih =>
    cases i with
    | zero => simp at hy; subst hy; exact ⟨_, rfl, h⟩
    | succ i => simpa using ih (by simpa using hy)

theorem forall₂_set {α β : Type} {R : α → β → Prop} {l : List α} {l' : List β} (h : List.Forall₂ R l l') {i : ℕ} {x : α} {y : β}
    (hy : l'[i]? = some y) (hx : R x y) : List.Forall₂ R (l.set i x) l' := by
  induction h generalizing i with
  | nil => simp
  | cons h ht ih =>
    cases i with
    | zero => simp at hy; subst hy; exact .cons hx ht
    | succ i => exact .cons h (ih (by simpa using hy))

theorem forall₂_snoc {α β : Type} {R : α → β → Prop} {l : List α} {l' : List β} (h : List.Forall₂ R l l') {x : α} {y : β}
    (hx : R x y) : List.Forall₂ R (l ++ [x]) (l' ++ [y]) := List.rel_append h (.cons hx .nil)

theorem forall₂_mapM {α β : Type} {R : α → β → Prop} {l : List α} {l' : List β} (h : List.Forall₂ R l l') : ∀ {is : List ℕ} {ys : List β},
    is.mapM (fun i => l'[i]?) = some ys → ∃ xs, is.mapM (fun i => l[i]?) = some xs ∧ List.Forall₂ R xs ys ∧ xs.length = is.length
  | [], ys, hy => by
    simp at hy
    subst hy
    exact ⟨[], rfl, .nil, rfl⟩
  | i :: is, ys, hy => by
    simp only [List.mapM_cons, Option.bind_eq_bind, Option.pure_def, Option.bind_eq_some_iff, Option.some.injEq] at hy
    obtain ⟨y, h1, ys', h2, rfl⟩ := hy
    obtain ⟨x, hx, hr⟩ := forall₂_get h h1
    obtain ⟨xs, hxs, hr', hl⟩ := forall₂_mapM h h2
    refine ⟨x :: xs, ?_, .cons hr hr', by simp [hl]⟩
    simp [List.mapM_cons, hx, hxs]

/-- `add` of regular points. -/
theorem CSpec.pAdd_c (a b : APt) (P Q : Pt) : CSpec tables (Circuit.pAdd a b)
    (fun c => HQ c a P ∧ HQ c b Q ∧ Safe P) (fun c r => HOut c r.1 (P + Q) ∧ HQ c r.2 P) := by
  constructor
  rintro ctx hg ⟨ha, hb, hs⟩
  obtain ⟨⟨r, a'⟩, c1, f1, g1, e1, h1, h2, k, hk⟩ := (CSpec.pAdd' a b).run ctx hg ⟨ha.hp, hb.hp, fun _ => ha.safe hs⟩
  dsimp only at h1 h2 hk
  have ha1 := ha.ext e1
  have hb1 := hb.ext e1
  obtain ⟨-, hsp⟩ := (Spec.pAdd' a b).run _ _ _ f1 _ g1.sat
  obtain ⟨k1, k2, k3, k4, k5, -⟩ := hsp P Q ha1.rep.1 hb1.rep.1 fun _ => ha1.rep.2
  dsimp only at k1 k2 k3 k4 k5
  have hnone : r.curv = none := pAdd_curv f1
  refine ⟨(r, a'), c1, f1, g1, e1, ⟨⟨h1.x, h1.xo, h1.y, by have := h1.yo.1; dsimp only; omega, h1.z, h1.bit, hnone⟩, k1⟩,
    HQ.of h2 ⟨k2, k3 ha1.rep.2⟩ fun h0 => ⟨?_, ?_, hk.zero_of ha1 h0⟩⟩
  · rw [k4, ha1.x, (coord_zero h0).1]
  · rw [k5, ha1.y, (coord_zero h0).2]

theorem CSpec.pAdd_b (a b : APt) (P Q : Pt) (m : Bool) (hm : m = true → P + Q = 0 → P = 0) : CSpec tables (Circuit.pAdd a b)
    (fun c => HQ c a P ∧ HQ c b Q ∧ Safe P) (fun c r => HMark c r.1 (P + Q, m) ∧ HQ c r.2 P) := by
  cases m with
  | true => exact (CSpec.pAdd_q a b P Q (hm rfl)).mono (fun _ h => ⟨h.1, h.2.1, fun _ => h.2.2⟩) fun _ _ h => ⟨h.1, h.2.1⟩
  | false => exact (CSpec.pAdd_c a b P Q).mono (fun _ h => h) fun _ _ h => h

theorem CSpec.pReduce_b (a : APt) (x : Pt × Bool) : CSpec tables (Circuit.pReduce a) (fun c => HMark c a x)
    (fun c r => HQ c r.1 x.1 ∧ HMark c r.2 x) := by
  obtain ⟨P, b⟩ := x
  cases b with
  | true => exact (CSpec.pReduce_q a P).mono (fun _ h => h) fun _ _ h => ⟨h.1, h.2.2⟩
  | false => exact (CSpec.pReduce_o a P).mono (fun _ h => h) fun _ _ h => ⟨h.1, h.2.2⟩

theorem HQ.pt {c : Ctx N} {p : APt} {P : Pt} (h : HQ c p P) : HPt c p (coordX P) (coordY P) (flagOf P) :=
  ⟨⟨h.hp.x, by have := h.hp.xo.1; omega, h.x⟩, ⟨h.hp.y, by have := h.hp.yo.1; omega, h.y⟩, h.hp.z, h.z⟩

theorem pt_run {s : EState} {i : ℕ} {p : APt} {c : Ctx N} (h : s.pts[i]? = some p) : s.pt i c = some (p, c) := by
  unfold EState.pt
  rw [h]
  rfl

theorem sc_run {s : EState} {i : ℕ} {p : AV N} {c : Ctx N} (h : s.scs[i]? = some p) : s.sc i c = some (p, c) := by
  unfold EState.sc
  rw [h]
  rfl

theorem unwrapM_some {α : Type} {o : Option α} {x : α} {c : Ctx N} (h : o = some x) : (unwrapM o : M N α) c = some (x, c) := by
  rw [h]
  rfl

/-- One call. -/
theorem EOp.honest_run {op : EOp} {s : EState} {e e' : HEnv} {c : Ctx N} (hg : Good tables c) (hs : HEState c s e)
    (h : op.Honest e e') : ∃ s' c', op.run s c = some (s', c') ∧ Good tables c' ∧ Ext c c' ∧ HEState c' s' e' := by
  cases op with
  | scalar v =>
    obtain ⟨a, c1, f1, g1, e1, h1, v1⟩ := (CSpec.assign (t := tables) v).run c hg trivial
    have hs1 := hs.ext e1
    refine ⟨{ s with scs := s.scs ++ [a] }, c1, ?_, g1, e1, ?_⟩
    · unfold EOp.run
      dsimp only
      rw [bind_some f1]
      rfl
    · rw [show e' = _ from h]
      exact ⟨hs1.pts, forall₂_snoc hs1.scs ⟨h1, v1⟩⟩
  | assign P =>
    obtain ⟨a, c1, f1, g1, e1, h1, -⟩ := (CSpec.assignPoint_q P).run c hg trivial
    have hs1 := hs.ext e1
    refine ⟨{ s with pts := s.pts ++ [a], inputs := s.inputs ++ [a.z] }, c1, ?_, g1, e1, ?_⟩
    · unfold EOp.run
      dsimp only
      rw [bind_some f1]
      rfl
    · rw [show e' = _ from h]
      exact ⟨forall₂_snoc hs1.pts (by simpa [HMark] using h1), hs1.scs⟩
  | constant P =>
    obtain ⟨a, c1, f1, g1, e1, h1, -⟩ := (CSpec.assignConstantPoint_q P).run c hg trivial
    have hs1 := hs.ext e1
    refine ⟨{ s with pts := s.pts ++ [a] }, c1, ?_, g1, e1, ?_⟩
    · unfold EOp.run
      dsimp only
      rw [bind_some f1]
      rfl
    · rw [show e' = _ from h]
      exact ⟨forall₂_snoc hs1.pts (by simpa [HMark] using h1), hs1.scs⟩
  | identity =>
    obtain ⟨a, c1, f1, g1, e1, h1, -⟩ := CSpec.assignIdentity_q.run c hg trivial
    have hs1 := hs.ext e1
    refine ⟨{ s with pts := s.pts ++ [a] }, c1, ?_, g1, e1, ?_⟩
    · unfold EOp.run
      dsimp only
      rw [bind_some f1]
      rfl
    · rw [show e' = _ from h]
      exact ⟨forall₂_snoc hs1.pts (by simpa [HMark] using h1), hs1.scs⟩
  | add i j =>
    obtain ⟨P, Q, m, hi, hj, hsafe, hm, rfl⟩ := h
    obtain ⟨a, ha, qa⟩ := forall₂_get hs.pts hi
    obtain ⟨b, hb, qb⟩ := forall₂_get hs.pts hj
    obtain ⟨⟨r, a'⟩, c1, f1, g1, e1, h1, h2⟩ := (CSpec.pAdd_b a b P Q m hm).run c hg
      ⟨by simpa [HMark] using qa, by simpa [HMark] using qb, hsafe⟩
    have hs1 := hs.ext e1
    refine ⟨{ s with pts := s.pts.set i a' ++ [r] }, c1, ?_, g1, e1,
      ⟨forall₂_snoc (forall₂_set hs1.pts hi (by simpa [HMark] using h2)) h1, hs1.scs⟩⟩
    unfold EOp.run
    dsimp only
    rw [bind_some (pt_run ha), bind_some (pt_run hb), bind_some f1]
    rfl
  | double i =>
    obtain ⟨P, hi, hsafe, rfl⟩ := h
    obtain ⟨a, ha, qa⟩ := forall₂_get hs.pts hi
    obtain ⟨⟨r, a'⟩, c1, f1, g1, e1, h1, -, h2⟩ := (CSpec.pDouble_q a P).run c hg ⟨by simpa [HMark] using qa, fun _ => hsafe⟩
    have hs1 := hs.ext e1
    refine ⟨{ s with pts := s.pts.set i a' ++ [r] }, c1, ?_, g1, e1,
      ⟨forall₂_snoc (forall₂_set hs1.pts hi (by simpa [HMark] using h2)) (by simpa [HMark] using h1), hs1.scs⟩⟩
    unfold EOp.run
    dsimp only
    rw [bind_some (pt_run ha), bind_some f1]
    rfl
  | neg i =>
    obtain ⟨P, hi, rfl⟩ := h
    obtain ⟨a, ha, qa⟩ := forall₂_get hs.pts hi
    obtain ⟨r, c1, f1, g1, e1, h1⟩ := (CSpec.pNeg_q a P).run c hg (by simpa [HMark] using qa)
    have hs1 := hs.ext e1
    refine ⟨{ s with pts := s.pts ++ [r] }, c1, ?_, g1, e1, ⟨forall₂_snoc hs1.pts (by simpa [HMark] using h1), hs1.scs⟩⟩
    unfold EOp.run
    dsimp only
    rw [bind_some (pt_run ha), bind_some f1]
    rfl
  | sub i j =>
    obtain ⟨P, Q, hi, hj, hsafe, rfl⟩ := h
    obtain ⟨a, ha, qa⟩ := forall₂_get hs.pts hi
    obtain ⟨b, hb, qb⟩ := forall₂_get hs.pts hj
    obtain ⟨⟨r, a'⟩, c1, f1, g1, e1, h1, h2⟩ := (CSpec.pSub_q a b P Q).run c hg
      ⟨by simpa [HMark] using qa, by simpa [HMark] using qb, fun _ => hsafe⟩
    have hs1 := hs.ext e1
    refine ⟨{ s with pts := s.pts.set i a' ++ [r] }, c1, ?_, g1, e1,
      ⟨forall₂_snoc (forall₂_set hs1.pts hi (by simpa [HMark] using h2)) (by simpa [HMark] using h1), hs1.scs⟩⟩
    unfold EOp.run
    dsimp only
    rw [bind_some (pt_run ha), bind_some (pt_run hb), bind_some f1]
    rfl
  | reduce i =>
    obtain ⟨P, m, hi, rfl⟩ := h
    obtain ⟨a, ha, qa⟩ := forall₂_get hs.pts hi
    obtain ⟨⟨r, a'⟩, c1, f1, g1, e1, h1, h2⟩ := (CSpec.pReduce_b a (P, m)).run c hg qa
    have hs1 := hs.ext e1
    refine ⟨{ s with pts := s.pts.set i a' ++ [r] }, c1, ?_, g1, e1,
      ⟨forall₂_snoc (forall₂_set hs1.pts hi h2) (by simpa [HMark] using h1), hs1.scs⟩⟩
    unfold EOp.run
    dsimp only
    rw [bind_some (pt_run ha), bind_some f1]
    rfl
  | mul i k =>
    obtain ⟨P, v, hi, hk, hm, rfl⟩ := h
    obtain ⟨a, ha, qa⟩ := forall₂_get hs.pts hi
    obtain ⟨b, hb, qb, rfl⟩ := forall₂_get hs.scs hk
    obtain ⟨r, c1, f1, g1, e1, h1⟩ := (CSpec.pMul_q a b P hm).run c hg ⟨by simpa [HMark] using qa, qb⟩
    have hs1 := hs.ext e1
    refine ⟨{ s with pts := s.pts ++ [r] }, c1, ?_, g1, e1, ⟨forall₂_snoc hs1.pts (by simpa [HMark] using h1), hs1.scs⟩⟩
    unfold EOp.run
    dsimp only
    rw [bind_some (pt_run ha), bind_some (sc_run hb), bind_some f1]
    rfl
  | constantMul P k =>
    obtain ⟨v, hk, rfl⟩ := h
    obtain ⟨b, hb, qb, rfl⟩ := forall₂_get hs.scs hk
    obtain ⟨r, c1, f1, g1, e1, h1, -⟩ := (CSpec.constantMul_q P b).run c hg qb
    have hs1 := hs.ext e1
    refine ⟨{ s with pts := s.pts ++ [r] }, c1, ?_, g1, e1, ⟨forall₂_snoc hs1.pts (by simpa [HMark] using h1), hs1.scs⟩⟩
    unfold EOp.run
    dsimp only
    rw [bind_some (sc_run hb), bind_some f1]
    rfl
  | shamir is ks =>
    obtain ⟨Ps, ss, hP, hS, hne, hl, hsafe, rfl⟩ := h
    obtain ⟨as, ha, qa, la⟩ := forall₂_mapM hs.pts hP
    obtain ⟨bs, hb, qb, lb⟩ := forall₂_mapM hs.scs hS
    have hss : bs.map (fun s => s.value.val) = ss.map ZMod.val := by
      rw [← List.forall₂_eq_eq_eq, List.forall₂_map_left_iff, List.forall₂_map_right_iff]
      exact qb.imp fun _ _ h => by rw [h.2]
    have hv : ∀ s ∈ bs, ValidAV c s := fun s hs => by
      obtain ⟨n, hn, rfl⟩ := List.getElem_of_mem hs
      exact (qb.get hn (by rw [← qb.length_eq]; exact hn)).1
    rw [List.forall₂_map_right_iff] at qa
    obtain ⟨r, c1, f1, g1, e1, h1⟩ := (CSpec.shamir_q as bs Ps (by rw [hss]; exact hsafe) (by rw [la, lb, hl])
      (by rintro rfl; exact hne (List.length_eq_zero_iff.1 la.symm))).run c hg ⟨qa.imp fun _ _ h => by simpa [HMark] using h, hv⟩
    have hs1 := hs.ext e1
    have hsum : mulSum Ps (bs.map fun s => s.value.val) = (List.zipWith (fun (P : Pt) (s : N) => s.val • P) Ps ss).sum := by
      rw [hss, mulSum, List.zipWith_map_right]
    rw [hsum] at h1
    refine ⟨{ s with pts := s.pts ++ [r] }, c1, ?_, g1, e1, ⟨forall₂_snoc hs1.pts (by simpa [HMark] using h1), hs1.scs⟩⟩
    unfold EOp.run
    dsimp only
    rw [bind_some (unwrapM_some ha), bind_some (unwrapM_some hb), bind_some f1]
    rfl
  | assertEqual i j =>
    obtain ⟨rfl, P, hi, hj⟩ := h
    obtain ⟨a, ha, qa⟩ := forall₂_get hs.pts hi
    obtain ⟨b, hb, qb⟩ := forall₂_get hs.pts hj
    have qa' : HQ c a P := by simpa [HMark] using qa
    have qb' : HQ c b P := by simpa [HMark] using qb
    obtain ⟨_, c1, f1, g1, e1, -⟩ := (CSpec.pAssertEqual a b (by have := qa'.hp.xo.1; have := qb'.hp.xo.1; omega)
      (by have := qa'.hp.yo.1; have := qb'.hp.yo.1; omega) (.inl ⟨rfl, rfl⟩)).run c hg ⟨qa'.pt, qb'.pt⟩
    refine ⟨s, c1, ?_, g1, e1, hs.ext e1⟩
    unfold EOp.run
    dsimp only
    rw [bind_some (pt_run ha), bind_some (pt_run hb), bind_some f1]
    rfl

theorem runEProg_honest : ∀ {ops : List EOp} {s : EState} {e e' : HEnv} {c : Ctx N} (_ : Good tables c) (_ : HEState c s e)
    (_ : EProgHonest ops e e'), ∃ s' c', runEProg ops s c = some (s', c') ∧ Good tables c' ∧ HEState c' s' e'
  | [], s, e, e', c, hg, hs, h => ⟨s, c, rfl, hg, by rw [show e' = e from h]; exact hs⟩
  | op :: ops, s, e, e', c, hg, hs, ⟨m, h1, h2⟩ => by
    obtain ⟨s1, c1, f1, g1, -, p1⟩ := EOp.honest_run hg hs h1
    obtain ⟨s2, c2, f2, g2, p2⟩ := runEProg_honest g1 p1 h2
    exact ⟨s2, c2, by rw [runEProg_one f1, f2], g2, p2⟩

end Verif.Circuit
