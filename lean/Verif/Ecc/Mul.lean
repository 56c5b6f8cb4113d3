import Verif.Ecc.Scalar

/-!
# Soundness of scalar multiplication (helper lemmas)
-/

namespace Verif.Circuit

open Verif.Ecc

/-- The points of a table stand for `f i`, `f (i + 1)`, ... -/
def Tab (adv : Advice N) (f : ℕ → Pt) : ℕ → List APt → Prop
  | _, [] => True
  | i, c :: cs => Represents adv c (f i) ∧ Tab adv f (i + 1) cs

theorem Spec.pickPairs (b : AV N) : ∀ cs : List APt, Spec tables (pickPairs b cs) (fun adv r =>
    r.length = cs.length / 2 ∧ ∀ f i, BitCell adv b → Tab adv f (2 * i) cs →
      Tab adv (fun j => f (lv adv b + 2 * j)) i r)
  | [] => (Spec.pure _).mono (by rintro adv r rfl; exact ⟨rfl, fun _ _ _ _ => trivial⟩)
  | [a] => (Spec.pure _).mono (by rintro adv r rfl; exact ⟨by simp, fun _ _ _ _ => trivial⟩)
  | a0 :: a1 :: rest => by
    refine ((Spec.bisecPointCurv b a1 a0).bind fun c => (Spec.pickPairs b rest).bind fun cs =>
      Spec.pure (c :: cs)).mono ?_
    rintro adv r ⟨c, h1, cs, ⟨h2, h3⟩, rfl⟩
    refine ⟨by simp only [List.length_cons, h2]; omega, fun f i hb ht => ?_⟩
    obtain ⟨t0, t1, t2⟩ := ht
    obtain ⟨j1, j0⟩ := h1 _ _ t1.1 t0.1
    refine ⟨?_, h3 f (i + 1) hb (by simpa [mul_add, add_assoc] using t2)⟩
    rcases hb with hb | hb
    · obtain ⟨k1, k2⟩ := j0 hb
      have : lv adv b = 0 := by simp [lv, hb]
      simp only [this, zero_add]
      exact ⟨k1, k2 t0.2⟩
    · obtain ⟨k1, k2⟩ := j1 hb
      have : lv adv b = 1 := by
        have : Fact (1 < frMod) := ⟨by decide +kernel⟩
        rw [lv, hb]
        exact ZMod.val_one _
      simp only [this, add_comm 1]
      exact ⟨k1, k2 t1.2⟩

theorem Spec.pick : ∀ (bs : List (AV N)) (cs : List APt), Spec tables (pick bs cs) (fun adv r =>
    ∀ f, cs.length = 2 ^ bs.length → (∀ b ∈ bs, BitCell adv b) → Tab adv f 0 cs →
      Represents adv r (f (bitsVal adv bs)))
  | [], cs => by
    refine (Spec.unwrapM cs.head?).mono ?_
    intro adv r h f hl hb ht
    cases cs with
    | nil => simp at h
    | cons c cs =>
      simp only [List.head?_cons, Option.some.injEq] at h
      subst h
      exact ht.1
  | b :: bs, cs => by
    refine ((Spec.pickPairs b cs).bind fun cs' => Spec.pick bs cs').mono ?_
    rintro adv r ⟨cs', ⟨hl', h1⟩, h2⟩ f hl hb ht
    simp only [List.mem_cons, forall_eq_or_imp] at hb
    exact h2 _ (by rw [hl', hl, List.length_cons, pow_succ]; simp) hb.2 (h1 f 0 hb.1 ht)

theorem Spec.buildCands (a : APt) : ∀ (n : ℕ) (last : APt), Spec tables (buildCands a n last) (fun adv r =>
    r.length = n + 1 ∧ ∀ P m, Represents adv a P → Represents adv last (m • P) →
      Tab adv (fun i => i • P) m r)
  | 0, last => (Spec.pure _).mono (by rintro adv r rfl; exact ⟨rfl, fun P m _ h => ⟨h, trivial⟩⟩)
  | n + 1, last => by
    refine ((Spec.pAdd last a).bind fun p => (Spec.buildCands a n p.1).bind fun rest =>
      Spec.pure (p.2 :: rest)).mono ?_
    rintro adv r ⟨p, h1, rest, ⟨h2, h3⟩, rfl⟩
    refine ⟨by simp [h2], fun P m ha hl => ?_⟩
    obtain ⟨k1, k2, k3⟩ := h1 _ _ hl.1 ha.1 (fun _ => hl.2)
    rw [← succ_nsmul] at k1
    exact ⟨⟨k2, k3 hl.2⟩, h3 P (m + 1) ha k1⟩

theorem Spec.buildCandsCurv (a : APt) : ∀ (n : ℕ) (last : APt), Spec tables (buildCandsCurv a n last)
    (fun adv r => r.length = n + 1 ∧ ∀ P m, Represents adv a P → Represents adv last (m • P) →
      Tab adv (fun i => i • P) m r)
  | 0, last => (Spec.pure _).mono (by rintro adv r rfl; exact ⟨rfl, fun P m _ h => ⟨h, trivial⟩⟩)
  | n + 1, last => by
    refine ((Spec.pAdd last a).bind fun p => (Spec.curvature p.1).bind fun q =>
      (Spec.buildCandsCurv a n q.2).bind fun rest => Spec.pure (p.2 :: rest)).mono ?_
    rintro adv r ⟨p, h1, q, h4, rest, ⟨h2, h3⟩, rfl⟩
    refine ⟨by simp [h2], fun P m ha hl => ?_⟩
    obtain ⟨k1, k2, k3⟩ := h1 _ _ hl.1 ha.1 (fun _ => hl.2)
    rw [← succ_nsmul] at k1
    obtain ⟨-, l1, -, -, -, -, l2⟩ := h4 _ k1.1
    exact ⟨⟨k2, k3 hl.2⟩, h3 P (m + 1) ha ⟨l1, l2 k1.2⟩⟩

theorem Spec.doubles : ∀ (n : ℕ) (a : APt), Spec tables (doubles n a) (fun adv r => ∀ P, Represents adv a P →
    Represents adv r (2 ^ n • P))
  | 0, a => (Spec.pure _).mono (by rintro adv r rfl P h; simpa using h)
  | n + 1, a => by
    refine ((Spec.pDouble a).bind fun p => Spec.doubles n p.1).mono ?_
    rintro adv r ⟨p, h1, h2⟩ P hP
    have := h2 _ (h1 _ hP).1
    rwa [← two_nsmul, ← mul_nsmul', ← pow_succ] at this

/-- Windows read from the most significant one on, after `m`. -/
def beVal (adv : Advice N) (w : ℕ) : ℕ → List (List (AV N)) → ℕ
  | m, [] => m
  | m, b :: bs => beVal adv w (bitsVal adv b + 2 ^ w * m) bs

theorem windowsVal_reverse (adv : Advice N) (w : ℕ) (ws : List (List (AV N))) : ∀ rest,
    windowsVal adv w (ws.reverse ++ rest) = beVal adv w (windowsVal adv w rest) ws := by
  induction ws with
  | nil => intro rest; rfl
  | cons b bs ih =>
    intro rest
    rw [List.reverse_cons, List.append_assoc, ih]
    rfl

theorem windowsVal_be (adv : Advice N) (w : ℕ) (ws : List (List (AV N))) :
    windowsVal adv w ws.reverse = beVal adv w 0 ws := by
  simpa [windowsVal] using windowsVal_reverse adv w ws []

theorem Spec.mulLoop (cs : List APt) : ∀ (ws : List (List (AV N))) (acc : APt), Spec tables (mulLoop cs ws acc)
    (fun adv r => ∀ P m, cs.length = 16 → Tab adv (fun i => i • P) 0 cs →
      (∀ b ∈ ws, b.length = 4 ∧ ∀ c ∈ b, BitCell adv c) → Represents adv acc (m • P) →
      Represents adv r (beVal adv 4 m ws • P))
  | [], acc => (Spec.pure _).mono (by rintro adv r rfl P m _ _ _ h; exact h)
  | bits :: ws, acc => by
    refine ((Spec.doubles 4 acc).bind fun acc1 => (Spec.pick bits cs).bind fun cur =>
      (Spec.pAdd cur acc1).bind fun p => Spec.mulLoop cs ws p.1).mono ?_
    rintro adv r ⟨acc1, h1, cur, h2, p, h3, h4⟩ P m hl ht hb ha
    simp only [List.mem_cons, forall_eq_or_imp] at hb
    have k1 := h1 _ ha
    have k2 := h2 _ (by rw [hl, hb.1.1]; norm_num) hb.1.2 ht
    have k3 := (h3 _ _ k2.1 k1.1 (fun _ => k2.2)).1
    rw [← mul_nsmul', ← add_nsmul] at k3
    exact h4 P _ hl ht hb.2 k3

theorem cast_nsmul {n : ℕ} {s : N} (h : ((n : ℕ) : N) = s) (P : Pt) : n • P = s.val • P := by
  subst h
  refine nsmul_congr P ?_
  rw [ZMod.val_natCast]
  exact (Nat.mod_modEq _ _).symm

/-- `mul`. -/
theorem Spec.pMul (a : APt) (s : AV N) : Spec tables (pMul a s) (fun adv r => ∀ P, Represents adv a P →
    Represents adv r ((s.val adv).val • P)) := by
  constructor
  intro ctx r ctx' h adv hs
  unfold Circuit.pMul at h
  simp only [bind_run] at h
  obtain ⟨ws, c1, h1, id, c2, h2, rest, c3, h3, h⟩ := h
  cases ws with
  | nil => exact absurd h (by simp [Circuit.unwrapM])
  | cons first pend =>
    simp only [bind_run] at h
    obtain ⟨acc, c4, h4, h5⟩ := h
    obtain ⟨s4, k5⟩ := (Spec.mulLoop _ _ _).run _ _ _ h5 adv hs
    obtain ⟨s3, k4⟩ := (Spec.pick _ _).run _ _ _ h4 adv s4
    obtain ⟨s2, k3l, k3⟩ := (Spec.buildCands _ _ _).run _ _ _ h3 adv s3
    obtain ⟨s1, k2⟩ := Spec.assignIdentity.run _ _ _ h2 adv s2
    obtain ⟨s0, -, -, k1, k1'⟩ := (Spec.decomposeScalar 4 (by norm_num) s).run _ _ _ h1 adv s1
    refine ⟨s0, fun P hP => ?_⟩
    simp only [List.mem_cons, forall_eq_or_imp] at k1
    have ht : Tab adv (fun i => i • P) 0 (id :: rest) := by
      refine ⟨?_, k3 P 1 hP (by rwa [one_nsmul])⟩
      rw [show (fun i : ℕ => i • P) 0 = 0 from zero_nsmul P]
      exact k2
    have hl : (id :: rest).length = 16 := by rw [List.length_cons, k3l]
    have r1 := k4 _ (by rw [hl, k1.1.1]; norm_num) k1.1.2 ht
    have r2 := k5 P _ hl ht k1.2 r1
    rw [windowsVal_be] at k1'
    rw [← cast_nsmul k1']
    simpa [beVal] using r2

/-! ### shamir -/

theorem Spec.decomposeAll : ∀ ss : List (AV N), Spec tables (decomposeAll ss) (fun adv r =>
    List.Forall₂ (fun s ws => ws.length = 64 ∧ (∀ b ∈ ws, b.length = 4 ∧ ∀ c ∈ b, BitCell adv c) ∧
      ((beVal adv 4 0 ws : ℕ) : N) = s.val adv) ss r)
  | [] => (Spec.pure _).mono (by rintro adv r rfl; exact .nil)
  | s :: ss => by
    refine ((Spec.decomposeScalar 4 (by norm_num) s).bind fun w => (Spec.decomposeAll ss).bind fun ws =>
      Spec.pure (w :: ws)).mono ?_
    rintro adv r ⟨w, ⟨h1, -, h2, h3⟩, ws, h4, rfl⟩
    exact .cons ⟨h1, h2, by rw [← windowsVal_be]; exact h3⟩ h4

theorem Spec.allCands (id : APt) : ∀ as : List APt, Spec tables (allCands id as) (fun adv r =>
    r.length = as.length ∧ ∀ Ps, Represents adv id 0 → List.Forall₂ (Represents adv) as Ps →
      List.Forall₂ (fun P cs => cs.length = 16 ∧ Tab adv (fun i => i • P) 0 cs) Ps r)
  | [] => (Spec.pure _).mono (by
      rintro adv r rfl
      refine ⟨rfl, fun Ps _ h => ?_⟩
      cases h
      exact .nil)
  | a :: as => by
    refine ((Spec.buildCandsCurv a 14 a).bind fun cs => (Spec.allCands id as).bind fun rest =>
      Spec.pure ((id :: cs) :: rest)).mono ?_
    rintro adv r ⟨cs, ⟨h1, h2⟩, rest, ⟨h3, h4⟩, rfl⟩
    refine ⟨by simp [h3], fun Ps h0 h => ?_⟩
    cases h with
    | cons hP hPs =>
      refine .cons ⟨by rw [List.length_cons, h1], ?_, h2 _ 1 hP (by rwa [one_nsmul])⟩ (h4 _ h0 hPs)
      dsimp only
      rw [zero_nsmul]
      exact h0

/-- The sum of the multiples picked in one window. -/
def pickSum (adv : Advice N) (Ps : List Pt) (bits : List (List (AV N))) : Pt :=
  (List.zipWith (fun P b => bitsVal adv b • P) Ps bits).sum

theorem Spec.innerLoop : ∀ (l : List (List APt × List (AV N))) (acc : APt), Spec tables (innerLoop l acc)
    (fun adv r => ∀ Ps S, List.Forall₂ (fun P cs => cs.length = 16 ∧ Tab adv (fun i => i • P) 0 cs) Ps (l.map Prod.fst) →
      (∀ b ∈ l.map Prod.snd, b.length = 4 ∧ ∀ c ∈ b, BitCell adv c) → Represents adv acc S →
      Represents adv r (pickSum adv Ps (l.map Prod.snd) + S))
  | [], acc => (Spec.pure _).mono (by rintro adv r rfl Ps S h _ hS; cases h; simpa [pickSum] using hS)
  | (cs, bits) :: rest, acc => by
    refine ((Spec.pick bits cs).bind fun ci => (Spec.pAdd ci acc).bind fun p => Spec.innerLoop rest p.1).mono ?_
    rintro adv r ⟨ci, h1, p, h2, h3⟩ Ps S hc hb hS
    simp only [List.map_cons, List.mem_cons, forall_eq_or_imp] at hc hb ⊢
    cases hc with
    | cons hP hPs =>
      have k1 := h1 _ (by rw [hP.1, hb.1.1]; norm_num) hb.1.2 hP.2
      have k2 := (h2 _ _ k1.1 hS.1 (fun _ => k1.2)).1
      have k3 := h3 _ _ hPs hb.2 k2
      rw [← add_assoc, add_comm (pickSum adv _ _)] at k3
      simpa [pickSum] using k3

theorem Spec.inner (l : List (List APt × List (AV N))) : Spec tables (inner l)
    (fun adv r => ∀ Ps, List.Forall₂ (fun P cs => cs.length = 16 ∧ Tab adv (fun i => i • P) 0 cs) Ps (l.map Prod.fst) →
      (∀ b ∈ l.map Prod.snd, b.length = 4 ∧ ∀ c ∈ b, BitCell adv c) →
      Represents adv r (pickSum adv Ps (l.map Prod.snd))) := by
  match l with
  | [] => exact (Spec.unwrapM none).mono (by rintro adv r ⟨⟩)
  | (cs, bits) :: rest =>
    refine ((Spec.pick bits cs).bind fun ci => Spec.innerLoop rest ci).mono ?_
    rintro adv r ⟨ci, h1, h3⟩ Ps hc hb
    simp only [List.map_cons, List.mem_cons, forall_eq_or_imp] at hc hb ⊢
    cases hc with
    | cons hP hPs =>
      have k1 := h1 _ (by rw [hP.1, hb.1.1]; norm_num) hb.1.2 hP.2
      have k3 := h3 _ _ hPs hb.2 k1
      rw [add_comm] at k3
      simpa [pickSum] using k3

/-- The sum of the multiples given by the first `n` windows. -/
def prefixSum (adv : Advice N) (n : ℕ) (Ps : List Pt) (windows : List (List (List (AV N)))) : Pt :=
  (List.zipWith (fun P ws => beVal adv 4 0 (ws.take n) • P) Ps windows).sum

theorem beVal_snoc (adv : Advice N) (w : ℕ) (ws : List (List (AV N))) (b : List (AV N)) : ∀ m,
    beVal adv w m (ws ++ [b]) = bitsVal adv b + 2 ^ w * beVal adv w m ws := by
  induction ws with
  | nil => intro m; rfl
  | cons c cs ih => intro m; exact ih _

theorem mapM_get {α : Type} {n : ℕ} : ∀ {l : List (List α)} {bs : List α}, l.mapM (fun w => w[n]?) = some bs →
    List.Forall₂ (fun w b => w[n]? = some b) l bs
  | [], bs, h => by
    simp only [List.mapM_nil, Option.pure_def, Option.some.injEq] at h
    subst h
    exact .nil
  | w :: l, bs, h => by
    simp only [List.mapM_cons, Option.bind_eq_bind, Option.bind_eq_some_iff, Option.pure_def,
      Option.some.injEq] at h
    obtain ⟨b, hb, bs', hbs, rfl⟩ := h
    exact .cons hb (mapM_get hbs)

theorem prefixSum_succ {adv : Advice N} {n : ℕ} : ∀ {Ps : List Pt} {windows : List (List (List (AV N)))}
    {bits : List (List (AV N))}, List.Forall₂ (fun w b => w[n]? = some b) windows bits →
    pickSum adv Ps bits + 2 ^ 4 • prefixSum adv n Ps windows = prefixSum adv (n + 1) Ps windows
  | [], _, _, _ => by simp [pickSum, prefixSum]
  | _ :: _, _, _, .nil => by simp [pickSum, prefixSum]
  | P :: Ps, _, _, .cons (a := w) (b := b) h hs => by
    have ih := prefixSum_succ (adv := adv) (Ps := Ps) hs
    have e : w.take (n + 1) = w.take n ++ [b] := by rw [List.take_add_one, h]; rfl
    simp only [pickSum, prefixSum, List.zipWith_cons_cons, List.sum_cons, e, beVal_snoc] at ih ⊢
    rw [← ih, add_nsmul, mul_nsmul', nsmul_add]
    abel

theorem Spec.inner_zip (cands : List (List APt)) (bits : List (List (AV N))) : Spec tables (Circuit.inner (cands.zip bits))
    (fun adv r => ∀ Ps, cands.length = bits.length →
      List.Forall₂ (fun P cs => cs.length = 16 ∧ Tab adv (fun i => i • P) 0 cs) Ps cands →
      (∀ b ∈ bits, b.length = 4 ∧ ∀ c ∈ b, BitCell adv c) → Represents adv r (pickSum adv Ps bits)) :=
  (Spec.inner _).mono fun adv r h Ps hl hc hb => by
    have e1 : (cands.zip bits).map Prod.fst = cands := List.map_fst_zip (by omega)
    have e2 : (cands.zip bits).map Prod.snd = bits := List.map_snd_zip (by omega)
    rw [e1, e2] at h
    exact h Ps hc hb

theorem get_mem_all {α : Type} {n : ℕ} {p : α → Prop} : ∀ {l : List (List α)} {bs : List α},
    List.Forall₂ (fun w b => w[n]? = some b) l bs → (∀ w ∈ l, ∀ b ∈ w, p b) → ∀ b ∈ bs, p b
  | _, _, .nil, _, b, hb => by cases hb
  | _, _, .cons h hs, hall, b, hb => by
    simp only [List.mem_cons, forall_eq_or_imp] at hall
    rcases List.mem_cons.1 hb with rfl | hb
    · exact hall.1 _ (List.mem_of_getElem? h)
    · exact get_mem_all hs hall.2 b hb

theorem Spec.shamirLoop (cands : List (List APt)) (windows : List (List (List (AV N)))) : ∀ (n wi : ℕ) (acc : APt),
    Spec tables (shamirLoop cands windows n wi acc) (fun adv r => ∀ Ps, cands.length = windows.length →
      List.Forall₂ (fun P cs => cs.length = 16 ∧ Tab adv (fun i => i • P) 0 cs) Ps cands →
      (∀ w ∈ windows, ∀ b ∈ w, b.length = 4 ∧ ∀ c ∈ b, BitCell adv c) →
      Represents adv acc (prefixSum adv wi Ps windows) → Represents adv r (prefixSum adv (wi + n) Ps windows))
  | 0, wi, acc => (Spec.pure _).mono (by rintro adv r rfl Ps _ _ _ h; exact h)
  | n + 1, wi, acc => by
    refine ((Spec.unwrapM _).bind fun bits => (Spec.inner_zip cands bits).bind fun ia =>
      (Spec.doubles 4 acc).bind fun acc1 => (Spec.pAdd ia acc1).bind fun p =>
        Spec.shamirLoop cands windows n (wi + 1) p.1).mono ?_
    rintro adv r ⟨bits, hbits, ia, h1, acc1, h2, p, h3, h4⟩ Ps hl hc hw ha
    have hg := mapM_get hbits
    have k1 := h1 Ps (hl.trans hg.length_eq) hc (get_mem_all hg hw)
    have k2 := h2 _ ha
    have k3 := (h3 _ _ k1.1 k2.1 (fun _ => k1.2)).1
    rw [prefixSum_succ hg] at k3
    have := h4 Ps hl hc hw k3
    rwa [show wi + 1 + n = wi + (n + 1) from by omega] at this

/-- `Σ s_i • P_i`. -/
theorem Spec.shamir (points : List APt) (scalars : List (AV N)) : Spec tables (shamir points scalars)
    (fun adv r => points.length = scalars.length ∧ ∀ Ps, List.Forall₂ (Represents adv) points Ps →
      Represents adv r (List.zipWith (fun (P : Pt) (s : AV N) => (s.val adv).val • P) Ps scalars).sum) := by
  constructor
  intro ctx r ctx' h adv hs
  unfold Circuit.shamir at h
  simp only [bind_run] at h
  obtain ⟨_, c1, h1, windows, c2, h2, id, c3, h3, cands, c4, h4, w0, c5, h5, h⟩ := h
  have hn : ∃ n, w0.length = n + 1 ∧ (do
      let bits ← Circuit.unwrapM (windows.mapM fun w => w[0]?)
      let acc ← Circuit.inner (cands.zip bits)
      Circuit.shamirLoop cands windows n 1 acc : M N APt) c5 = some (r, ctx') := by
    generalize w0.length = n at h
    cases n with
    | zero => exact absurd h (by simp [Circuit.unwrapM])
    | succ n => exact ⟨n, rfl, h⟩
  obtain ⟨n, hn, h⟩ := hn
  simp only [bind_run] at h
  obtain ⟨bits, c6, h6, acc, c7, h7, h8⟩ := h
  obtain ⟨s7, k8⟩ := (Spec.shamirLoop _ _ _ _ _).run _ _ _ h8 adv hs
  obtain ⟨s6, k7⟩ := (Spec.inner_zip _ _).run _ _ _ h7 adv s7
  obtain ⟨s5, k6⟩ := (Spec.unwrapM _).run _ _ _ h6 adv s6
  obtain ⟨s4, k5⟩ := (Spec.unwrapM _).run _ _ _ h5 adv s5
  obtain ⟨s3, k4l, k4⟩ := (Spec.allCands _ _).run _ _ _ h4 adv s4
  obtain ⟨s2, k3⟩ := Spec.assignIdentity.run _ _ _ h3 adv s3
  obtain ⟨s1, k2⟩ := (Spec.decomposeAll _).run _ _ _ h2 adv s2
  obtain ⟨s0, k1⟩ := (Spec.assertM _).run _ _ _ h1 adv s1
  refine ⟨s0, k1, fun Ps hPs => ?_⟩
  have hc := k4 Ps k3 hPs
  have hg := mapM_get k6
  have hl : cands.length = windows.length := by rw [k4l, k1, k2.length_eq]
  have hw : ∀ w ∈ windows, w.length = 64 ∧ ∀ b ∈ w, b.length = 4 ∧ ∀ c ∈ b, BitCell adv c := by
    intro w hw
    obtain ⟨i, hi⟩ := List.mem_iff_getElem.1 hw
    obtain ⟨hi, rfl⟩ := hi
    have := (List.forall₂_iff_get.1 k2).2 i (by rw [k2.length_eq]; exact hi) hi
    exact ⟨this.1, this.2.1⟩
  have hw0 : n + 1 = 64 := by
    have : w0 ∈ windows := List.mem_of_head? k5
    rw [← hn, (hw _ this).1]
  have r1 := k7 Ps (hl.trans hg.length_eq) hc (get_mem_all hg fun w h => (hw w h).2)
  have e0 : pickSum adv Ps bits = prefixSum adv 1 Ps windows := by
    rw [← prefixSum_succ hg]
    have : prefixSum adv 0 Ps windows = 0 := by
      unfold prefixSum
      rw [List.sum_eq_zero]
      intro x hx
      obtain ⟨i, hi, rfl⟩ := List.mem_iff_getElem.1 hx
      simp [beVal]
    rw [this, nsmul_zero, add_zero]
  rw [e0] at r1
  have r2 := k8 Ps hl hc (fun w h => (hw w h).2) r1
  rw [show 1 + n = 64 from by omega] at r2
  have : prefixSum adv 64 Ps windows =
      (List.zipWith (fun (P : Pt) (s : AV N) => (s.val adv).val • P) Ps scalars).sum := by
    unfold prefixSum
    congr 1
    clear * - k2
    induction k2 generalizing Ps with
    | nil => simp
    | cons h hs ih =>
      cases Ps with
      | nil => rfl
      | cons P Ps =>
        simp only [List.zipWith_cons_cons]
        rw [ih, List.take_of_length_le (by rw [h.1]), cast_nsmul h.2.2]
  rwa [this] at r2

/-! ### constant_mul -/

/-- The identity has zero coordinates. -/
def ZeroOk (adv : Advice N) (p : APt) (P : Pt) : Prop := P = 0 → residue adv p.x = 0 ∧ residue adv p.y = 0

theorem Spec.bisecPointCurv_zero (c : AV N) (a b : APt) : Spec tables (Circuit.bisecPointCurv c a b) (fun adv r =>
    ∀ P Q, StandsFor adv a P → StandsFor adv b Q →
    (c.val adv = 1 → ZeroOk adv a P → ZeroOk adv r P) ∧ (c.val adv = 0 → ZeroOk adv b Q → ZeroOk adv r Q)) := by
  constructor
  intro ctx r ctx' h adv hs
  unfold Circuit.bisecPointCurv at h
  simp only [bind_run, Prod.exists, pure_run] at h
  obtain ⟨x, c1, h1, y, c2, h2, z, c3, h3, ca, a', c4, h4, cb, b', c5, h5, cc, c6, h6, rfl, rfl⟩ := h
  obtain ⟨s5, p6⟩ := (Spec.bisecCurv _ _ _).run _ _ _ h6 adv hs
  obtain ⟨s4, p5⟩ := (Spec.curvature _).run _ _ _ h5 adv s5
  obtain ⟨s3, p4⟩ := (Spec.curvature _).run _ _ _ h4 adv s4
  obtain ⟨s2, p3⟩ := (Spec.bisecCond _ _ _).run _ _ _ h3 adv s3
  obtain ⟨s1, p2⟩ := (Spec.ibisec_val _ _ _).run _ _ _ h2 adv s2
  obtain ⟨s0, p1⟩ := (Spec.ibisec_val _ _ _).run _ _ _ h1 adv s1
  refine ⟨s0, fun P Q hP hQ => ⟨fun hc ht h0 => ?_, fun hc ht h0 => ?_⟩⟩
  · obtain ⟨t1, t2⟩ := ht h0
    exact ⟨(p1.1 _ (isBit_true hc) hP.x.ok hQ.x.2).val.trans t1, (p2.1 _ (isBit_true hc) hP.y.ok hQ.y.2).val.trans t2⟩
  · obtain ⟨t1, t2⟩ := ht h0
    exact ⟨(p1.2.1 _ (isBit_false hc) hP.x.2 hQ.x.ok).val.trans t1, (p2.2.1 _ (isBit_false hc) hP.y.2 hQ.y.ok).val.trans t2⟩

theorem Spec.assignConstantPointCurv_zero (c : Pt) : Spec tables (Circuit.assignConstantPointCurv c) (fun adv r => ZeroOk adv r c) := by
  constructor
  intro ctx r ctx' h adv hs
  unfold Circuit.assignConstantPointCurv at h
  simp only [bind_run, pure_run] at h
  obtain ⟨cv, c4, h4, cz, c5, h5, x, c1, h1, y, c2, h2, z, c3, h3, rfl, rfl⟩ := h
  obtain ⟨s2, -⟩ := (Spec.assignConstant _).run _ _ _ h3 adv hs
  obtain ⟨s1, k2⟩ := (Spec.iassignConstant_val _).run _ _ _ h2 adv s2
  obtain ⟨s0, k1⟩ := (Spec.iassignConstant_val _).run _ _ _ h1 adv s1
  obtain ⟨s0, -⟩ := (Spec.assignConstant _).run _ _ _ h5 adv s0
  obtain ⟨s0, -⟩ := (Spec.iassignConstant_val _).run _ _ _ h4 adv s0
  refine ⟨s0, ?_⟩
  rintro rfl
  exact ⟨k1.val, k2.val⟩

theorem Spec.both {t : Tables} {α : Type} {x : M N α} {p q : Advice N → α → Prop} (h : Spec t x p) (h' : Spec t x q) :
    Spec t x fun adv r => p adv r ∧ q adv r :=
  ⟨fun ctx r ctx' hr adv hs => ⟨(h.run ctx r ctx' hr adv hs).1, (h.run ctx r ctx' hr adv hs).2, (h'.run ctx r ctx' hr adv hs).2⟩⟩

theorem Spec.constSlot (id : APt) (base : Pt) (bits : List (AV N)) : Spec tables (constSlot id base bits)
    (fun adv r => StandsFor adv id 0 → (∀ c ∈ bits, BitCell adv c) →
      StandsFor adv r (bitsVal adv bits • base) ∧ bitsVal adv bits ≤ 3 ∧
      (ZeroOk adv id 0 → ZeroOk adv r (bitsVal adv bits • base))) := by
  have hone : (1 : N).val = 1 := by
    have : Fact (1 < frMod) := ⟨by decide +kernel⟩
    exact ZMod.val_one _
  match bits with
  | [] => exact (Spec.unwrapM none).mono (by rintro _ _ ⟨⟩)
  | [_] => exact (Spec.unwrapM none).mono (by rintro _ _ ⟨⟩)
  | _ :: _ :: _ :: _ => exact (Spec.unwrapM none).mono (by rintro _ _ ⟨⟩)
  | [b0, b1] =>
    refine (((Spec.assignConstantPointCurv _).both (Spec.assignConstantPointCurv_zero _)).bind fun c01 =>
      ((Spec.assignConstantPointCurv _).both (Spec.assignConstantPointCurv_zero _)).bind fun c10 =>
      ((Spec.assignConstantPointCurv _).both (Spec.assignConstantPointCurv_zero _)).bind fun c11 =>
      ((Spec.bisecPointCurv b0 c10 id).both (Spec.bisecPointCurv_zero b0 c10 id)).bind fun c0 =>
      ((Spec.bisecPointCurv b0 c11 c01).both (Spec.bisecPointCurv_zero b0 c11 c01)).bind fun c1 =>
      (Spec.bisecPointCurv b1 c1 c0).both (Spec.bisecPointCurv_zero b1 c1 c0)).mono ?_
    rintro adv r ⟨c01, ⟨h01, z01⟩, c10, ⟨h10, z10⟩, c11, ⟨h11, z11⟩, c0, ⟨h0, z0⟩, c1, ⟨h1, z1⟩, h2, z2⟩ hid hb
    simp only [List.mem_cons, List.not_mem_nil, or_false, forall_eq_or_imp, forall_eq] at hb
    obtain ⟨i1, i0⟩ := h0 _ _ h10 hid
    obtain ⟨j1, j0⟩ := h1 _ _ h11 h01
    obtain ⟨zi1, zi0⟩ := z0 _ _ h10 hid
    obtain ⟨zj1, zj0⟩ := z1 _ _ h11 h01
    simp only [bitsVal, lv]
    rcases hb with ⟨b | b, b' | b'⟩
    · rw [b, b']
      have := ((h2 _ _ (j0 b).1 (i0 b).1).2 b').1
      have hz := fun hz => (z2 _ _ (j0 b).1 (i0 b).1).2 b' (zi0 b hz)
      refine ⟨by simpa using this, by simp, fun h => by simpa using hz h⟩
    · rw [b, b', hone]
      have := ((h2 _ _ (j0 b).1 (i0 b).1).1 b').1
      have hz := (z2 _ _ (j0 b).1 (i0 b).1).1 b' (zj0 b z01)
      refine ⟨by simpa [two_nsmul] using this, by simp, fun _ => by simpa [two_nsmul] using hz⟩
    · rw [b, b', hone]
      have := ((h2 _ _ (j1 b).1 (i1 b).1).2 b').1
      have hz := (z2 _ _ (j1 b).1 (i1 b).1).2 b' (zi1 b z10)
      refine ⟨by simpa using this, by simp, fun _ => by simpa using hz⟩
    · rw [b, b', hone]
      have := ((h2 _ _ (j1 b).1 (i1 b).1).1 b').1
      have hz := (z2 _ _ (j1 b).1 (i1 b).1).1 b' (zj1 b z11)
      refine ⟨by simpa [succ_nsmul] using this, by simp, fun _ => by simpa [succ_nsmul] using hz⟩

theorem four_nsmul' (a : Pt) : 4 • a = a + a + a + a := by
  rw [show (4 : ℕ) = 0 + 1 + 1 + 1 + 1 from rfl]
  simp only [succ_nsmul, zero_nsmul, zero_add]

theorem mul_ne_of_lt {a : Pt} {m k : ℕ} (ha : a ≠ 0) (hk : k < frMod) (hm : m < k) : k • a ≠ m • a := by
  intro h
  have h0 : (k - m) • a = 0 := by
    have : k • a = (k - m) • a + m • a := by rw [← add_nsmul]; congr 1; omega
    rw [this] at h
    simpa using h
  have hd := addOrderOf_dvd_of_nsmul_eq_zero h0
  have ho : addOrderOf a ∣ frMod := addOrderOf_dvd_of_nsmul_eq_zero (order_nsmul a)
  rcases (Nat.dvd_prime frMod_prime).1 ho with h1 | h1
  · exact ha (AddMonoid.addOrderOf_eq_one_iff.1 h1)
  · rw [h1] at hd
    have := Nat.le_of_dvd (by omega) hd
    omega

theorem const_lt : 3 * 4 ^ 126 < frMod := by decide +kernel

theorem Spec.constLoop (id : APt) (a : Pt) : ∀ (ws : List (List (AV N))) (i : ℕ) (acc : APt),
    Spec tables (constLoop id ws (4 ^ i • a) acc) (fun adv r =>
      ∀ m, i + ws.length ≤ 127 → StandsFor adv id 0 → (∀ b ∈ ws, ∀ c ∈ b, BitCell adv c) → m < 4 ^ i → StandsFor adv acc (m • a) →
        StandsFor adv r ((m + 4 ^ i * windowsVal adv 2 ws) • a) ∧ (TangentOk adv acc (m • a) ∨ ws ≠ [] →
          TangentOk adv r ((m + 4 ^ i * windowsVal adv 2 ws) • a)) ∧
        (m + 4 ^ i * windowsVal adv 2 ws < frMod →
          ZeroOk adv id 0 → ZeroOk adv acc (m • a) → ZeroOk adv r ((m + 4 ^ i * windowsVal adv 2 ws) • a)))
  | [], i, acc => (Spec.pure _).mono (by
      rintro adv r rfl m _ _ _ _ h
      refine ⟨by simpa [windowsVal] using h, by simp [windowsVal], fun _ _ hz => by simpa [windowsVal] using hz⟩)
  | bits :: ws, i, acc => by
    have e : 4 ^ i • a + 4 ^ i • a + 4 ^ i • a + 4 ^ i • a = 4 ^ (i + 1) • a := by
      rw [pow_succ', mul_nsmul', four_nsmul']
    unfold Circuit.constLoop
    rw [e]
    refine ((Spec.constSlot id (4 ^ i • a) bits).bind fun slot => (Spec.pAdd' slot acc).bind fun p =>
      Spec.constLoop id a ws (i + 1) p.1).mono ?_
    rintro adv r ⟨slot, h1, p, h2, h3⟩ m hi hid hb hm hacc
    simp only [List.length_cons] at hi
    simp only [List.mem_cons, forall_eq_or_imp] at hb
    obtain ⟨k1, k1', k1z⟩ := h1 hid hb.1
    rw [← mul_nsmul'] at k1 k1z
    have h4 : 4 ^ i ≤ 4 ^ 126 := Nat.pow_le_pow_right (by norm_num) (by omega)
    have hT : (bitsVal adv bits * 4 ^ i) • a = m • a → TangentOk adv slot ((bitsVal adv bits * 4 ^ i) • a) := by
      intro heq c hc hne
      exfalso
      apply hne
      by_cases ha : a = 0
      · rw [ha, nsmul_zero]
      by_cases hd : bitsVal adv bits = 0
      · rw [hd, zero_mul, zero_nsmul]
      · exfalso
        refine mul_ne_of_lt ha ?_ ?_ heq
        · refine lt_of_le_of_lt ?_ const_lt
          exact Nat.mul_le_mul k1' h4
        · calc m < 4 ^ i := hm
            _ ≤ bitsVal adv bits * 4 ^ i := Nat.le_mul_of_pos_left _ (by omega)
    obtain ⟨k2, -, -, -, -, k2z⟩ := h2 _ _ k1 hacc hT
    rw [← add_nsmul] at k2
    have hzero : bitsVal adv bits * 4 ^ i + m < frMod →
        ZeroOk adv id 0 → ZeroOk adv acc (m • a) → ZeroOk adv p.1 ((bitsVal adv bits * 4 ^ i + m) • a) := by
      intro hlt hi0 hacc0 hs0
      have hparts : (bitsVal adv bits * 4 ^ i) • a = 0 ∧ m • a = 0 := by
        by_cases ha : a = 0
        · simp [ha]
        · by_cases hz : bitsVal adv bits * 4 ^ i + m = 0
          · have h1 : bitsVal adv bits * 4 ^ i = 0 := by omega
            have h2 : m = 0 := by omega
            rw [h1, h2]
            simp
          · exfalso
            exact mul_ne_of_lt ha hlt (Nat.pos_of_ne_zero hz) (by rw [hs0, zero_nsmul])
      obtain ⟨q1, q2⟩ := k2z hparts.2
      rw [q1, q2]
      exact k1z hi0 hparts.1
    obtain ⟨r1, r2, r3⟩ := h3 _ (by omega) hid hb.2 (by
      rw [pow_succ]
      have : bitsVal adv bits * 4 ^ i ≤ 3 * 4 ^ i := Nat.mul_le_mul_right _ k1'
      omega) k2.1
    have e2 : bitsVal adv bits * 4 ^ i + m + 4 ^ (i + 1) * windowsVal adv 2 ws =
        m + 4 ^ i * windowsVal adv 2 (bits :: ws) := by
      simp only [windowsVal, pow_succ]
      ring
    rw [e2] at r1 r2 r3
    exact ⟨r1, fun _ => r2 (.inl k2.2), fun hl h h' => r3 hl h (hzero (lt_of_le_of_lt (by
      simp only [windowsVal]; nlinarith [Nat.zero_le (4 ^ i * (4 * windowsVal adv 2 ws))]) hl) h h')⟩

/-- `constant_mul`. -/
theorem Spec.constantMul (a : Pt) (s : AV N) : Spec tables (constantMul a s) (fun adv r =>
    Represents adv r ((s.val adv).val • a)) := by
  constructor
  intro ctx r ctx' h adv hs
  unfold Circuit.constantMul at h
  simp only [bind_run] at h
  obtain ⟨ws, c1, h1, id, c2, h2, h⟩ := h
  cases hr : ws.reverse with
  | nil => rw [hr] at h; exact absurd h (by simp [Circuit.unwrapM])
  | cons bits rest =>
    rw [hr] at h
    simp only [bind_run] at h
    obtain ⟨slot, c3, h3, h4⟩ := h
    have e : a + a + a + a = 4 ^ 1 • a := by rw [pow_one, four_nsmul']
    rw [e] at h4
    obtain ⟨s3, k4⟩ := (Spec.constLoop _ _ _ _ _).run _ _ _ h4 adv hs
    obtain ⟨s2, k3⟩ := (Spec.constSlot _ _ _).run _ _ _ h3 adv s3
    obtain ⟨s1, k2⟩ := (Spec.assignConstantPointCurv _).run _ _ _ h2 adv s2
    obtain ⟨s0, k1l, -, k1, k1'⟩ := (Spec.decomposeScalar 2 (by norm_num) s).run _ _ _ h1 adv s1
    have hlen : rest.length = 126 := by
      have : (bits :: rest).length = 127 := by rw [← hr, List.length_reverse, k1l]
      simpa using this
    have hall : ∀ b ∈ bits :: rest, ∀ c ∈ b, BitCell adv c := by
      intro b hb
      rw [← hr, List.mem_reverse] at hb
      exact (k1 b hb).2
    simp only [List.mem_cons, forall_eq_or_imp] at hall
    obtain ⟨j1, j2, j3⟩ := k3 k2 hall.1
    obtain ⟨r1, r2, r3⟩ := k4 _ (by omega) k2 hall.2 (by omega) j1
    rw [hr] at k1'
    have e2 : bitsVal adv bits + 4 ^ 1 * windowsVal adv 2 rest = windowsVal adv 2 (bits :: rest) := rfl
    rw [e2, cast_nsmul k1'] at r1 r2
    exact ⟨s0, r1, r2 (.inr (by rintro rfl; simp at hlen))⟩

end Verif.Circuit
