import Verif.Integer.ProgramLemmas

/-!
# Honest runs of straight-line integer programs (helper lemmas)
-/

set_option linter.unusedSimpArgs false

namespace Verif.Circuit

/-! ### Counters -/

theorem assignW_ov {v : W} {c c' : Ctx N} {r : AInt} (h : assignW v c = some (r, c')) : r.overflows = 0 := by
  simp only [assignW, bind_run, pure_run] at h
  obtain ⟨_, _, -, _, _, -, _, _, -, _, _, -, rfl, -⟩ := h
  rfl

theorem native_ov {a : AInt} {c c' : Ctx N} {r : AV N × AInt} (h : native a c = some (r, c')) :
    r.2.overflows = a.overflows := by
  obtain ⟨l, n, o⟩ := a
  cases n with
  | some n =>
    simp only [native, pure_run] at h
    obtain ⟨rfl, -⟩ := h
    rfl
  | none =>
    simp only [native, bind_run, pure_run] at h
    obtain ⟨_, _, -, rfl, -⟩ := h
    rfl

theorem reduce_ov {a : AInt} {c c' : Ctx N} {r : AInt} (h : Circuit.reduce a c = some (r, c')) :
    r.overflows = 0 := by
  unfold Circuit.reduce at h
  split at h
  · next h0 =>
    rw [pure_run] at h
    obtain ⟨rfl, -⟩ := h
    exact h0
  · simp only [bind_run, Prod.exists, pure_run] at h
    obtain ⟨_, _, -, _, _, -, rem, _, h1, _, _, -, n, rem', _, h2, _, _, _, -, _, _, -, _, _, -, rfl, -⟩ := h
    have e1 := assignW_ov h1
    have e2 := native_ov h2
    exact e2.trans e1

theorem conditionallyReduce_ov {a : AInt} {c c' : Ctx N} {r : AInt}
    (h : conditionallyReduce a c = some (r, c')) :
    r.overflows = if a.overflows < 32 then a.overflows else 0 := by
  unfold conditionallyReduce at h
  rw [show overflowThreshold = 32 from rfl] at h
  split at h
  · rw [if_neg (by omega)]; exact reduce_ov h
  · rw [if_pos (by omega)]
    rw [pure_run] at h
    obtain ⟨rfl, -⟩ := h
    rfl

theorem iadd_ov {a b : AInt} {c c' : Ctx N} {r : AInt} (h : iadd a b c = some (r, c')) :
    r.overflows = if a.overflows + b.overflows + 1 < 32 then a.overflows + b.overflows + 1 else 0 := by
  simp only [iadd, bind_run] at h
  obtain ⟨_, _, -, _, _, -, _, _, -, _, _, -, h⟩ := h
  exact conditionallyReduce_ov h

theorem isub_ov {a b : AInt} {c c' : Ctx N} {r : AInt} (h : isub a b c = some (r, c')) :
    r.overflows = if a.overflows + b.overflows + 2 < 32 then a.overflows + b.overflows + 2 else 0 := by
  simp only [isub, bind_run] at h
  obtain ⟨_, _, -, _, _, -, _, _, -, _, _, -, _, _, -, h⟩ := h
  have := conditionallyReduce_ov h
  simpa only [AInt.new, add_assoc] using this

theorem ineg_ov {a : AInt} {c c' : Ctx N} {r : AInt} (h : ineg a c = some (r, c')) :
    r.overflows = if a.overflows + 1 < 32 then a.overflows + 1 else 0 := by
  simp only [ineg, bind_run] at h
  obtain ⟨_, _, -, _, _, -, _, _, -, _, _, -, _, _, -, h⟩ := h
  exact conditionallyReduce_ov h

/-- The panic of `sub`: two counters of 31. -/
theorem isub_panics {a b : AInt} (h : 62 ≤ a.overflows + b.overflows) (c : Ctx N) : isub a b c = none := by
  cases hr : isub a b c with
  | none => rfl
  | some p =>
    obtain ⟨r, c'⟩ := p
    simp only [isub, bind_run] at hr
    obtain ⟨_, _, -, _, _, -, _, _, -, _, _, -, _, _, -, hr⟩ := hr
    unfold conditionallyReduce at hr
    rw [if_pos (by simp only [AInt.new, overflowThreshold]; omega)] at hr
    unfold Circuit.reduce at hr
    rw [if_neg (by simp only [AInt.new]; omega), bind_run] at hr
    obtain ⟨_, _, hr, -⟩ := hr
    unfold assertM at hr
    rw [if_neg (by simp only [AInt.new, overflowLimit]; omega)] at hr
    exact absurd hr (by simp)

theorem set_getD_self (c : List ℕ) : ∀ i, c.set i (c.getD i 0) = c := by
  induction c with
  | nil => intro i; rfl
  | cons x c ih =>
    intro i
    cases i with
    | zero => rfl
    | succ i => simpa using ih i

theorem count_int {s : IState} {c : List ℕ} (h : s.ints.map AInt.overflows = c) (i : ℕ) :
    (s.int i).overflows = c.getD i 0 := by
  rw [← h, IState.int, List.getD_eq_getElem?_getD, List.getD_eq_getElem?_getD, List.getElem?_map]
  cases s.ints[i]? <;> rfl

theorem count_set {l : List AInt} {c : List ℕ} (h : l.map AInt.overflows = c) (i : ℕ) (a : AInt) :
    (l.set i a).map AInt.overflows = c.set i a.overflows := by rw [List.map_set, h]

theorem count_snoc {l : List AInt} {c : List ℕ} (h : l.map AInt.overflows = c) (a : AInt) :
    (l ++ [a]).map AInt.overflows = c ++ [a.overflows] := by simp [h]

/-! ### Honest states -/

/-- An honest state: every integer is honest and canonical when reduced, every bit carries its value, the
state stands for the evaluated values, and the counters are the evaluated ones. -/
structure HState (ctx : Ctx N) (s : IState) (e : IEnv) (c : List ℕ) : Prop where
  ints : ∀ a ∈ s.ints, HInt ctx a
  bits : ∀ b ∈ s.bits, ValidAV ctx b
  stands : Stands ctx.wit s e
  count : s.ints.map AInt.overflows = c

theorem Stands.ext {ctx ctx' : Ctx N} {s : IState} {e : IEnv} {c : List ℕ} (h : HState ctx s e c)
    (he : Ext ctx ctx') : Stands ctx'.wit s e := by
  constructor
  · refine ((List.forall₂_and_left _ _).2 ⟨h.ints, h.stands.ints⟩).imp ?_
    rintro a v ⟨ha, h1, h2, h3⟩
    refine ⟨(ha.ext he).ann, h2, ?_⟩
    rw [← h3]
    unfold residue
    rw [limbsVal_ext ha.valid he]
  · refine ((List.forall₂_and_left _ _).2 ⟨h.bits, h.stands.bits⟩).imp ?_
    rintro a v ⟨ha, h1⟩
    rw [← h1]
    exact val_wit_ext ha he

theorem mem_getD {α : Type} {l : List α} {i : ℕ} (h : i < l.length) (d : α) : l.getD i d ∈ l := by
  rw [List.getD_eq_getElem?_getD, List.getElem?_eq_getElem h]; exact List.getElem_mem h

theorem all_snoc {α : Type} {P : α → Prop} {l : List α} {a : α} (h : ∀ x ∈ l, P x) (ha : P a) :
    ∀ x ∈ l ++ [a], P x := by
  intro x hx
  rcases List.mem_append.1 hx with hx | hx
  · exact h x hx
  · rw [List.mem_singleton.1 hx]; exact ha

theorem all_set {α : Type} {P : α → Prop} {l : List α} {a : α} {i : ℕ} (h : ∀ x ∈ l, P x) (ha : P a) :
    ∀ x ∈ l.set i a, P x := by
  intro x hx
  rcases List.mem_or_eq_of_mem_set hx with hx | hx
  · exact h x hx
  · rw [hx]; exact ha

theorem forall2_last {α β : Type} {R : α → β → Prop} {l : List α} {l' : List β} {a : α} {b : β}
    (hl : l.length = l'.length) (h : List.Forall₂ R (l ++ [a]) (l' ++ [b])) : R a b := by
  obtain ⟨b', h1, h2⟩ := forall2_get h (i := l.length) (by simp) a
  rw [hl, List.getElem?_append_right le_rfl] at h1
  simp at h1
  subst h1
  simpa using h2

/-- The values of an honest run are the evaluated ones. -/
theorem stands_of_run {ctx ctx' : Ctx N} {s s' : IState} {e : IEnv} {c : List ℕ} {op : IOp}
    (h : HState ctx s e c) (hr : op.run s ctx = some (s', ctx')) (hg : Good tables ctx') (hx : Ext ctx ctx') :
    ∃ e', op.Sem e e' ∧ Stands ctx'.wit s' e' :=
  ((Spec.iop s op).run _ _ _ hr _ hg.sat).2 e (Stands.ext h hx)

theorem HState.int {ctx : Ctx N} {s : IState} {e : IEnv} {c : List ℕ} (h : HState ctx s e c) {i : ℕ} {v : W}
    (hi : e.vals[i]? = some v) : i < s.ints.length ∧ HInt ctx (s.int i) ∧ (s.int i).overflows < 32 := by
  have hlen := h.stands.ints.length_eq
  have hi' : i < s.ints.length := by rw [hlen]; exact (List.getElem?_eq_some_iff.1 hi).1
  obtain ⟨v', -, hv⟩ := forall2_get h.stands.ints hi' AInt.dummy
  exact ⟨hi', h.ints _ (mem_getD hi' _), hv.2.1⟩

theorem stands_of_run_det {ctx ctx' : Ctx N} {s s' : IState} {e e' : IEnv} {c : List ℕ} {op : IOp}
    (h : HState ctx s e c) (hr : op.run s ctx = some (s', ctx')) (hg : Good tables ctx') (hx : Ext ctx ctx')
    (hd : ∀ e'', op.Sem e e'' → op.eval e = some e'') (he : op.eval e = some e') :
    Stands ctx'.wit s' e' := by
  obtain ⟨e'', h1, h2⟩ := stands_of_run h hr hg hx
  have := hd _ h1
  rw [he] at this
  cases this
  exact h2

/-- An honest call succeeds. -/
theorem iop_complete {ctx : Ctx N} {s : IState} {e e' : IEnv} {c c' : List ℕ} {op : IOp}
    (hg : Good tables ctx) (h : HState ctx s e c) (he : op.eval e = some e') (hc : op.count c = some c') :
    ∃ s' ctx', op.run s ctx = some (s', ctx') ∧ Good tables ctx' ∧ Ext ctx ctx' ∧ HState ctx' s' e' c' := by
  have hI : ∀ {ctx' : Ctx N}, Ext ctx ctx' → ∀ a ∈ s.ints, HInt ctx' a := fun hx a ha => (h.ints a ha).ext hx
  have hB : ∀ {ctx' : Ctx N}, Ext ctx ctx' → ∀ a ∈ s.bits, ValidAV ctx' a := fun hx a ha => (h.bits a ha).ext hx
  have hcount := count_int h.count
  cases op with
  | assign v =>
    obtain ⟨r, c1, f, g, x, y, o, n, w⟩ := (CSpec.assignW v).run ctx hg trivial
    have hrun : IOp.run s (.assign v) ctx = some (⟨s.ints ++ [r], s.bits⟩, c1) := by
      simp only [IOp.run, bind_some f]; rfl
    obtain ⟨e1, ⟨v1, rfl⟩, st⟩ := stands_of_run h hrun g x
    have hv : v1 = v := by
      have := forall2_last h.stands.ints.length_eq st.ints
      rw [← this.2.2]
      unfold residue
      rw [w, ZMod.natCast_zmod_val]
    subst hv
    cases he
    refine ⟨_, _, hrun, g, x, all_snoc (hI x) y, hB x, st, ?_⟩
    rw [count_snoc h.count, o]
    simpa [IOp.count] using hc
  | constant v =>
    obtain ⟨r, c1, f, g, x, y, o, w⟩ := (CSpec.iassignConstant v).run ctx hg trivial
    have hrun : IOp.run s (.constant v) ctx = some (⟨s.ints ++ [r], s.bits⟩, c1) := by
      simp only [IOp.run, bind_some f]; rfl
    refine ⟨_, _, hrun, g, x, all_snoc (hI x) y, hB x, stands_of_run_det h hrun g x (fun _ h => h) he, ?_⟩
    rw [count_snoc h.count, o]
    simpa [IOp.count] using hc
  | reduce i =>
    have he0 := he
    simp only [IOp.eval, Option.bind_eq_bind, Option.bind_eq_some_iff] at he
    obtain ⟨v, hv, -⟩ := he
    obtain ⟨hi, hint, -⟩ := h.int hv
    obtain ⟨r, c1, f, g, x, y, o, -, -⟩ := (CSpec.reduceH _).run ctx hg hint
    have hrun : IOp.run s (.reduce i) ctx = some (⟨s.ints.set i r, s.bits⟩, c1) := by
      simp only [IOp.run, bind_some (assertM_run hi _), bind_some f]; rfl
    refine ⟨_, _, hrun, g, x, all_set (hI x) y, hB x, stands_of_run_det h hrun g x (fun _ h => h) he0, ?_⟩
    rw [count_set h.count, o]
    simpa [IOp.count] using hc
  | add i j =>
    have he0 := he
    simp only [IOp.eval, Option.bind_eq_bind, Option.bind_eq_some_iff] at he
    obtain ⟨v, hv, u, hu, -⟩ := he
    obtain ⟨hi, hint, l1⟩ := h.int hv
    obtain ⟨hj, hint', l2⟩ := h.int hu
    obtain ⟨r, c1, f, g, x, y⟩ := (CSpec.iadd _ _ (by omega)).run ctx hg ⟨hint, hint'⟩
    have hrun : IOp.run s (.add i j) ctx = some (⟨s.ints ++ [r], s.bits⟩, c1) := by
      simp only [IOp.run, bind_some (assertM_run (And.intro hi hj) _), bind_some f]; rfl
    refine ⟨_, _, hrun, g, x, all_snoc (hI x) y, hB x, stands_of_run_det h hrun g x (fun _ h => h) he0, ?_⟩
    rw [count_snoc h.count, iadd_ov f, hcount, hcount]
    simpa [IOp.count] using hc
  | sub i j =>
    have he0 := he
    simp only [IOp.eval, Option.bind_eq_bind, Option.bind_eq_some_iff] at he
    obtain ⟨v, hv, u, hu, -⟩ := he
    obtain ⟨hi, hint, l1⟩ := h.int hv
    obtain ⟨hj, hint', l2⟩ := h.int hu
    simp only [IOp.count, ← hcount] at hc
    split at hc
    · cases hc
    next hne =>
    obtain ⟨r, c1, f, g, x, y⟩ := (CSpec.isub _ _ (by omega)).run ctx hg ⟨hint, hint'⟩
    have hrun : IOp.run s (.sub i j) ctx = some (⟨s.ints ++ [r], s.bits⟩, c1) := by
      simp only [IOp.run, bind_some (assertM_run (And.intro hi hj) _), bind_some f]; rfl
    refine ⟨_, _, hrun, g, x, all_snoc (hI x) y, hB x, stands_of_run_det h hrun g x (fun _ h => h) he0, ?_⟩
    rw [count_snoc h.count, isub_ov f]
    simpa using hc
  | neg i =>
    have he0 := he
    simp only [IOp.eval, Option.bind_eq_bind, Option.bind_eq_some_iff] at he
    obtain ⟨v, hv, -⟩ := he
    obtain ⟨hi, hint, l1⟩ := h.int hv
    obtain ⟨r, c1, f, g, x, y⟩ := (CSpec.ineg _ (by omega)).run ctx hg hint
    have hrun : IOp.run s (.neg i) ctx = some (⟨s.ints ++ [r], s.bits⟩, c1) := by
      simp only [IOp.run, bind_some (assertM_run hi _), bind_some f]; rfl
    refine ⟨_, _, hrun, g, x, all_snoc (hI x) y, hB x, stands_of_run_det h hrun g x (fun _ h => h) he0, ?_⟩
    rw [count_snoc h.count, ineg_ov f, hcount]
    simpa [IOp.count] using hc
  | mul i j =>
    have he0 := he
    simp only [IOp.eval, Option.bind_eq_bind, Option.bind_eq_some_iff] at he
    obtain ⟨v, hv, u, hu, -⟩ := he
    obtain ⟨hi, hint, l1⟩ := h.int hv
    obtain ⟨hj, hint', l2⟩ := h.int hu
    obtain ⟨p, c1, f, g, x, y, o, ⟨va, sa⟩, vb, sb⟩ := (CSpec.imul _ _ (by omega) (by omega)).run ctx hg
      ⟨hint.vint, hint.ann.bound.mono (by omega), hint'.vint, hint'.ann.bound.mono (by omega)⟩
    have hrun : IOp.run s (.mul i j) ctx =
        some (⟨(s.ints.set i p.2.1).set j p.2.2 ++ [p.1], s.bits⟩, c1) := by
      simp only [IOp.run, bind_some (assertM_run (And.intro hi hj) _), bind_some f]; rfl
    refine ⟨_, _, hrun, g, x, all_snoc (all_set (all_set (hI x) (SameInt.hint hint x va sa))
      (SameInt.hint hint' x vb sb)) y, hB x, stands_of_run_det h hrun g x (fun _ h => h) he0, ?_⟩
    rw [count_snoc (count_set (count_set h.count _ _) _ _), o, sa.2, sb.2, hcount, hcount, set_getD_self,
      set_getD_self]
    simpa [IOp.count] using hc
  | square i =>
    have he0 := he
    simp only [IOp.eval, Option.bind_eq_bind, Option.bind_eq_some_iff] at he
    obtain ⟨v, hv, -⟩ := he
    obtain ⟨hi, hint, l1⟩ := h.int hv
    obtain ⟨p, c1, f, g, x, y, o, va, sa⟩ := (CSpec.isquare _ (by omega)).run ctx hg
      ⟨hint.vint, hint.ann.bound.mono (by omega)⟩
    have hrun : IOp.run s (.square i) ctx = some (⟨s.ints.set i p.2 ++ [p.1], s.bits⟩, c1) := by
      simp only [IOp.run, bind_some (assertM_run hi _), bind_some f]; rfl
    refine ⟨_, _, hrun, g, x, all_snoc (all_set (hI x) (SameInt.hint hint x va sa)) y, hB x,
      stands_of_run_det h hrun g x (fun _ h => h) he0, ?_⟩
    rw [count_snoc (count_set h.count _ _), o, sa.2, hcount, set_getD_self]
    simpa [IOp.count] using hc
  | div i j =>
    have he0 := he
    simp only [IOp.eval, Option.bind_eq_bind, Option.bind_eq_some_iff] at he
    obtain ⟨v, hv, u, hu, he⟩ := he
    obtain ⟨hi, hint, l1⟩ := h.int hv
    obtain ⟨hj, hint', l2⟩ := h.int hu
    obtain ⟨p, c1, f, g, x, y, hq, o, ha, hb, hzero⟩ := (CSpec.idiv _ _).run ctx hg ⟨hint, hint'⟩
    have hrun : IOp.run s (.div i j) ctx =
        some (⟨(s.ints.set i p.2.2.1).set j p.2.2.2 ++ [p.2.1], s.bits ++ [p.1]⟩, c1) := by
      simp only [IOp.run, bind_some (assertM_run (And.intro hi hj) _), bind_some f]; rfl
    obtain ⟨e1, ⟨v1, u1, q, hv1, hu1, hq1, rfl⟩, st⟩ := stands_of_run h hrun g x
    rw [hv] at hv1
    rw [hu] at hu1
    cases hv1
    cases hu1
    have hlast := forall2_last (by simpa using h.stands.ints.length_eq) st.ints
    have hqv : q = if u = 0 then 0 else v / u := by
      split
      · next hu0 =>
        rw [← hlast.2.2]
        obtain ⟨u', hu', hju⟩ := forall2_get (Stands.ext h x).ints hj AInt.dummy
        rw [hu] at hu'
        cases hu'
        unfold residue
        rw [hzero (residue_eq_zero.1 (hju.2.2.trans hu0))]
        simp
      · next hu0 => exact hq1 hu0
    subst hqv
    cases he
    have oo : ∀ (a b c : AInt) (c0 c1 : Ctx N) (z : AV N) (a' b' : AInt),
        idiv a b c0 = some ((z, c, a', b'), c1) → a'.overflows = 0 ∧ b'.overflows = 0 := by
      intro a b c c0 c1 z a' b' h
      simp only [idiv, iisZero, isPureWModulus, mulEqNative, bind_run, Prod.exists, pure_run,
        Prod.mk.injEq] at h
      obtain ⟨_, _, _, ⟨_, _, h1, _, _, -, _, _, _, ⟨_, _, _, h2, _, _, -, _, _, -, _, _, -, _, _, -, _, _, -,
        ⟨rfl, rfl⟩, rfl⟩, _, _, -, ⟨rfl, rfl⟩, rfl⟩, _, _, -, _, _, h3, _, _, -, _, _, -, _, _, -, _, _, -, _, _, -, _, _, -,
        _, _, -, _, _, -, _, _, _, _, ⟨_, _, _, h4, _, _, _, -, _, _, -, _, _, _, -, _, _, -, ⟨rfl, rfl, rfl⟩, rfl⟩,
        ⟨rfl, rfl, rfl, rfl⟩, -⟩ := h
      exact ⟨reduce_ov h3, (native_ov h4).trans ((native_ov h2).trans (reduce_ov h1))⟩
    obtain ⟨oa, ob⟩ := oo _ _ _ _ _ _ _ _ f
    refine ⟨_, _, hrun, g, x, all_snoc (all_set (all_set (hI x) ha) hb) hq, all_snoc (hB x) y, st, ?_⟩
    rw [count_snoc (count_set (count_set h.count _ _) _ _), o, oa, ob]
    simpa [IOp.count] using hc
  | isZero i =>
    have he0 := he
    simp only [IOp.eval, Option.bind_eq_bind, Option.bind_eq_some_iff] at he
    obtain ⟨v, hv, -⟩ := he
    obtain ⟨hi, hint, l1⟩ := h.int hv
    obtain ⟨p, c1, f, g, x, y, -, ha, o, -, -⟩ := (CSpec.iisZero _).run ctx hg hint
    have hrun : IOp.run s (.isZero i) ctx = some (⟨s.ints.set i p.2, s.bits ++ [p.1]⟩, c1) := by
      simp only [IOp.run, bind_some (assertM_run hi _), bind_some f]; rfl
    refine ⟨_, _, hrun, g, x, all_set (hI x) ha, all_snoc (hB x) y,
      stands_of_run_det h hrun g x (fun _ h => h) he0, ?_⟩
    rw [count_set h.count, o]
    simpa [IOp.count] using hc
  | isEqual i j =>
    have he0 := he
    simp only [IOp.eval, Option.bind_eq_bind, Option.bind_eq_some_iff] at he
    obtain ⟨v, hv, u, hu, -⟩ := he
    obtain ⟨hi, hint, l1⟩ := h.int hv
    obtain ⟨hj, hint', l2⟩ := h.int hu
    simp only [IOp.count, ← hcount] at hc
    split at hc
    · cases hc
    next hne =>
    obtain ⟨r, c1, f, g, x, y⟩ := (CSpec.iisEqual _ _ (by omega)).run ctx hg ⟨hint, hint'⟩
    have hrun : IOp.run s (.isEqual i j) ctx = some (⟨s.ints, s.bits ++ [r]⟩, c1) := by
      simp only [IOp.run, bind_some (assertM_run (And.intro hi hj) _), bind_some f]; rfl
    refine ⟨_, _, hrun, g, x, hI x, all_snoc (hB x) y, stands_of_run_det h hrun g x (fun _ h => h) he0, ?_⟩
    cases hc
    exact h.count
  | assertEqual i j =>
    have he0 := he
    simp only [IOp.eval, Option.bind_eq_bind, Option.bind_eq_some_iff] at he
    obtain ⟨v, hv, u, hu, he⟩ := he
    split at he
    swap
    · cases he
    next hvu =>
    obtain ⟨hi, hint, l1⟩ := h.int hv
    obtain ⟨hj, hint', l2⟩ := h.int hu
    simp only [IOp.count, ← hcount] at hc
    split at hc
    · cases hc
    next hne =>
    obtain ⟨v', hv', ok⟩ := forall2_get h.stands.ints hi AInt.dummy
    obtain ⟨u', hu', ok2⟩ := forall2_get h.stands.ints hj AInt.dummy
    rw [hv] at hv'
    rw [hu] at hu'
    cases hv'
    cases hu'
    obtain ⟨r, c1, f, g, x, -⟩ := (CSpec.iassertEqual (s.int i) (s.int j) (by omega)).run ctx hg
      ⟨hint, hint', residue_eq_iff.1 (ok.2.2.trans (hvu.trans ok2.2.2.symm))⟩
    have hrun : IOp.run s (.assertEqual i j) ctx = some (s, c1) := by
      simp only [IOp.run, bind_some (assertM_run (And.intro hi hj) _), bind_some f]; rfl
    refine ⟨_, _, hrun, g, x, hI x, hB x, stands_of_run_det h hrun g x (fun _ h => h) he0, ?_⟩
    cases hc
    exact h.count
  | bisec b i j =>
    have he0 := he
    simp only [IOp.eval, Option.bind_eq_bind, Option.bind_eq_some_iff] at he
    obtain ⟨z, hz, v, hv, u, hu, -⟩ := he
    obtain ⟨hi, hint, l1⟩ := h.int hv
    obtain ⟨hj, hint', l2⟩ := h.int hu
    have hb : b < s.bits.length := by
      rw [h.stands.bits.length_eq]; exact (List.getElem?_eq_some_iff.1 hz).1
    obtain ⟨z', hz', okz⟩ := forall2_get h.stands.bits hb ⟨⟨0, 0⟩, 0⟩
    rw [hz] at hz'
    cases hz'
    have vb : ValidAV ctx (s.bit b) := h.bits _ (mem_getD hb _)
    have hcond : (s.bit b).value = 0 ∨ (s.bit b).value = 1 := by
      rw [← val_wit vb]
      change (s.bit b).val ctx.wit = _ at okz
      rw [okz]
      cases z <;> simp
    obtain ⟨r, c1, f, g, x, y⟩ := (CSpec.ibisec _ _ _ hcond).run ctx hg ⟨vb, hint, hint'⟩
    have hrun : IOp.run s (.bisec b i j) ctx = some (⟨s.ints ++ [r], s.bits⟩, c1) := by
      simp only [IOp.run, bind_some (assertM_run (And.intro hb (And.intro hi hj)) _), bind_some f]; rfl
    refine ⟨_, _, hrun, g, x, all_snoc (hI x) y, hB x, stands_of_run_det h hrun g x (fun _ h => h) he0, ?_⟩
    have ro := ((Spec.ibisec (t := tables) _ _ _).run _ _ _ f _ g.sat).2.2.2.1
    rw [count_snoc h.count, ro, hcount, hcount]
    simpa [IOp.count] using hc

/-- An honest program runs to the end. -/
theorem iprog_complete : ∀ {ops : List IOp} {ctx : Ctx N} {s : IState} {e e' : IEnv} {c c' : List ℕ},
    Good tables ctx → HState ctx s e c → evalIProg ops e = some e' → countIProg ops c = some c' →
    ∃ s' ctx', runIProg ops s ctx = some (s', ctx') ∧ Good tables ctx' ∧ Ext ctx ctx' ∧ HState ctx' s' e' c'
  | [], ctx, s, e, e', c, c', hg, h, he, hc => by
    cases he
    cases hc
    exact ⟨s, ctx, rfl, hg, Ext.refl _, h⟩
  | op :: ops, ctx, s, e, e', c, c', hg, h, he, hc => by
    simp only [evalIProg, Option.bind_eq_bind, Option.bind_eq_some_iff] at he
    simp only [countIProg, Option.bind_eq_bind, Option.bind_eq_some_iff] at hc
    obtain ⟨e1, he1, he⟩ := he
    obtain ⟨c1, hc1, hc⟩ := hc
    obtain ⟨s1, ctx1, f1, g1, x1, h1⟩ := iop_complete hg h he1 hc1
    obtain ⟨s2, ctx2, f2, g2, x2, h2⟩ := iprog_complete g1 h1 he hc
    refine ⟨s2, ctx2, ?_, g2, x1.trans x2, h2⟩
    simp only [runIProg, bind_some f1]
    exact f2

end Verif.Circuit
