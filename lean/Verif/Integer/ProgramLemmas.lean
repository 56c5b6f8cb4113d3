import Verif.Integer.Program
import Verif.Integer.CompleteDiv
import Mathlib.Data.List.Forall2

/-!
# Straight-line integer programs (helper lemmas)
-/

set_option linter.unusedSimpArgs false

namespace Verif.Circuit

theorem residue_eq {adv : Advice N} {a : AInt} {l : ℕ}
    (h : limbsVal adv a.limbs ≡ l [MOD fqMod]) : residue adv a = ((l : ℕ) : W) :=
  (ZMod.natCast_eq_natCast_iff _ _ _).2 h

theorem residue_eq_iff {adv : Advice N} {a b : AInt} :
    residue adv a = residue adv b ↔ limbsVal adv a.limbs ≡ limbsVal adv b.limbs [MOD fqMod] :=
  ZMod.natCast_eq_natCast_iff _ _ _

theorem residue_eq_zero {adv : Advice N} {a : AInt} :
    residue adv a = 0 ↔ limbsVal adv a.limbs ≡ 0 [MOD fqMod] := by
  rw [← ZMod.natCast_eq_natCast_iff, Nat.cast_zero]; rfl

/-- One integer of a state that stands for values. -/
def IntOk (adv : Advice N) (a : AInt) (v : W) : Prop :=
  Announced adv a ∧ a.overflows < 32 ∧ residue adv a = v

theorem forall2_get {α β : Type} {R : α → β → Prop} {l : List α} {l' : List β} (h : List.Forall₂ R l l')
    {i : ℕ} (hi : i < l.length) (d : α) : ∃ b, l'[i]? = some b ∧ R (l.getD i d) b := by
  induction h generalizing i with
  | nil => simp at hi
  | cons hab _ ih =>
    cases i with
    | zero => exact ⟨_, rfl, hab⟩
    | succ i => simpa using ih (by simpa using hi)

theorem forall2_set {α β : Type} {R : α → β → Prop} {l : List α} {l' : List β} (h : List.Forall₂ R l l')
    {i : ℕ} {a : α} {b : β} (hb : l'[i]? = some b) (hr : R a b) : List.Forall₂ R (l.set i a) l' := by
  induction h generalizing i with
  | nil => simp at hb
  | cons hab hl ih =>
    cases i with
    | zero => simp only [List.getElem?_cons_zero, Option.some.injEq] at hb; subst hb; exact .cons hr hl
    | succ i => exact .cons hab (ih (by simpa using hb))

theorem forall2_snoc {α β : Type} {R : α → β → Prop} {l : List α} {l' : List β} (h : List.Forall₂ R l l')
    {a : α} {b : β} (hr : R a b) : List.Forall₂ R (l ++ [a]) (l' ++ [b]) :=
  List.rel_append h (.cons hr .nil)

theorem Announced.of_bd1 {adv : Advice N} {a : AInt} (ho : a.overflows = 0) (hb : Bd 1 adv a.limbs)
    (hn : NatOk adv a) : Announced adv a := ⟨by rwa [ho], hn, by omega⟩

theorem IntOk.of_bd1 {adv : Advice N} {a : AInt} {v : W} (ho : a.overflows = 0) (hb : Bd 1 adv a.limbs)
    (hn : NatOk adv a) (hv : residue adv a = v) : IntOk adv a v := ⟨.of_bd1 ho hb hn, by omega, hv⟩

/-- An integer whose counter says "reduced or short". -/
theorem IntOk.of_or {adv : Advice N} {a : AInt} {v : W} {k : ℕ} (hn : NatOk adv a) (hv : residue adv a = v)
    (h : k < 32 ∧ a.overflows = k ∧ Bd (k + 1) adv a.limbs ∨ a.overflows = 0 ∧ Bd 1 adv a.limbs) :
    IntOk adv a v := by
  rcases h with ⟨h1, h2, h3⟩ | ⟨h1, h2⟩
  · exact ⟨⟨by rwa [h2], hn, by omega⟩, by omega, hv⟩
  · exact .of_bd1 h1 h2 hn hv

theorem IntOk.same {adv : Advice N} {a a' : AInt} {v : W} (h : IntOk adv a v) (hs : Same adv a a') :
    IntOk adv a' v := by
  obtain ⟨h1, h2, h3⟩ := h
  obtain ⟨e1, e2, e3⟩ := hs
  refine ⟨⟨by rw [e1, e2]; exact h1.bound, e3, by rw [e2]; exact h1.counter⟩, by rw [e2]; exact h2, ?_⟩
  unfold residue
  rw [e1]
  exact h3

theorem IntOk.reduced {adv : Advice N} {a r : AInt} {v : W} (h : IntOk adv a v) (hr : Reduced adv a r)
    (ho : a.overflows = 0 ∧ r.limbs = a.limbs ∧ r.overflows = 0
        ∨ 0 < a.overflows ∧ a.overflows < 64 ∧ r.overflows = 0 ∧ Bd 1 adv r.limbs) :
    IntOk adv r v ∧ Bd 1 adv r.limbs := by
  obtain ⟨h1, h2, h3⟩ := h
  have hb : Bd 1 adv r.limbs ∧ r.overflows = 0 := by
    rcases ho with ⟨p, q, s⟩ | ⟨-, -, p, q⟩
    · refine ⟨?_, s⟩
      have := h1.bound
      rwa [p, ← q] at this
    · exact ⟨q, p⟩
  exact ⟨.of_bd1 hb.2 hb.1 hr.2 ((residue_eq_iff.2 hr.1).trans h3), hb.1⟩

theorem IntOk.bd64 {adv : Advice N} {a : AInt} {v : W} (h : IntOk adv a v) : Bd 64 adv a.limbs :=
  h.1.bound.mono (by have := h.2.1; omega)

theorem modEq_cast {x y : ℕ} (h : x ≡ y [MOD fqMod]) : (x : W) = (y : W) :=
  (ZMod.natCast_eq_natCast_iff _ _ _).2 h

theorem bit_cast {c b : Prop} [Decidable c] [Decidable b] (h : c ↔ b) :
    (if c then (1 : N) else 0) = if decide b then 1 else 0 := by
  by_cases hc : c
  · simp [hc, h.1 hc]
  · have : ¬ b := fun hb => hc (h.2 hb)
    simp [hc, this]

open Classical in
/-- Soundness of one call. -/
theorem Spec.iop (s : IState) (op : IOp) : Spec tables (op.run s) (fun adv s' => ∀ e, Stands adv s e →
    ∃ e', op.Sem e e' ∧ Stands adv s' e') := by
  constructor
  intro ctx r ctx' h adv hs
  cases op with
  | assign v =>
    simp only [IOp.run, bind_run, pure_run] at h
    obtain ⟨a, c1, h1, rfl, rfl⟩ := h
    obtain ⟨s0, hb, ho, hn⟩ := (Spec.assignW v).run _ _ _ h1 adv hs
    refine ⟨s0, fun e he => ⟨⟨e.vals ++ [residue adv a], e.flags⟩, ⟨_, rfl⟩, ?_, he.bits⟩⟩
    exact forall2_snoc he.ints (IntOk.of_bd1 ho hb (natOk_none hn) rfl)
  | constant v =>
    simp only [IOp.run, bind_run, pure_run] at h
    obtain ⟨a, c1, h1, rfl, rfl⟩ := h
    obtain ⟨s0, hv, hb, ho, hn⟩ := (Spec.iassignConstant (t := tables) v).run _ _ _ h1 adv hs
    refine ⟨s0, fun e he => ⟨⟨e.vals ++ [v], e.flags⟩, rfl, ?_, he.bits⟩⟩
    refine forall2_snoc he.ints (IntOk.of_bd1 ho hb (natOk_none hn) ?_)
    unfold residue
    rw [hv, ZMod.natCast_zmod_val]
  | reduce i =>
    simp only [IOp.run, bind_run, pure_run] at h
    obtain ⟨_, c0, h0, a, c1, h1, rfl, rfl⟩ := h
    obtain ⟨s1, hr⟩ := (Spec.reduce _).run _ _ _ h1 adv hs
    obtain ⟨s0, hi⟩ := (Spec.assertM _).run _ _ _ h0 adv s1
    refine ⟨s0, fun e he => ?_⟩
    obtain ⟨v, hv, ok⟩ := forall2_get (R := IntOk adv) he.ints hi AInt.dummy
    obtain ⟨hr1, hr2⟩ := hr _ (by norm_num) ok.bd64 ok.1.native
    have ok' := (ok.reduced hr1 (hr2.imp (fun h => ⟨h.1, by rw [h.2]; rfl, by rw [h.2]; exact h.1⟩) id)).1
    exact ⟨e, by simp [IOp.Sem, IOp.eval, hv], forall2_set he.ints hv ok', he.bits⟩
  | add i j =>
    simp only [IOp.run, bind_run, pure_run] at h
    obtain ⟨_, c0, h0, a, c1, h1, rfl, rfl⟩ := h
    obtain ⟨s1, hr⟩ := (Spec.iadd _ _).run _ _ _ h1 adv hs
    obtain ⟨s0, hi, hj⟩ := (Spec.assertM _).run _ _ _ h0 adv s1
    refine ⟨s0, fun e he => ?_⟩
    obtain ⟨v, hv, ok⟩ := forall2_get (R := IntOk adv) he.ints hi AInt.dummy
    obtain ⟨u, hu, ok2⟩ := forall2_get (R := IntOk adv) he.ints hj AInt.dummy
    have l1 : (s.int i).overflows < 32 := ok.2.1
    have l2 : (s.int j).overflows < 32 := ok2.2.1
    obtain ⟨q1, q2, q3⟩ := hr ((s.int i).overflows + 1) ((s.int j).overflows + 1) (by omega) ok.1.bound ok2.1.bound
    refine ⟨⟨e.vals ++ [v + u], e.flags⟩, by simp [IOp.Sem, IOp.eval, hv, hu], ?_, he.bits⟩
    refine forall2_snoc he.ints (IntOk.of_or q2 ?_ (q3.imp (fun h => ⟨h.1, h.2.1, h.2.2.mono ?_⟩) id))
    · rw [residue_eq q1, Nat.cast_add, ← ok.2.2, ← ok2.2.2]; rfl
    · omega
  | sub i j =>
    simp only [IOp.run, bind_run, pure_run] at h
    obtain ⟨_, c0, h0, a, c1, h1, rfl, rfl⟩ := h
    obtain ⟨s1, hr⟩ := (Spec.isub _ _).run _ _ _ h1 adv hs
    obtain ⟨s0, hi, hj⟩ := (Spec.assertM _).run _ _ _ h0 adv s1
    refine ⟨s0, fun e he => ?_⟩
    obtain ⟨v, hv, ok⟩ := forall2_get (R := IntOk adv) he.ints hi AInt.dummy
    obtain ⟨u, hu, ok2⟩ := forall2_get (R := IntOk adv) he.ints hj AInt.dummy
    have l1 : (s.int i).overflows < 32 := ok.2.1
    have l2 : (s.int j).overflows < 32 := ok2.2.1
    obtain ⟨q1, q2, q3⟩ := hr ((s.int i).overflows + 1) (by omega) ok2.1.counter ok.1.bound ok2.1.bound
    refine ⟨⟨e.vals ++ [v - u], e.flags⟩, by simp [IOp.Sem, IOp.eval, hv, hu], ?_, he.bits⟩
    refine forall2_snoc he.ints (IntOk.of_or q2 ?_ (q3.imp (fun h => ⟨h.1, h.2.1, h.2.2.mono ?_⟩) id))
    · have := modEq_cast q1
      rw [Nat.cast_add] at this
      rw [← ok.2.2, ← ok2.2.2]
      exact eq_sub_of_add_eq this
    · omega
  | neg i =>
    simp only [IOp.run, bind_run, pure_run] at h
    obtain ⟨_, c0, h0, a, c1, h1, rfl, rfl⟩ := h
    obtain ⟨s1, hr⟩ := (Spec.ineg _).run _ _ _ h1 adv hs
    obtain ⟨s0, hi⟩ := (Spec.assertM _).run _ _ _ h0 adv s1
    refine ⟨s0, fun e he => ?_⟩
    obtain ⟨v, hv, ok⟩ := forall2_get (R := IntOk adv) he.ints hi AInt.dummy
    obtain ⟨q1, q2, q3⟩ := hr ok.1.counter ok.1.bound
    refine ⟨⟨e.vals ++ [-v], e.flags⟩, by simp [IOp.Sem, IOp.eval, hv], ?_, he.bits⟩
    refine forall2_snoc he.ints (IntOk.of_or q2 ?_ q3)
    have := modEq_cast q1
    rw [Nat.cast_add, Nat.cast_zero] at this
    rw [← ok.2.2]
    exact eq_neg_of_add_eq_zero_left this
  | mul i j =>
    simp only [IOp.run, bind_run, pure_run] at h
    obtain ⟨_, c0, h0, p, c1, h1, rfl, rfl⟩ := h
    obtain ⟨s1, hr⟩ := (Spec.imul _ _).run _ _ _ h1 adv hs
    obtain ⟨s0, hi, hj⟩ := (Spec.assertM _).run _ _ _ h0 adv s1
    refine ⟨s0, fun e he => ?_⟩
    obtain ⟨v, hv, ok⟩ := forall2_get (R := IntOk adv) he.ints hi AInt.dummy
    obtain ⟨u, hu, ok2⟩ := forall2_get (R := IntOk adv) he.ints hj AInt.dummy
    obtain ⟨q1, q2, q3, q4, q5, q6⟩ := hr _ _ le_rfl le_rfl ok.bd64 ok2.bd64 ok.1.native ok2.1.native
    refine ⟨⟨e.vals ++ [v * u], e.flags⟩, by simp [IOp.Sem, IOp.eval, hv, hu], ?_, he.bits⟩
    refine forall2_snoc (forall2_set (forall2_set he.ints hv (ok.same q5)) hu (ok2.same q6))
      (IntOk.of_bd1 q2 q3 q4 ?_)
    rw [residue_eq q1, Nat.cast_mul, ← ok.2.2, ← ok2.2.2]; rfl
  | square i =>
    simp only [IOp.run, bind_run, pure_run] at h
    obtain ⟨_, c0, h0, p, c1, h1, rfl, rfl⟩ := h
    obtain ⟨s1, hr⟩ := (Spec.isquare _).run _ _ _ h1 adv hs
    obtain ⟨s0, hi⟩ := (Spec.assertM _).run _ _ _ h0 adv s1
    refine ⟨s0, fun e he => ?_⟩
    obtain ⟨v, hv, ok⟩ := forall2_get (R := IntOk adv) he.ints hi AInt.dummy
    obtain ⟨q1, q2, q3, q4, q5⟩ := hr _ le_rfl ok.bd64 ok.1.native
    refine ⟨⟨e.vals ++ [v ^ 2], e.flags⟩, by simp [IOp.Sem, IOp.eval, hv], ?_, he.bits⟩
    refine forall2_snoc (forall2_set he.ints hv (ok.same q5)) (IntOk.of_bd1 q2 q3 q4 ?_)
    rw [residue_eq q1, Nat.cast_mul, ← ok.2.2, sq]; rfl
  | div i j =>
    simp only [IOp.run, bind_run, pure_run] at h
    obtain ⟨_, c0, h0, p, c1, h1, rfl, rfl⟩ := h
    obtain ⟨s1, hr⟩ := (Spec.idiv _ _).run _ _ _ h1 adv hs
    obtain ⟨s0, hi, hj⟩ := (Spec.assertM _).run _ _ _ h0 adv s1
    refine ⟨s0, fun e he => ?_⟩
    obtain ⟨v, hv, ok⟩ := forall2_get (R := IntOk adv) he.ints hi AInt.dummy
    obtain ⟨u, hu, ok2⟩ := forall2_get (R := IntOk adv) he.ints hj AInt.dummy
    obtain ⟨q1, q2, q3, q4, q5, q6, q7⟩ := hr 64 64 (by norm_num) le_rfl le_rfl ok.bd64 ok2.bd64 ok.1.native
      ok2.1.native
    obtain ⟨oka, -⟩ := ok.reduced q4 q6
    obtain ⟨okb, b1⟩ := ok2.reduced q5 q7
    have hz : ZeroRep adv p.2.2.2.limbs ↔ u = 0 := by
      rw [zeroRep_iff b1, ← okb.2.2, residue_eq_zero]
    refine ⟨⟨e.vals ++ [residue adv p.2.1], e.flags ++ [decide (u = 0)]⟩, ⟨v, u, _, hv, hu, ?_, rfl⟩, ?_, ?_⟩
    · intro hne
      rw [if_neg (fun h => hne (hz.1 h))] at q2
      have := modEq_cast q2
      rw [Nat.cast_mul] at this
      rw [eq_div_iff hne, ← ok.2.2, ← okb.2.2, mul_comm]
      exact this
    · exact forall2_snoc (forall2_set (forall2_set he.ints hv oka) hu okb)
        (IntOk.of_bd1 q3.1 q3.2.1 q3.2.2 rfl)
    · refine forall2_snoc he.bits ?_
      rw [q1]
      exact bit_cast hz
  | isZero i =>
    simp only [IOp.run, bind_run, pure_run] at h
    obtain ⟨_, c0, h0, p, c1, h1, rfl, rfl⟩ := h
    obtain ⟨s1, hr⟩ := (Spec.iisZero _).run _ _ _ h1 adv hs
    obtain ⟨s0, hi⟩ := (Spec.assertM _).run _ _ _ h0 adv s1
    refine ⟨s0, fun e he => ?_⟩
    obtain ⟨v, hv, ok⟩ := forall2_get (R := IntOk adv) he.ints hi AInt.dummy
    obtain ⟨q1, q2, q3⟩ := hr _ (by norm_num) ok.bd64 ok.1.native
    obtain ⟨oka, b1⟩ := ok.reduced q2 q3
    refine ⟨⟨e.vals, e.flags ++ [decide (v = 0)]⟩, by simp [IOp.Sem, IOp.eval, hv],
      forall2_set he.ints hv oka, ?_⟩
    refine forall2_snoc he.bits ?_
    rw [q1]
    exact bit_cast (by rw [zeroRep_iff b1, ← oka.2.2, residue_eq_zero])
  | isEqual i j =>
    simp only [IOp.run, bind_run, pure_run] at h
    obtain ⟨_, c0, h0, p, c1, h1, rfl, rfl⟩ := h
    obtain ⟨s1, hr⟩ := (Spec.iisEqual _ _).run _ _ _ h1 adv hs
    obtain ⟨s0, hi, hj⟩ := (Spec.assertM _).run _ _ _ h0 adv s1
    refine ⟨s0, fun e he => ?_⟩
    obtain ⟨v, hv, ok⟩ := forall2_get (R := IntOk adv) he.ints hi AInt.dummy
    obtain ⟨u, hu, ok2⟩ := forall2_get (R := IntOk adv) he.ints hj AInt.dummy
    have q := hr 64 (by norm_num) ok2.1.counter ok.bd64 ok2.1.bound
    refine ⟨⟨e.vals, e.flags ++ [decide (v = u)]⟩, by simp [IOp.Sem, IOp.eval, hv, hu], he.ints, ?_⟩
    refine forall2_snoc he.bits ?_
    rw [q]
    exact bit_cast (by rw [← ok.2.2, ← ok2.2.2, residue_eq_iff]; rfl)
  | assertEqual i j =>
    simp only [IOp.run, bind_run, pure_run] at h
    obtain ⟨_, c0, h0, p, c1, h1, rfl, rfl⟩ := h
    obtain ⟨s1, hr⟩ := (Spec.iassertEqual _ _).run _ _ _ h1 adv hs
    obtain ⟨s0, hi, hj⟩ := (Spec.assertM _).run _ _ _ h0 adv s1
    refine ⟨s0, fun e he => ?_⟩
    obtain ⟨v, hv, ok⟩ := forall2_get (R := IntOk adv) he.ints hi AInt.dummy
    obtain ⟨u, hu, ok2⟩ := forall2_get (R := IntOk adv) he.ints hj AInt.dummy
    have q := hr 64 (by norm_num) ok2.1.counter ok.bd64 ok2.1.bound
    have hvu : v = u := by
      rw [← ok.2.2, ← ok2.2.2, residue_eq_iff]; exact q
    exact ⟨e, by simp [IOp.Sem, IOp.eval, hv, hu, hvu], he.ints, he.bits⟩
  | bisec c i j =>
    simp only [IOp.run, bind_run, pure_run] at h
    obtain ⟨_, c0, h0, a, c1, h1, rfl, rfl⟩ := h
    obtain ⟨s1, r1, r0, ro, rn⟩ := (Spec.ibisec (t := tables) _ _ _).run _ _ _ h1 adv hs
    obtain ⟨s0, hc, hi, hj⟩ := (Spec.assertM _).run _ _ _ h0 adv s1
    refine ⟨s0, fun e he => ?_⟩
    obtain ⟨v, hv, ok⟩ := forall2_get (R := IntOk adv) he.ints hi AInt.dummy
    obtain ⟨u, hu, ok2⟩ := forall2_get (R := IntOk adv) he.ints hj AInt.dummy
    obtain ⟨b, hb, okb⟩ := forall2_get he.bits hc ⟨⟨0, 0⟩, 0⟩
    refine ⟨⟨e.vals ++ [if b then v else u], e.flags⟩, by simp [IOp.Sem, IOp.eval, hv, hu, hb], ?_, he.bits⟩
    refine forall2_snoc he.ints ?_
    change (s.bit c).val adv = _ at okb
    change IntOk adv (s.int i) v at ok
    change IntOk adv (s.int j) u at ok2
    have l1 := ok.2.1
    have l2 := ok2.2.1
    cases b with
    | true =>
      have e1 := r1 (by simpa using okb)
      refine ⟨⟨(ok.1.bound.congr e1).mono (by rw [ro]; omega), natOk_none rn, by rw [ro]; omega⟩,
        by rw [ro]; omega, ?_⟩
      simp only [if_true]
      rw [← ok.2.2]
      unfold residue
      rw [limbsVal_congr e1]
    | false =>
      have e1 := r0 (by simpa using okb)
      refine ⟨⟨(ok2.1.bound.congr e1).mono (by rw [ro]; omega), natOk_none rn, by rw [ro]; omega⟩,
        by rw [ro]; omega, ?_⟩
      simp only [Bool.false_eq_true, if_false]
      rw [← ok2.2.2]
      unfold residue
      rw [limbsVal_congr e1]

/-- Soundness of programs. -/
theorem Spec.iprog : ∀ (ops : List IOp) (s : IState), Spec tables (runIProg ops s) (fun adv s' => ∀ e,
    Stands adv s e → ∃ e', IProgSem ops e e' ∧ Stands adv s' e')
  | [], s => by
    constructor
    intro ctx r ctx' h adv hs
    simp only [runIProg, pure_run] at h
    obtain ⟨rfl, rfl⟩ := h
    exact ⟨hs, fun e he => ⟨e, rfl, he⟩⟩
  | op :: ops, s => by
    constructor
    intro ctx r ctx' h adv hs
    simp only [runIProg, bind_run] at h
    obtain ⟨s1, c1, h1, h2⟩ := h
    obtain ⟨hs1, q2⟩ := (Spec.iprog ops s1).run _ _ _ h2 adv hs
    obtain ⟨hs0, q1⟩ := (Spec.iop s op).run _ _ _ h1 adv hs1
    refine ⟨hs0, fun e he => ?_⟩
    obtain ⟨m, hm, hm'⟩ := q1 e he
    obtain ⟨e', he', he''⟩ := q2 m hm'
    exact ⟨e', ⟨m, hm, he'⟩, he''⟩

end Verif.Circuit
