import Verif.Integer.ProgramLemmas

/-!
# Integer-chip calls in terms of the values they stand for (helper lemmas)
-/

namespace Verif.Circuit

theorem IntOk.val {adv : Advice N} {a : AInt} {v : W} (h : IntOk adv a v) : residue adv a = v := h.2.2

theorem IntOk.eq {adv : Advice N} {a : AInt} {v w : W} (h : IntOk adv a v) (e : v = w) : IntOk adv a w := e ▸ h

/-- Some honest integer. -/
abbrev IntSome (adv : Advice N) (a : AInt) : Prop := IntOk adv a (residue adv a)

theorem IntOk.some {adv : Advice N} {a : AInt} {v : W} (h : IntOk adv a v) : IntSome adv a := ⟨h.1, h.2.1, rfl⟩

/-- A condition cell holding a bit. -/
def IsBit (adv : Advice N) (c : AV N) (b : Bool) : Prop := c.val adv = if b then 1 else 0

theorem Spec.assignW_val (v : W) : Spec tables (Circuit.assignW v) (fun adv r => IntSome adv r) :=
  (Spec.assignW v).mono fun _ _ h => IntOk.of_bd1 h.2.1 h.1 (natOk_none h.2.2) rfl

theorem Spec.iassignConstant_val (v : W) : Spec tables (Circuit.iassignConstant v) (fun adv r => IntOk adv r v) :=
  (Spec.iassignConstant (t := tables) v).mono fun _ _ h => IntOk.of_bd1 h.2.2.1 h.2.1 (natOk_none h.2.2.2) (by
    unfold residue
    rw [h.1, ZMod.natCast_zmod_val])

theorem Spec.reduce_val (a : AInt) : Spec tables (Circuit.reduce a) (fun adv r => ∀ v, IntOk adv a v → IntOk adv r v) :=
  (Spec.reduce a).mono fun adv r hr v ok => by
    obtain ⟨hr1, hr2⟩ := hr _ (by norm_num) ok.bd64 ok.1.native
    exact (ok.reduced hr1 (hr2.imp (fun h => ⟨h.1, by rw [h.2], by rw [h.2]; exact h.1⟩) id)).1

theorem Spec.iadd_val (a b : AInt) : Spec tables (Circuit.iadd a b) (fun adv r => ∀ v u, IntOk adv a v → IntOk adv b u →
    IntOk adv r (v + u)) :=
  (Spec.iadd a b).mono fun adv r hr v u ha hb => by
    obtain ⟨h1, h2, h3⟩ := hr _ _ (by have := ha.2.1; have := hb.2.1; omega) ha.1.bound hb.1.bound
    refine .of_or h2 ?_ (h3.imp (fun h => ⟨h.1, h.2.1, h.2.2.mono (by omega)⟩) id)
    rw [residue_eq h1, Nat.cast_add, ← ha.val, ← hb.val]; rfl

theorem Spec.isub_val (a b : AInt) : Spec tables (Circuit.isub a b) (fun adv r => ∀ v u, IntOk adv a v → IntOk adv b u →
    IntOk adv r (v - u)) :=
  (Spec.isub a b).mono fun adv r hr v u ha hb => by
    obtain ⟨h1, h2, h3⟩ := hr _ (by have := ha.2.1; have := hb.2.1; omega) (by have := hb.2.1; omega)
      ha.1.bound hb.1.bound
    refine .of_or h2 ?_ (h3.imp (fun h => ⟨h.1, h.2.1, h.2.2.mono (by omega)⟩) id)
    have := modEq_cast h1
    rw [Nat.cast_add] at this
    rw [← ha.val, ← hb.val]
    exact eq_sub_of_add_eq this

theorem Spec.ineg_val (a : AInt) : Spec tables (Circuit.ineg a) (fun adv r => ∀ v, IntOk adv a v → IntOk adv r (-v)) :=
  (Spec.ineg a).mono fun adv r hr v ha => by
    obtain ⟨h1, h2, h3⟩ := hr (by have := ha.2.1; omega) ha.1.bound
    refine .of_or h2 ?_ h3
    have := modEq_cast h1
    rw [Nat.cast_add, Nat.cast_zero] at this
    rw [← ha.val]
    exact eq_neg_of_add_eq_zero_left this

theorem Spec.imul_val (a b : AInt) : Spec tables (Circuit.imul a b) (fun adv r => ∀ v u, IntOk adv a v → IntOk adv b u →
    IntOk adv r.1 (v * u) ∧ IntOk adv r.2.1 v ∧ IntOk adv r.2.2 u) :=
  (Spec.imul a b).mono fun adv r hr v u ha hb => by
    obtain ⟨h1, h2, h3, h4, h5, h6⟩ := hr _ _ le_rfl le_rfl ha.bd64 hb.bd64 ha.1.native hb.1.native
    refine ⟨.of_bd1 h2 h3 h4 ?_, ha.same h5, hb.same h6⟩
    rw [residue_eq h1, Nat.cast_mul, ← ha.val, ← hb.val]; rfl

theorem Spec.isquare_val (a : AInt) : Spec tables (Circuit.isquare a) (fun adv r => ∀ v, IntOk adv a v →
    (IntOk adv r.1 (v ^ 2) ∧ r.1.overflows = 0) ∧ IntOk adv r.2 v) :=
  (Spec.isquare a).mono fun adv r hr v ha => by
    obtain ⟨h1, h2, h3, h4, h5⟩ := hr _ le_rfl ha.bd64 ha.1.native
    refine ⟨⟨.of_bd1 h2 h3 h4 ?_, h2⟩, ha.same h5⟩
    rw [residue_eq h1, Nat.cast_mul, ← ha.val, sq]; rfl

theorem Spec.idiv_val (a b : AInt) : Spec tables (Circuit.idiv a b) (fun adv r => ∀ v u, IntOk adv a v → IntOk adv b u →
    IsBit adv r.1 (decide (u = 0)) ∧ (u ≠ 0 → residue adv r.2.1 * u = v) ∧ IntSome adv r.2.1 ∧
      IntOk adv r.2.2.1 v ∧ IntOk adv r.2.2.2 u) :=
  (Spec.idiv a b).mono fun adv r hr v u ha hb => by
    obtain ⟨q1, q2, q3, q4, q5, q6, q7⟩ := hr 64 64 (by norm_num) le_rfl le_rfl ha.bd64 hb.bd64 ha.1.native
      hb.1.native
    obtain ⟨oa, -⟩ := ha.reduced q4 q6
    obtain ⟨ob, b1⟩ := hb.reduced q5 q7
    have hz : ZeroRep adv r.2.2.2.limbs ↔ u = 0 := by
      rw [zeroRep_iff b1, ← residue_eq_zero, ob.val]
    refine ⟨?_, ?_, IntOk.of_bd1 q3.1 q3.2.1 q3.2.2 rfl, oa, ob⟩
    · unfold IsBit
      rw [q1]
      classical
      exact bit_cast hz
    · intro hne
      rw [if_neg (fun h => hne (hz.1 h))] at q2
      have := modEq_cast q2
      rw [Nat.cast_mul] at this
      rw [mul_comm, ← ob.val, ← ha.val]
      exact this

theorem Spec.iisZero_val (a : AInt) : Spec tables (Circuit.iisZero a) (fun adv r => ∀ v, IntOk adv a v →
    IsBit adv r.1 (decide (v = 0)) ∧ IntOk adv r.2 v) :=
  (Spec.iisZero a).mono fun adv r hr v ha => by
    obtain ⟨q1, q2, q3⟩ := hr 64 (by norm_num) ha.bd64 ha.1.native
    obtain ⟨oa, b1⟩ := ha.reduced q2 q3
    refine ⟨?_, oa⟩
    unfold IsBit
    rw [q1]
    classical
    exact bit_cast (by rw [zeroRep_iff b1, ← residue_eq_zero, oa.val])

theorem Spec.iisEqual_val (a b : AInt) : Spec tables (Circuit.iisEqual a b) (fun adv r => ∀ v u, IntOk adv a v →
    IntOk adv b u → IsBit adv r (decide (v = u))) :=
  (Spec.iisEqual a b).mono fun adv r hr v u ha hb => by
    unfold IsBit
    rw [hr 64 (by norm_num) hb.1.counter ha.bd64 hb.1.bound]
    classical
    exact bit_cast (by rw [← ha.val, ← hb.val, residue_eq_iff])

theorem Spec.ibisec_val (c : AV N) (a b : AInt) : Spec tables (Circuit.ibisec c a b) (fun adv r =>
    (∀ v, IsBit adv c true → IntOk adv a v → b.overflows < 32 → IntOk adv r v) ∧
    (∀ u, IsBit adv c false → a.overflows < 32 → IntOk adv b u → IntOk adv r u) ∧
    (a.overflows < 32 → b.overflows < 32 → r.overflows < 32)) :=
  (Spec.ibisec (t := tables) c a b).mono fun adv r hr => by
    obtain ⟨r1, r0, ro, rn⟩ := hr
    refine ⟨?_, ?_, by rw [ro]; omega⟩
    · intro v hc ha hb
      have e1 := r1 (by simpa [IsBit] using hc)
      have l1 := ha.2.1
      have l2 := ha.1.counter
      refine ⟨⟨(ha.1.bound.congr e1).mono (by rw [ro]; omega), natOk_none rn, by rw [ro]; omega⟩,
        by rw [ro]; omega, ?_⟩
      rw [← ha.val]
      unfold residue
      rw [limbsVal_congr e1]
    · intro v hc ha hb
      have e1 := r0 (by simpa [IsBit] using hc)
      have l1 := hb.2.1
      have l2 := hb.1.counter
      refine ⟨⟨(hb.1.bound.congr e1).mono (by rw [ro]; omega), natOk_none rn, by rw [ro]; omega⟩,
        by rw [ro]; omega, ?_⟩
      rw [← hb.val]
      unfold residue
      rw [limbsVal_congr e1]

end Verif.Circuit
