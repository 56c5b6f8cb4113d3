import Verif.Integer.SoundZero
import Verif.Circuit.BaseComplete

/-!
# Completeness of the integer chip (helper lemmas): limbs, assignment, reduction, addition
-/

set_option exponentiation.threshold 600

namespace Verif.Circuit

theorem bind_some {F α β : Type} {m : M F α} {k : α → M F β} {ctx c1 : Ctx F} {a : α}
    (h : m ctx = some (a, c1)) : (m >>= k) ctx = k a c1 := by
  simp [Bind.bind, StateT.bind, h]

/-! ### Limb rows -/

theorem chunk_eq0 (x : ℕ) : x &&& 131071 = x % 2 ^ 17 := by
  rw [show 131071 = 2 ^ 17 - 1 from rfl, Nat.and_two_pow_sub_one_eq_mod]

theorem bnToN_mod (x : ℕ) : bnToN (x % 2 ^ 17) = ((x % 2 ^ 17 : ℕ) : N) :=
  bnToN_eq ((Nat.mod_lt _ (by norm_num)).trans (by norm_num))

theorem inTable_chunk (x : ℕ) : inTable 17 (bnToN (x % 2 ^ 17)) :=
  ⟨x % 2 ^ 17, Nat.mod_lt _ (by norm_num), (bnToN_mod x).symm⟩

theorem inTable_lead {x b : ℕ} (h : x < 2 ^ b) (hb : b ≤ 17) : inTable b (bnToN (x % 2 ^ 17)) := by
  have : 2 ^ b ≤ 2 ^ 17 := Nat.pow_le_pow_right (by norm_num) hb
  refine ⟨x % 2 ^ 17, ?_, (bnToN_mod x).symm⟩
  rw [Nat.mod_eq_of_lt (by omega)]
  exact h

theorem inTable_zero (b : ℕ) : inTable b (0 : N) := ⟨0, by positivity, by simp⟩

theorem limbLine4_gate (n : N) (sel : Sel) (h : n.val < 2 ^ 68) :
    gateEval (mkRow sel (limbLine n 4) 0 [] 0) (lineVal (limbLine n 4)) (fun _ => 0) = 0 := by
  rw [limbLine4]
  have e : n = ((n.val / 2 ^ 51 % 2 ^ 17 * 2 ^ 51 + n.val / 2 ^ 34 % 2 ^ 17 * 2 ^ 34
      + n.val / 2 ^ 17 % 2 ^ 17 * 2 ^ 17 + n.val % 2 ^ 17 : ℕ) : N) := by
    conv_lhs => rw [← cast_val n]
    congr 1
    omega
  simp only [chunk_eq0, Nat.shiftRight_eq_div_pow]
  simp [gateEval, mkRow, lineVal, Schema.value]
  rw [← sub_eq_add_neg, sub_eq_zero]
  conv_rhs => rw [e]
  have h1 := bnToN_mod (n.val / 2 ^ 51)
  have h2 := bnToN_mod (n.val / 2 ^ 34)
  have h3 := bnToN_mod (n.val / 2 ^ 17)
  have h4 := bnToN_mod n.val
  norm_num at h1 h2 h3 h4
  rw [h1, h2, h3, h4]
  push_cast
  ring

theorem limbLine3_gate (n : N) (sel : Sel) (h : n.val < 2 ^ 51) :
    gateEval (mkRow sel (limbLine n 3) 0 [] 0) (lineVal (limbLine n 3)) (fun _ => 0) = 0 := by
  rw [limbLine3]
  have e : n = ((n.val / 2 ^ 34 % 2 ^ 17 * 2 ^ 34
      + n.val / 2 ^ 17 % 2 ^ 17 * 2 ^ 17 + n.val % 2 ^ 17 : ℕ) : N) := by
    conv_lhs => rw [← cast_val n]
    congr 1
    omega
  simp only [chunk_eq0, Nat.shiftRight_eq_div_pow]
  simp [gateEval, mkRow, lineVal, Schema.value]
  rw [← sub_eq_add_neg, sub_eq_zero]
  conv_rhs => rw [e]
  have h2 := bnToN_mod (n.val / 2 ^ 34)
  have h3 := bnToN_mod (n.val / 2 ^ 17)
  have h4 := bnToN_mod n.val
  norm_num at h2 h3 h4
  rw [h2, h3, h4]
  push_cast
  ring

theorem limbLine_length (n : N) (k : ℕ) (hk : k ≤ 4) : (limbLine n k).length ≤ 5 := by
  simp [limbLine, resizePairs, decomposeBn]
  omega

theorem limbLine_valid (n : N) (k : ℕ) (ctx : Ctx N) : ∀ p ∈ limbLine n k, ValidSchema ctx p.1 := by
  intro p hp
  unfold limbLine resizePairs at hp
  simp only [List.mem_append, List.mem_singleton, List.mem_replicate] at hp
  rcases hp with (hp | hp) | hp
  · have := List.mem_of_mem_take hp
    simp only [List.mem_map] at this
    obtain ⟨q, -, rfl⟩ := this
    trivial
  · rw [hp.2]; trivial
  · rw [hp]; trivial

theorem limb4_lookups {n : N} {sel : Sel} (hw : sel.wLead = false) (hn : sel.nLead = false)
    (hd : sel.dLead = true → n.val < 2 ^ 67) :
    lookupsHold tables (mkRow sel (limbLine n 4) 0 [] 0) (lineVal (limbLine n 4)) := by
  rw [tables_eq, limbLine4]
  simp only [chunk_eq0, Nat.shiftRight_eq_div_pow]
  refine ⟨fun _ => ⟨?_, ?_, ?_, ?_⟩, fun h => ?_, fun h => ?_, fun h => ?_⟩
  · exact inTable_chunk _
  · exact inTable_chunk _
  · exact inTable_chunk _
  · exact inTable_chunk _
  · simp [mkRow, hw] at h
  · simp [mkRow, hn] at h
  · have := hd h
    exact inTable_lead (b := 16) (by omega) (by norm_num)

theorem limb3_lookups {n : N} {sel : Sel} (hd : sel.dLead = false)
    (hw : sel.wLead = true → n.val < 2 ^ 50) (hn : sel.nLead = true → n.val < 2 ^ 49) :
    lookupsHold tables (mkRow sel (limbLine n 3) 0 [] 0) (lineVal (limbLine n 3)) := by
  rw [tables_eq, limbLine3]
  simp only [chunk_eq0, Nat.shiftRight_eq_div_pow]
  refine ⟨fun _ => ⟨?_, ?_, ?_, ?_⟩, fun h => ?_, fun h => ?_, fun h => ?_⟩
  · exact inTable_chunk _
  · exact inTable_chunk _
  · exact inTable_chunk _
  · exact inTable_zero _
  · have := hw h
    exact inTable_lead (b := 16) (by omega) (by norm_num)
  · have := hn h
    exact inTable_lead (b := 15) (by omega) (by norm_num)
  · simp [mkRow, hd] at h

theorem limbLine_last (n : N) : lineVal (limbLine n 4) 4 = n ∧ lineVal (limbLine n 3) 4 = n := by
  rw [limbLine4, limbLine3]
  exact ⟨rfl, rfl⟩

theorem CSpec.assignNonleadingLimb (n : N) (h : n.val < 2 ^ 68) :
    CSpec tables (assignNonleadingLimb n) (fun _ => True) (fun c r => ValidAV c r ∧ r.value = n) := by
  unfold Circuit.assignNonleadingLimb
  refine (CSpec.cell 4 (CSpec.oneLineSel _ _ _ _ (limbLine_length _ _ (by norm_num)) (by simp)
    (limbLine4_gate n _ h) (limb4_lookups rfl rfl (by simp))) (limbLine_last n).1).mono ?_ (fun _ _ h => h)
  exact fun c _ => limbLine_valid _ _ _

theorem CSpec.assignNFloorLeadingLimb (n : N) (h : n.val < 2 ^ 49) :
    CSpec tables (assignNFloorLeadingLimb n) (fun _ => True) (fun c r => ValidAV c r ∧ r.value = n) := by
  unfold Circuit.assignNFloorLeadingLimb
  rw [nFloorBits_eq, limbWidth_eq]
  simp only [Nat.reduceMod, Nat.reduceEqDiff, if_false, Nat.reduceAdd, Nat.reduceSub, Nat.reduceDiv]
  refine CSpec.assertM _ (by norm_num) ?_
  refine (CSpec.cell 4 (CSpec.oneLineSel _ _ _ _ (limbLine_length _ _ (by norm_num)) (by simp)
    (limbLine3_gate n _ (by omega)) (limb3_lookups rfl (by simp) (fun _ => h)))
    (limbLine_last n).2).mono ?_ (fun _ _ h => h)
  exact fun c _ => limbLine_valid _ _ _

theorem CSpec.assignWCeilLeadingLimb (n : N) (h : n.val < 2 ^ 50) :
    CSpec tables (assignWCeilLeadingLimb n) (fun _ => True) (fun c r => ValidAV c r ∧ r.value = n) := by
  unfold Circuit.assignWCeilLeadingLimb
  rw [wCeilBits_eq, limbWidth_eq]
  simp only [Nat.reduceMod, Nat.reduceEqDiff, if_false, Nat.reduceAdd, Nat.reduceSub, Nat.reduceDiv]
  refine CSpec.assertM _ (by norm_num) ?_
  refine (CSpec.cell 4 (CSpec.oneLineSel _ _ _ _ (limbLine_length _ _ (by norm_num)) (by simp)
    (limbLine3_gate n _ (by omega)) (limb3_lookups rfl (fun _ => h) (by simp)))
    (limbLine_last n).2).mono ?_ (fun _ _ h => h)
  exact fun c _ => limbLine_valid _ _ _

theorem CSpec.assignDLeadingLimb (n : N) (h : n.val < 2 ^ 67) :
    CSpec tables (assignDLeadingLimb n) (fun _ => True) (fun c r => ValidAV c r ∧ r.value = n) := by
  unfold Circuit.assignDLeadingLimb
  rw [dBits_eq, limbWidth_eq]
  simp only [Nat.reduceMod, Nat.reduceEqDiff, if_false, Nat.reduceAdd, Nat.reduceSub, Nat.reduceDiv]
  refine (CSpec.cell 4 (CSpec.oneLineSel _ _ _ _ (limbLine_length _ _ (by norm_num)) (by simp)
    (limbLine4_gate n _ (by omega)) (limb4_lookups rfl rfl (fun _ => h)))
    (limbLine_last n).1).mono ?_ (fun _ _ h => h)
  exact fun c _ => limbLine_valid _ _ _

/-! ### Honest integers -/

/-- An honest handle: valid cells, honest bookkeeping, canonical when the counter is zero. -/
structure HInt (ctx : Ctx N) (a : AInt) : Prop where
  valid : ∀ i, ValidAV ctx (a.limbs i)
  validN : ∀ c, a.native = some c → ValidAV ctx c
  ann : Announced ctx.wit a
  canon : a.overflows = 0 → limbsVal ctx.wit a.limbs < fqMod

theorem val_wit {ctx : Ctx N} {a : AV N} (h : ValidAV ctx a) : a.val ctx.wit = a.value := h.2

theorem val_wit_ext {ctx ctx' : Ctx N} {a : AV N} (h : ValidAV ctx a) (he : Ext ctx ctx') :
    a.val ctx'.wit = a.val ctx.wit := by
  rw [val_wit h, val_wit (h.ext he)]

theorem lv_wit {ctx : Ctx N} {a : AV N} (h : ValidAV ctx a) : lv ctx.wit a = a.value.val := by
  rw [lv, val_wit h]

theorem limbsVal_ext {ctx ctx' : Ctx N} {l : Fin 4 → AV N} (h : ∀ i, ValidAV ctx (l i))
    (he : Ext ctx ctx') : limbsVal ctx'.wit l = limbsVal ctx.wit l := by
  unfold limbsVal lv
  rw [val_wit_ext (h 0) he, val_wit_ext (h 1) he, val_wit_ext (h 2) he, val_wit_ext (h 3) he]

theorem Bd.ext {k : ℕ} {ctx ctx' : Ctx N} {l : Fin 4 → AV N} (hb : Bd k ctx.wit l)
    (h : ∀ i, ValidAV ctx (l i)) (he : Ext ctx ctx') : Bd k ctx'.wit l := by
  obtain ⟨b0, b1, b2, b3⟩ := hb
  refine ⟨?_, ?_, ?_, ?_⟩ <;> unfold lv at * <;> rw [val_wit_ext (h _) he] <;> assumption

theorem HInt.ext {ctx ctx' : Ctx N} {a : AInt} (h : HInt ctx a) (he : Ext ctx ctx') : HInt ctx' a := by
  refine ⟨fun i => (h.valid i).ext he, fun c hc => (h.validN c hc).ext he, ⟨h.ann.bound.ext h.valid he,
    ?_, h.ann.counter⟩, ?_⟩
  · intro c hc
    rw [val_wit_ext (h.validN c hc) he, limbsVal_ext h.valid he]
    exact h.ann.native c hc
  · rw [limbsVal_ext h.valid he]; exact h.canon

theorem HInt.bn_eq {ctx : Ctx N} {a : AInt} (h : ∀ i, ValidAV ctx (a.limbs i)) :
    a.bn = limbsVal ctx.wit a.limbs := by
  unfold AInt.bn limbsVal nToBn
  rw [lv_wit (h 0), lv_wit (h 1), lv_wit (h 2), lv_wit (h 3), limbMod_eq]
  ring

theorem Good.sat {t : Tables} {ctx : Ctx N} (h : Good t ctx) : Sat t ctx ctx.wit := h _ fun _ _ => rfl

theorem bnToLimbsN_val {v : ℕ} (hv : v < 2 ^ 272) (i : Fin 4) : (bnToLimbsN v i).val = bnToLimbs v i := by
  have hb := bnToLimbs_lt (i := i) hv
  rw [bnToLimbsN, bnToN_eq (hb.trans (by norm_num))]
  exact ZMod.val_natCast_of_lt (hb.trans ((by norm_num : (2 : ℕ) ^ 68 < 2 ^ 253).trans frMod_gt))

theorem CSpec.assignW (v : W) : CSpec tables (assignW v) (fun _ => True)
    (fun c r => HInt c r ∧ r.overflows = 0 ∧ r.native = none ∧ limbsVal c.wit r.limbs = v.val) := by
  constructor
  intro ctx hg _
  have hlt : v.val < 2 ^ 254 := (ZMod.val_lt v).trans fqMod_lt
  have hlt' : v.val < 2 ^ 272 := hlt.trans (by norm_num)
  have hv := bnToLimbsN_val hlt'
  have hb : ∀ i, (bnToLimbsN (wToBn v) i).val < 2 ^ 68 := fun i => by
    unfold wToBn; rw [hv]; exact bnToLimbs_lt hlt'
  have h3 : (bnToLimbsN (wToBn v) 3).val < 2 ^ 50 := by
    unfold wToBn; rw [hv]
    simp only [bnToLimbs, limbWidth_eq, Nat.shiftRight_eq_div_pow]
    omega
  obtain ⟨l3, c3, e3, g3, x3, v3, w3⟩ := (CSpec.assignWCeilLeadingLimb _ h3).run ctx hg trivial
  obtain ⟨l2, c2, e2, g2, x2, v2, w2⟩ := (CSpec.assignNonleadingLimb _ (hb 2)).run c3 g3 trivial
  obtain ⟨l1, c1, e1, g1, x1, v1, w1⟩ := (CSpec.assignNonleadingLimb _ (hb 1)).run c2 g2 trivial
  obtain ⟨l0, c0, e0, g0, x0, v0, w0⟩ := (CSpec.assignNonleadingLimb _ (hb 0)).run c1 g1 trivial
  have hrun : Circuit.assignW v ctx = some (AInt.new (vec4 l0 l1 l2 l3) 0, c0) := by
    unfold Circuit.assignW
    rw [bind_some e3, bind_some e2, bind_some e1, bind_some e0]
    rfl
  have hvalid : ∀ i, ValidAV c0 ((AInt.new (vec4 l0 l1 l2 l3) 0).limbs i) := by
    intro i
    fin_cases i
    · exact v0
    · exact v1.ext x0
    · exact v2.ext (x1.trans x0)
    · exact v3.ext (x2.trans (x1.trans x0))
  have hval : limbsVal c0.wit (AInt.new (vec4 l0 l1 l2 l3) 0).limbs = v.val := by
    unfold limbsVal
    rw [lv_wit (hvalid 0), lv_wit (hvalid 1), lv_wit (hvalid 2), lv_wit (hvalid 3)]
    simp only [AInt.new, vec4, w0, w1, w2, w3, wToBn, hv]
    exact limbs4_sum
  obtain ⟨-, hbd, -, -⟩ := (Spec.assignW v).run _ _ _ hrun _ g0.sat
  refine ⟨_, _, hrun, g0, x3.trans (x2.trans (x1.trans x0)), ⟨hvalid, ?_,
    ⟨hbd, natOk_none rfl, by norm_num [AInt.new]⟩, ?_⟩, rfl, rfl, hval⟩
  · intro c hc
    simp [AInt.new] at hc
  · intro _
    rw [hval]
    exact ZMod.val_lt v

theorem CSpec.assignD (v : ℕ) (hv : v < 2 ^ 271) : CSpec tables (assignD v) (fun _ => True)
    (fun c r => (∀ i, ValidAV c (r i)) ∧ ∀ i, (r i).value.val = bnToLimbs v i) := by
  constructor
  intro ctx hg _
  have hlt' : v < 2 ^ 272 := hv.trans (by norm_num)
  have hvv := bnToLimbsN_val hlt'
  have hb : ∀ i, (bnToLimbsN v i).val < 2 ^ 68 := fun i => by
    rw [hvv]; exact bnToLimbs_lt hlt'
  have h3 : (bnToLimbsN v 3).val < 2 ^ 67 := by
    rw [hvv]
    simp only [bnToLimbs, limbWidth_eq, Nat.shiftRight_eq_div_pow]
    omega
  obtain ⟨l3, c3, e3, g3, x3, v3, w3⟩ := (CSpec.assignDLeadingLimb _ h3).run ctx hg trivial
  obtain ⟨l2, c2, e2, g2, x2, v2, w2⟩ := (CSpec.assignNonleadingLimb _ (hb 2)).run c3 g3 trivial
  obtain ⟨l1, c1, e1, g1, x1, v1, w1⟩ := (CSpec.assignNonleadingLimb _ (hb 1)).run c2 g2 trivial
  obtain ⟨l0, c0, e0, g0, x0, v0, w0⟩ := (CSpec.assignNonleadingLimb _ (hb 0)).run c1 g1 trivial
  have hrun : Circuit.assignD v ctx = some (vec4 l0 l1 l2 l3, c0) := by
    unfold Circuit.assignD
    rw [bind_some e3, bind_some e2, bind_some e1, bind_some e0]
    rfl
  refine ⟨_, _, hrun, g0, x3.trans (x2.trans (x1.trans x0)), ?_, ?_⟩
  · intro i
    fin_cases i
    · exact v0
    · exact v1.ext x0
    · exact v2.ext (x1.trans x0)
    · exact v3.ext (x2.trans (x1.trans x0))
  · intro i
    fin_cases i <;> simp only [vec4, w0, w1, w2, w3] <;> exact hvv _

/-- Valid handles with a correct cached native value. -/
structure VInt (ctx : Ctx N) (a : AInt) : Prop where
  valid : ∀ i, ValidAV ctx (a.limbs i)
  validN : ∀ c, a.native = some c → ValidAV ctx c
  native : NatOk ctx.wit a

theorem HInt.vint {ctx : Ctx N} {a : AInt} (h : HInt ctx a) : VInt ctx a :=
  ⟨h.valid, h.validN, h.ann.native⟩

theorem VInt.ext {ctx ctx' : Ctx N} {a : AInt} (h : VInt ctx a) (he : Ext ctx ctx') : VInt ctx' a := by
  refine ⟨fun i => (h.valid i).ext he, fun c hc => (h.validN c hc).ext he, ?_⟩
  intro c hc
  rw [val_wit_ext (h.validN c hc) he, limbsVal_ext h.valid he]
  exact h.native c hc

theorem VInt.of_none {ctx : Ctx N} {a : AInt} (h : ∀ i, ValidAV ctx (a.limbs i)) (hn : a.native = none) :
    VInt ctx a :=
  ⟨h, fun c hc => by rw [hn] at hc; exact absurd hc (by simp), natOk_none hn⟩

theorem valid_vec4 {ctx : Ctx N} {a b c d : AV N} (ha : ValidAV ctx a) (hb : ValidAV ctx b)
    (hc : ValidAV ctx c) (hd : ValidAV ctx d) : ∀ i, ValidAV ctx (vec4 a b c d i) := by
  intro i; fin_cases i <;> assumption

theorem CSpec.native (a : AInt) : CSpec tables (native a) (fun c => VInt c a)
    (fun c r => ValidAV c r.1 ∧ r.1.value = ((limbsVal c.wit a.limbs : ℕ) : N) ∧ r.2.limbs = a.limbs ∧
      r.2.overflows = a.overflows ∧ VInt c r.2) := by
  constructor
  rintro ctx hg hv
  obtain ⟨l, n, o⟩ := a
  cases n with
  | some n =>
    refine ⟨(n, ⟨l, some n, o⟩), ctx, rfl, hg, Ext.refl _, hv.validN n rfl, ?_, rfl, rfl, hv⟩
    rw [← hv.native n rfl, val_wit (hv.validN n rfl)]
  | none =>
    obtain ⟨r, c, e, g, x, v, w⟩ := (CSpec.sumWithConstant (t := tables) (nativeTerms l) 0).run ctx hg
      (by have := hv.valid; simp at this; simp [nativeTerms, this])
    have hval : r.value = ((limbsVal c.wit l : ℕ) : N) := by
      obtain ⟨-, h2⟩ := (Spec.sumWithConstant _ _).run _ _ _ e _ g.sat
      rw [zero_add, wsum_native, val_wit v] at h2
      exact h2
    refine ⟨(r, ⟨l, some r, o⟩), c, ?_, g, x, v, hval, rfl, rfl, ?_⟩
    · unfold Circuit.native
      exact (bind_some e).trans rfl
    · refine ⟨fun i => (hv.valid i).ext x, ?_, ?_⟩
      · intro c' hc
        cases hc
        exact v
      · intro c' hc
        cases hc
        rw [val_wit v, hval]

section
variable {F : Type} [Field F] {t : Tables}

theorem CSpec.lineAdd3 (a b c : AV F) (x y z k : F) (h : x * a.value + y * b.value + z * c.value + k = 0) :
    CSpec t (oneLineAdd [(.assigned a, x), (.assigned b, y), (.assigned c, z)] k)
      (fun ctx => ValidAV ctx a ∧ ValidAV ctx b ∧ ValidAV ctx c) (fun _ _ => True) := by
  unfold oneLineAdd
  refine (CSpec.oneLine _ _ _ (by simp) (by simp) ?_).mono ?_ (fun _ _ _ => trivial)
  · simp [gateEval, mkRow, lineVal, Schema.value]
    linear_combination h
  · rintro c ⟨h1, h2, h3⟩; simp [ValidSchema, h1, h2, h3]

theorem CSpec.lineAdd4 (a b c d : AV F) (x y z u k : F)
    (h : x * a.value + y * b.value + z * c.value + u * d.value + k = 0) :
    CSpec t (oneLineAdd [(.assigned a, x), (.assigned b, y), (.assigned c, z), (.assigned d, u)] k)
      (fun ctx => ValidAV ctx a ∧ ValidAV ctx b ∧ ValidAV ctx c ∧ ValidAV ctx d) (fun _ _ => True) := by
  unfold oneLineAdd
  refine (CSpec.oneLine _ _ _ (by simp) (by simp) ?_).mono ?_ (fun _ _ _ => trivial)
  · simp [gateEval, mkRow, lineVal, Schema.value]
    linear_combination h
  · rintro c ⟨h1, h2, h3, h4⟩; simp [ValidSchema, h1, h2, h3, h4]

theorem CSpec.lineAdd5 (a b c d e : AV F) (x y z u w k : F)
    (h : x * a.value + y * b.value + z * c.value + u * d.value + w * e.value + k = 0) :
    CSpec t (oneLineAdd [(.assigned a, x), (.assigned b, y), (.assigned c, z), (.assigned d, u),
        (.assigned e, w)] k)
      (fun ctx => ValidAV ctx a ∧ ValidAV ctx b ∧ ValidAV ctx c ∧ ValidAV ctx d ∧ ValidAV ctx e)
      (fun _ _ => True) := by
  unfold oneLineAdd
  refine (CSpec.oneLine _ _ _ (by simp) (by simp) ?_).mono ?_ (fun _ _ _ => trivial)
  · simp [gateEval, mkRow, lineVal, Schema.value]
    linear_combination h
  · rintro c ⟨h1, h2, h3, h4, h5⟩; simp [ValidSchema, h1, h2, h3, h4, h5]

theorem assertM_run {c : Prop} [Decidable c] (hc : c) (ctx : Ctx F) :
    (Circuit.assertM c : M F Unit) ctx = some ((), ctx) := by
  simp [Circuit.assertM, hc, Pure.pure, StateT.pure]

theorem unwrapM_run {α : Type} (a : α) (ctx : Ctx F) :
    (Circuit.unwrapM (some a) : M F α) ctx = some (a, ctx) := rfl

end

theorem CSpec.rangePair (d v : ℕ) (hd : d < 2 ^ 17) (hv : v < 2 ^ 17) :
    CSpec tables (Circuit.oneLineSel { common := true } [(.unassigned (bnToN d), 0),
        (.unassigned (bnToN v), 0)] 0 [] 0) (fun _ => True)
      (fun c cells => ValidAV c (cells 0) ∧ (cells 0).value = (d : N) ∧ ValidAV c (cells 1) ∧
        (cells 1).value = (v : N)) := by
  have ed : bnToN d = (d : N) := bnToN_eq (hd.trans (by norm_num))
  have ev : bnToN v = (v : N) := bnToN_eq (hv.trans (by norm_num))
  refine (CSpec.oneLineSel _ _ _ _ (by simp) (by simp) ?_ ?_).mono ?_ ?_
  · simp [gateEval, mkRow, lineVal, Schema.value]
  · rw [tables_eq]
    refine ⟨fun _ => ⟨⟨d, hd, ed.symm⟩, ⟨v, hv, ev.symm⟩, inTable_zero _, inTable_zero _⟩, ?_, ?_, ?_⟩ <;>
      intro h <;> simp [mkRow] at h
  · intro c _; simp [ValidSchema]
  · intro c cells h
    refine ⟨(h 0).1, ?_, (h 1).1, ?_⟩
    · rw [(h 0).2]; exact ed
    · rw [(h 1).2]; exact ev

/-- Arithmetic of the honest reduction witness. -/
theorem reduce_honest {a0 A d rem u : ℕ} (hd : d = A / fqMod) (hr : rem = A % fqMod)
    (hA : A < 64 * 2 ^ 255) (ha0 : a0 < 64 * 2 ^ 68) (hm : A ≡ a0 [MOD 2 ^ 68])
    (hu : u = d * wLimbs 0 + bnToLimbs rem 0 + 2 ^ 68 * 64 - a0) :
    d < 2 ^ 17 ∧ u / 2 ^ 68 < 2 ^ 17 ∧ u / 2 ^ 68 * 2 ^ 68 + a0
      = d * wLimbs 0 + bnToLimbs rem 0 + 2 ^ 68 * 64 := by
  have hw := wLimb0_lt
  have hsplit := fqMod_split
  have hfq := fqMod_gt
  have hd8 : d < 256 := by
    rw [hd, Nat.div_lt_iff_lt_mul (by decide +kernel)]
    omega
  have hA' : A = d * fqMod + rem := by rw [hd, hr, mul_comm]; exact (Nat.div_add_mod _ _).symm
  have hb : bnToLimbs rem 0 = rem % 2 ^ 68 := rfl
  have hdw : d * wLimbs 0 ≤ 256 * 2 ^ 68 := Nat.mul_le_mul hd8.le hw.le
  have hdf : d * fqMod = d * wLimbs 0 + 2 ^ 68 * (d * (fqMod / 2 ^ 68)) := by
    conv_lhs => rw [hsplit]
    ring
  rw [hb] at hu ⊢
  unfold Nat.ModEq at hm
  generalize d * wLimbs 0 = x at *
  generalize d * (fqMod / 2 ^ 68) = y at *
  omega

theorem CSpec.reduce (a : AInt) (ho : a.overflows < 64) : CSpec tables (reduce a)
    (fun c => VInt c a ∧ Bd 64 c.wit a.limbs)
    (fun c r => VInt c r ∧ (a.overflows = 0 → r = a) ∧
      (a.overflows ≠ 0 → limbsVal c.wit r.limbs < fqMod)) := by
  constructor
  rintro ctx hg ⟨hv, hb⟩
  unfold Circuit.reduce
  split
  · next h0 => exact ⟨_, _, rfl, hg, Ext.refl _, hv, fun _ => rfl, fun h => absurd h0 h⟩
  · next h0 =>
    have hbn := HInt.bn_eq hv.valid
    obtain ⟨A, hA⟩ : ∃ A, limbsVal ctx.wit a.limbs = A := ⟨_, rfl⟩
    obtain ⟨a0, ha0⟩ : ∃ a0, lv ctx.wit (a.limbs 0) = a0 := ⟨_, rfl⟩
    have ha0' : nToBn (a.limbs 0).value = a0 := by rw [← ha0, lv_wit (hv.valid 0)]; rfl
    rw [hbn, hA, ha0', limbMod_eq, show overflowLimit = 64 from rfl]
    have hb0 : a0 < 64 * 2 ^ 68 := ha0 ▸ hb.b0
    have hAlt : A < 64 * 2 ^ 255 := hA ▸ limbsVal_lt hb
    obtain ⟨hd, hvv, hve⟩ := reduce_honest (u := A / fqMod * wLimbs 0 + bnToLimbs (A % fqMod) 0 + 2 ^ 68 * 64 - a0)
      rfl rfl hAlt hb0 (by rw [← hA, ← ha0]; exact limbsVal_modEq_limb0 _ _) rfl
    have hsub : bnSub (A / fqMod * wLimbs 0 + bnToLimbs (A % fqMod) 0 + 2 ^ 68 * 64) a0
        = some (A / fqMod * wLimbs 0 + bnToLimbs (A % fqMod) 0 + 2 ^ 68 * 64 - a0) := by
      unfold bnSub
      rw [if_pos]
      omega
    have hremlt : A % fqMod < fqMod := Nat.mod_lt _ (by decide +kernel)
    have hbw : (bnToW (A % fqMod)).val = A % fqMod := by
      rw [bnToW_eq (hremlt.trans (fqMod_lt.trans (by norm_num)))]
      exact ZMod.val_natCast_of_lt hremlt
    dsimp only
    rw [hsub]
    generalize A / fqMod * wLimbs 0 + bnToLimbs (A % fqMod) 0 + 2 ^ 68 * 64 - a0 = u at hvv hve ⊢
    obtain ⟨rem, c1, e1, g1, x1, hr, ho, hn, hrv⟩ := (CSpec.assignW (bnToW (A % fqMod))).run ctx hg trivial
    obtain ⟨cells, c2, e2, g2, x2, v0, w0, v1, w1⟩ := (CSpec.rangePair _ _ hd hvv).run c1 g1 trivial
    obtain ⟨⟨rn, rem'⟩, c3, e3, g3, x3, v3, w3, l3, o3, y3⟩ :=
      (CSpec.native rem).run c2 g2 (hr.vint.ext x2)
    obtain ⟨⟨an, a'⟩, c4, e4, g4, x4, v4, w4, l4, o4, y4⟩ :=
      (CSpec.native a).run c3 g3 (hv.ext (x1.trans (x2.trans x3)))
    simp only at v3 w3 l3 o3 y3 v4 w4 l4 o4 y4
    rw [limbsVal_ext hr.valid (x2.trans x3), hrv, hbw] at w3
    rw [limbsVal_ext hv.valid (x1.trans (x2.trans (x3.trans x4))), hA] at w4
    obtain ⟨_, c5, e5, g5, x5, -⟩ := (CSpec.lineAdd3 (t := tables) an (cells 0) rn (-1) wNative 1 0 (by
      rw [w3, w4, w0, wNative_eq]
      have : A = fqMod * (A / fqMod) + A % fqMod := (Nat.div_add_mod _ _).symm
      have := congrArg (Nat.cast (R := N)) this
      push_cast at this
      linear_combination -this)).run c4 g4 ⟨v4, v0.ext (x3.trans x4), v3.ext x4⟩
    obtain ⟨_, c6, e6, g6, x6, -⟩ := (CSpec.lineAdd4 (t := tables) (cells 0) (rem'.limbs 0) (a'.limbs 0)
      (cells 1) (bnToN (wLimbs 0)) 1 (-1) (-bnToN (2 ^ 68)) (bnToN (2 ^ 68 * 64)) (by
      rw [w0, w1, l3, l4, bnToN_eq (b := 2 ^ 68) (by norm_num), bnToN_eq (b := 2 ^ 68 * 64) (by norm_num),
        bnToN_eq (b := wLimbs 0) (by decide +kernel), ← val_wit (hr.valid 0), ← cast_lv,
        ← val_wit (hv.valid 0), ← cast_lv, ha0]
      have hr0 : lv c1.wit (rem.limbs 0) = bnToLimbs (A % fqMod) 0 := by
        have h1 := limbsVal_modEq_limb0 c1.wit rem.limbs
        rw [hrv, hbw] at h1
        have h2 := hr.ann.bound.b0
        rw [ho] at h2
        unfold Nat.ModEq at h1
        have h3 : bnToLimbs (A % fqMod) 0 = A % fqMod % 2 ^ 68 := rfl
        omega
      rw [hr0]
      have := congrArg (Nat.cast (R := N)) hve
      push_cast at this ⊢
      linear_combination -this)).run c5 g5
        ⟨v0.ext (x3.trans (x4.trans x5)), (y3.ext (x4.trans x5)).valid 0, (y4.ext x5).valid 0,
          v1.ext (x3.trans (x4.trans x5))⟩
    refine ⟨⟨rem'.limbs, rem'.native, rem'.overflows⟩, c6, ?_, g6,
      x1.trans (x2.trans (x3.trans (x4.trans (x5.trans x6)))), ?_, fun h => absurd h h0, fun _ => ?_⟩
    · rw [bind_some (assertM_run (by assumption) _), bind_some (unwrapM_run _ _), bind_some e1, bind_some e2, bind_some e3,
        bind_some e4, bind_some e5, bind_some e6]
      rfl
    · exact y3.ext (x4.trans (x5.trans x6))
    · show limbsVal c6.wit rem'.limbs < fqMod
      rw [l3, limbsVal_ext hr.valid (x2.trans (x3.trans (x4.trans (x5.trans x6)))), hrv, hbw]
      exact hremlt

end Verif.Circuit
