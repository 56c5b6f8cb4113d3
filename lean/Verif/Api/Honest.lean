import Verif.Api.PoseidonProps

/-!
The assignment the prover computes.

Soundness (`circuitLogic`) is about every assignment that satisfies the circuit. In the one the prover computes, every cell holds the value it was
assigned with. This is what is known of that one: scalars are the scalars that were assigned, and points are the points that were read, with
canonical coordinates. It is derived for all runs, also of circuits that no assignment satisfies.
-/

namespace Verif.Api
open Circuit Ecc

/-- In an assignment that satisfies the circuit and agrees with the values the prover computed, the result meets the postcondition. -/
def Honestly (adv : Advice N) {α : Type} (x : Build α) (post : α → Prop) : Prop :=
  ∀ ctx r ctx', x.1 ctx = some (r, ctx') → Sat tables ctx' adv → Agree ctx' adv → post r

namespace Honestly
variable {adv : Advice N} {α β : Type}

theorem of {x : Build α} {Q : α → Prop} (h : Holds adv x Q) : Honestly adv x Q := fun ctx r ctx' h1 hs _ => h ctx r ctx' h1 hs

theorem bind {x : Build α} {f : α → Build β} {Q : α → Prop} {R : β → Prop} (hx : Honestly adv x Q) (hf : ∀ a, Q a → Honestly adv (f a) R) :
    Honestly adv (x >>= f) R := by
  intro ctx r ctx' h hs ha
  have h' : (x.1 >>= fun a => (f a).1) ctx = some (r, ctx') := h
  simp only [Bind.bind, StateT.bind, Option.bind_eq_some_iff] at h'
  obtain ⟨⟨a, c1⟩, h1, h2⟩ := h'
  have hs1 := ((f a).2.1.run c1 r ctx' h2 adv hs).1
  exact hf a (hx _ _ _ h1 hs1 (ha.ext ((f a).2.2.run _ _ _ h2))) _ _ _ h2 hs ha

theorem mono {x : Build α} {Q R : α → Prop} (h : Honestly adv x Q) (hqr : ∀ a, Q a → R a) : Honestly adv x R :=
  fun _ _ _ h1 hs ha => hqr _ (h _ _ _ h1 hs ha)

end Honestly

/-! ### Values -/

theorem line_val {sel : Sel} {ps : List (Circuit.Schema N × N)} {k : N} {mul : List N} {next : N} {ctx ctx' : Ctx N} {cells : Fin 5 → AV N}
    (h : oneLineSel sel ps k mul next ctx = some (cells, ctx')) {adv : Advice N} (ha : Agree ctx' adv) (j : Fin 5) : (cells j).val adv = lineVal ps j := by
  unfold oneLineSel at h
  split at h
  · simp only [Option.some.injEq, Prod.mk.injEq] at h
    obtain ⟨rfl, rfl⟩ := h
    show adv ctx.offset j = _
    rw [ha ctx.offset (Nat.lt_succ_self _)]
    simp [lineVal]
  · cases h

theorem assign_val {k : N} {ctx ctx' : Ctx N} {r : AV N} (h : Circuit.assign k ctx = some (r, ctx')) {adv : Advice N} (ha : Agree ctx' adv) :
    r.val adv = k := by
  unfold Circuit.assign oneLineAdd oneLine at h
  rw [bind_run] at h
  obtain ⟨cells, c1, h1, h2⟩ := h
  rw [pure_run] at h2
  obtain ⟨rfl, rfl⟩ := h2
  rw [line_val h1 ha]
  rfl

theorem limb_val {n : N} {ctx ctx' : Ctx N} {r : AV N} (h : Circuit.assignNonleadingLimb n ctx = some (r, ctx')) {adv : Advice N} (ha : Agree ctx' adv) :
    r.val adv = n := by
  unfold Circuit.assignNonleadingLimb at h
  rw [bind_run] at h
  obtain ⟨cells, c1, h1, h2⟩ := h
  rw [pure_run] at h2
  obtain ⟨rfl, rfl⟩ := h2
  rw [line_val h1 ha]
  exact (limbLine_last n).1

theorem leading_val {n : N} {ctx ctx' : Ctx N} {r : AV N} (h : Circuit.assignWCeilLeadingLimb n ctx = some (r, ctx')) {adv : Advice N}
    (ha : Agree ctx' adv) : r.val adv = n := by
  unfold Circuit.assignWCeilLeadingLimb at h
  rw [wCeilBits_eq, limbWidth_eq] at h
  simp only [Nat.reduceMod, Nat.reduceEqDiff, if_false, Nat.reduceAdd, Nat.reduceSub, Nat.reduceDiv] at h
  rw [bind_run] at h
  obtain ⟨_, c0, h0, h⟩ := h
  rw [bind_run] at h
  obtain ⟨cells, c1, h1, h2⟩ := h
  rw [pure_run] at h2
  obtain ⟨rfl, rfl⟩ := h2
  rw [line_val h1 ha]
  exact (limbLine_last n).2

theorem ext_of {α : Type} {m : M N α} [g : Grows m] {ctx ctx' : Ctx N} {r : α} (h : m ctx = some (r, ctx')) : Ext ctx ctx' := g.run _ _ _ h

theorem assignW_val {v : W} {ctx ctx' : Ctx N} {r : AInt} (h : Circuit.assignW v ctx = some (r, ctx')) {adv : Advice N} (ha : Agree ctx' adv) :
    limbsVal adv r.limbs = v.val := by
  have hlt' : v.val < 2 ^ 272 := ((ZMod.val_lt v).trans fqMod_lt).trans (Nat.pow_lt_pow_right (by norm_num) (by norm_num))
  have hv := bnToLimbsN_val hlt'
  unfold Circuit.assignW at h
  simp only [bind_run, pure_run] at h
  obtain ⟨l3, c3, e3, l2, c2, e2, l1, c1, e1, l0, c0, e0, rfl, rfl⟩ := h
  have a1 := ha.ext (ext_of e0)
  have a2 := a1.ext (ext_of e1)
  have a3 := a2.ext (ext_of e2)
  unfold limbsVal lv
  simp only [AInt.new, vec4]
  rw [limb_val e0 ha, limb_val e1 a1, limb_val e2 a2, leading_val e3 a3]
  simp only [wToBn, hv]
  exact limbs4_sum

/-- A point is assigned as given. -/
structure Given (adv : Advice N) (p : APt) (P : Pt) : Prop where
  fresh : Fresh adv p
  flag : p.z.val adv = flagOf P
  x : limbsVal adv p.x.limbs = (coordX P).val
  y : limbsVal adv p.y.limbs = (coordY P).val

theorem assignPoint_given {P : Pt} {ctx ctx' : Ctx N} {p : APt} (h : Circuit.assignPoint P ctx = some (p, ctx')) {adv : Advice N}
    (hs : Sat tables ctx' adv) (ha : Agree ctx' adv) : Given adv p P := by
  have hf := ((Spec.assignPoint P).run _ _ _ h adv hs).2
  unfold Circuit.assignPoint assignPointRaw at h
  simp only [bind_run, Prod.exists, pure_run] at h
  obtain ⟨x, c1, h1, y, c2, h2, z, c3, h3, b, c4, h4, y2, y', c5, h5, x2, x', c6, h6, x3, x2', x'', c7, h7, rt, c8,
    h8, eq, c9, h9, e, c10, h10, _, c11, h11, rfl, rfl⟩ := h
  have hs10 := ((Spec.assertConstant _ _).run _ _ _ h11 adv hs).1
  have hs9 := ((Spec.or _ _).run _ _ _ h10 adv hs10).1
  have hs8 := ((Spec.iisEqual_val _ _).run _ _ _ h9 adv hs9).1
  have hs7 := ((Spec.iadd_val _ _).run _ _ _ h8 adv hs8).1
  obtain ⟨hs6, k7⟩ := (Spec.imul _ _).run _ _ _ h7 adv hs7
  obtain ⟨hs5, k6⟩ := (Spec.isquare _).run _ _ _ h6 adv hs6
  obtain ⟨hs4, k5⟩ := (Spec.isquare _).run _ _ _ h5 adv hs5
  have hs3 := ((Spec.iassignConstant_val _).run _ _ _ h4 adv hs4).1
  have hs2 := ((Spec.assign _).run _ _ _ h3 adv hs3).1
  obtain ⟨hs1, k2⟩ := (Spec.assignW_val _).run _ _ _ h2 adv hs2
  obtain ⟨-, k1⟩ := (Spec.assignW_val _).run _ _ _ h1 adv hs1
  have a3 : Agree c3 adv := ha.ext ((ext_of h4).trans ((ext_of h5).trans ((ext_of h6).trans ((ext_of h7).trans ((ext_of h8).trans ((ext_of h9).trans
    ((ext_of h10).trans (ext_of h11))))))))
  have a2 := a3.ext (ext_of h3)
  have a1 := a2.ext (ext_of h2)
  obtain ⟨-, o5, b5, n5, e5⟩ := k5 _ le_rfl k2.bd64 k2.1.native
  obtain ⟨-, o6, b6, n6, e6⟩ := k6 _ le_rfl k1.bd64 k1.1.native
  obtain ⟨-, -, -, -, -, e7⟩ := k7 _ _ (by norm_num : 1 ≤ 64) le_rfl b6 (k1.same e6).bd64 n6 (k1.same e6).1.native
  refine ⟨hf, assign_val h3 a3, ?_, ?_⟩
  · show limbsVal adv x''.limbs = _
    rw [e7.1, e6.1]
    exact assignW_val h1 a1
  · show limbsVal adv y'.limbs = _
    rw [e5.1]
    exact assignW_val h2 a2

namespace Given
variable {adv : Advice N} {p : APt} {P : Pt}

theorem represents (h : Given adv p P) : Represents adv p P := by
  have hx : residue adv p.x = coordX P := by
    unfold residue
    rw [h.x, ZMod.natCast_zmod_val]
  have hy : residue adv p.y = coordY P := by
    unfold residue
    rw [h.y, ZMod.natCast_zmod_val]
  refine ⟨⟨h.fresh.1, h.fresh.2.1, fun h0 => ?_, fun h0 => ⟨?_, ?_⟩, by rw [h.fresh.2.2.1]; rintro _ ⟨⟩⟩, tangentOk_none h.fresh.2.2.1⟩
  · rw [h.flag, h0]
    rfl
  · rw [h.flag]
    cases P with
    | zero => exact absurd rfl h0
    | some x y hn => rfl
  · rw [hx, hy]
    cases P with
    | zero => exact absurd rfl h0
    | some x y hn => exact ⟨hn, rfl⟩

theorem words (h : Given adv p P) : cellWords adv p = pointWords P := by
  unfold cellWords pointWords
  rw [h.x, h.y]

theorem bit (h : Given adv p P) : p.z.val adv = 0 ∨ p.z.val adv = 1 := by
  rw [h.flag]
  unfold flagOf
  split
  · exact .inr rfl
  · exact .inl rfl

end Given

/-- In the assignment the prover computes, the circuit chip computes in the scalar field and the curve group, and what is read is what the cells hold. -/
noncomputable def honestLogic (adv : Advice N) : Logic circuitChip gen where
  Ens := Honestly adv
  sv s := s.val adv
  pv := Represents adv
  known s k := s.val adv = k ∧ s.value = k
  wit s k := s.val adv = k
  pwit := Given adv
  pure h := .of (Holds.pure h)
  bind := Honestly.bind
  mono := Honestly.mono
  all h := fun ctx r ctx' h1 hs ha i => h i ctx r ctx' h1 hs ha
  add a b := .of ((circuitLogic adv).add a b)
  sub a b := .of ((circuitLogic adv).sub a b)
  mul a b := .of ((circuitLogic adv).mul a b)
  div a b hb := .of ((circuitLogic adv).div a b hb)
  square a := .of ((circuitLogic adv).square a)
  sumWithCoeff l k := .of ((circuitLogic adv).sumWithCoeff l k)
  mulAddConstant a b k := .of ((circuitLogic adv).mulAddConstant a b k)
  assignZero := .of (circuitLogic adv).assignZero
  assignOne := .of (circuitLogic adv).assignOne
  assignConst k := .of ((circuitLogic adv).assignConst k)
  known_sv h := h.1
  toValue h := .of ((circuitLogic adv).toValue h)
  assignVar k := fun _ _ _ h _ ha => assign_val h ha
  pAdd hP hQ := .of ((circuitLogic adv).pAdd hP hQ)
  pSub hP hQ := .of ((circuitLogic adv).pSub hP hQ)
  pAssignZero := .of (circuitLogic adv).pAssignZero
  pAssignOne := .of (circuitLogic adv).pAssignOne
  pAssignConst P := .of ((circuitLogic adv).pAssignConst P)
  pAssignVar P := fun _ _ _ h hs ha => assignPoint_given h hs ha
  normalize hP := .of ((circuitLogic adv).normalize hP)
  scalarMul s {_ _} hP := .of ((circuitLogic adv).scalarMul s hP)
  scalarMulConstant s P := .of ((circuitLogic adv).scalarMulConstant s P)
  multiExp hP h1 h2 := .of ((circuitLogic adv).multiExp hP h1 h2)

theorem honest_partial (adv : Advice N) : (honestLogic adv).Partial where
  triv _ := fun _ _ _ _ _ _ => trivial
  panic Q := .of ((Logic.circuit_partial adv).panic Q)

theorem honest_encodes (adv : Advice N) :
    (honestLogic adv).Encodes circuitEncode (fun p : APt => NatOk adv p.x ∧ NatOk adv p.y) (cellWords adv) where
  point p := .of ((circuit_encodes adv).point p)
  scalar s := .of ((circuit_encodes adv).scalar s)
  decode s := .of ((circuit_encodes adv).decode s)

theorem honest_safe {rate : ℕ} (adv : Advice N) {ps : PoseidonSpec N rate} (hps : ps.WF) :
    (honestLogic adv).Safe (poseidonTranscript circuitChip ps circuitEncode) := (honest_encodes adv).safe hps

/-! ### What is known of the prover's assignment is known of all -/

section Weaken
variable {adv : Advice N} {T : Transcript circuitChip} {d : Codec N Pt}

theorem result_weaken {α : Type} {x : circuitChip.m α} {a : α} (h : (honestLogic adv).Result x a) : (circuitLogic adv).Result x a :=
  fun post hp => h post (.of hp)

theorem took_weaken {b b' : List UInt8} {st st' : T.St} {evs : List (Event circuitChip.P circuitChip.S)}
    (h : (honestLogic adv).Took d b st evs b' st') : (circuitLogic adv).Took d b st evs b' st' := by
  induction h with
  | nil => exact .nil
  | point P b1 st1 h hp ha _ ih => exact .point P b1 st1 h hp.fresh (result_weaken ha) ih
  | scalar k b1 st1 h hp ha _ ih => exact .scalar k b1 st1 h trivial (result_weaken ha) ih
  | commonPoint st1 ha _ ih => exact .commonPoint st1 (result_weaken ha) ih
  | commonScalar st1 ha _ ih => exact .commonScalar st1 (result_weaken ha) ih
  | challenge st1 ha _ ih => exact .challenge st1 (result_weaken ha) ih

theorem run_weaken {vk : VK N Pt} {instances : List (List (List N))} {key : String} {start : Reader T} {as : List (List (List circuitChip.S))}
    {p : Params circuitChip.P circuitChip.S} {r : Verified T} (h : (honestLogic adv).Run d vk instances key start as p r) :
    (circuitLogic adv).Run d vk instances key start as p r where
  assigned := h.assigned.imp fun _ _ h => h.imp fun _ _ h => h.imp fun _ _ _ => trivial
  instances := h.instances
  commitments := h.commitments
  shape := h.shape
  values := by
    obtain ⟨h1, h2, h3, h4, h5, h6, h7, h8, h9, h10, h11, h12, h13⟩ := h.values
    exact ⟨h1, h2, h3, h4, h5, h6, h7, h8, h9, h10, h11, h12, h13⟩
  trace := h.trace.imp fun s h => h.imp fun evs h => ⟨h.1, h.2.1, h.2.2.1, took_weaken h.2.2.2⟩
  advice := h.advice
  opened hu K hK := by
    obtain ⟨⟨h1, h2, h3, h4⟩, h5, h6, h7, h8⟩ := h.opened ⟨hu.points, hu.x⟩ K hK
    exact ⟨⟨h1, h2, h3, h4⟩, h5, h6, h7, h8⟩

end Weaken

end Verif.Api
