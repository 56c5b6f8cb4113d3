import Verif.Api.Guarded

/-!
# The circuit is built and satisfied where the guarded native verifier returns
-/

namespace Verif.Api
open Verif.Circuit Verif.Ecc

/-! ### Two more completeness triples -/

/-- A point that is only exposed afterwards. -/
structure _root_.Verif.Circuit.HEnd (c : Ctx N) (p : APt) (P : Pt) : Prop where
  x : HInt c p.x
  xo : p.x.overflows < 32
  y : HInt c p.y
  yo : p.y.overflows < 32
  z : ValidAV c p.z
  flag : p.z.value = flagOf P
  aff : P ≠ 0 → residue c.wit p.x = coordX P ∧ residue c.wit p.y = coordY P

theorem _root_.Verif.Circuit.HEnd.ext {c c' : Ctx N} {p : APt} {P : Pt} (h : HEnd c p P) (he : Ext c c') : HEnd c' p P :=
  ⟨h.x.ext he, h.xo, h.y.ext he, h.yo, h.z.ext he, h.flag, fun h0 => by rw [residue_ext h.x he, residue_ext h.y he]; exact h.aff h0⟩

theorem _root_.Verif.Circuit.HQ.end {c : Ctx N} {p : APt} {P : Pt} (h : HQ c p P) : HEnd c p P :=
  ⟨h.hp.x, by have := h.hp.xo.1; omega, h.hp.y, by have := h.hp.yo.1; omega, h.hp.z, h.z, fun _ => ⟨h.x, h.y⟩⟩

theorem _root_.Verif.Circuit.HOut.end {c : Ctx N} {p : APt} {P : Pt} (h : HOut c p P) : HEnd c p P := by
  refine ⟨h.hp.x, by have := h.hp.xo.1; omega, h.hp.y, h.hp.yo, h.hp.z, ?_, fun h0 => aff_unique (h.rep.1.affine h0).2⟩
  rw [← val_wit h.hp.z]
  by_cases h0 : P = 0
  · rw [h.rep.1.ident h0, flagOf_zero h0]
  · rw [(h.rep.1.affine h0).1, flagOf_ne h0]

/-- A point with coordinates in `[0, q)`. -/
structure _root_.Verif.Circuit.HNorm (c : Ctx N) (p : APt) (P : Pt) : Prop where
  hq : HQ c p P
  ox : p.x.overflows = 0
  oy : p.y.overflows = 0

theorem _root_.Verif.Circuit.HNorm.ext {c c' : Ctx N} {p : APt} {P : Pt} (h : HNorm c p P) (he : Ext c c') : HNorm c' p P := ⟨h.hq.ext he, h.ox, h.oy⟩

theorem _root_.Verif.Circuit.HNorm.words {c : Ctx N} {p : APt} {P : Pt} (h : HNorm c p P) :
    limbsVal c.wit p.x.limbs = (coordX P).val ∧ limbsVal c.wit p.y.limbs = (coordY P).val := by
  constructor
  · rw [← h.hq.x, residue, ZMod.val_natCast, Nat.mod_eq_of_lt (h.hq.hp.x.canon h.ox)]
  · rw [← h.hq.y, residue, ZMod.val_natCast, Nat.mod_eq_of_lt (h.hq.hp.y.canon h.oy)]

theorem _root_.Verif.Circuit.CSpec.pReduce_n (a : APt) (P : Pt) : CSpec tables (Circuit.pReduce a) (fun c => HQ c a P) (fun c r => HNorm c r.1 P) := by
  constructor
  intro ctx hg ha
  obtain ⟨r, c1, f1, g1, e1, h1, -⟩ := (CSpec.pReduce_q a P).run ctx hg ha
  have f := f1
  obtain ⟨x, c2, f2, g2, e2, h2, o2, -⟩ := (CSpec.reduceH a.x).run ctx hg ha.hp.x
  obtain ⟨y, c3, f3, g3, e3, h3, o3, -⟩ := (CSpec.reduceH a.y).run c2 g2 (ha.hp.y.ext e2)
  obtain ⟨i, c4, f4, g4, e4, h4, -⟩ := CSpec.assignIdentity.run c3 g3 trivial
  unfold Circuit.pReduce at f
  rw [bind_some f2, bind_some f3] at f
  dsimp only at f
  rw [bind_some f4] at f
  simp only [Circuit.bisecPoint, bind_run, pure_run] at f
  obtain ⟨p, c5, ⟨x', _, k1, y', _, k2, z', _, -, rfl, -⟩, rfl, -⟩ := f
  have hi : i.x.overflows = 0 ∧ i.y.overflows = 0 := by
    simp only [Circuit.assignIdentity, Circuit.iassignConstant, bind_run, pure_run] at f4
    obtain ⟨_, _, ⟨_, _, -, _, _, -, _, _, -, _, _, -, rfl, -⟩, _, _, -, rfl, -⟩ := f4
    exact ⟨rfl, rfl⟩
  have k1 := ibisec_count k1
  have k2 := ibisec_count k2
  rw [hi.1, o2] at k1
  rw [hi.2, o3] at k2
  exact ⟨_, c1, f1, g1, e1, h1, by simpa using k1, by simpa using k2⟩

theorem _root_.Verif.Circuit.CSpec.assignConstantPoint_n (P : Pt) : CSpec tables (Circuit.assignConstantPoint P) (fun _ => True) (fun c r => HNorm c r P) :=
  (CSpec.assignConstantPoint P).mono (fun _ h => h) fun _ _ h => ⟨h.1.hq h.2.1 h.2.2.1 h.2.2.2, h.2.1, h.2.2.1⟩

theorem _root_.Verif.Circuit.CSpec.assignPoint_n (P : Pt) : CSpec tables (Circuit.assignPoint P) (fun _ => True) (fun c r => HNorm c r P) :=
  (CSpec.assignPointRaw _ _ _ (by
    by_cases h : P = 0
    · exact .inr (flagOf_zero h)
    · exact .inl (coords_aff h).eqn)).mono (fun _ h => h) fun _ _ h => ⟨h.1.hq h.2.1 h.2.2.1 h.2.2.2, h.2.1, h.2.2.1⟩

theorem build_run {α β : Type} {x : Build α} {f : α → Build β} {c c1 c2 : Ctx N} {a : α} {b : β} (h : x.1 c = some (a, c1))
    (h' : (f a).1 c1 = some (b, c2)) : (x >>= f).1 c = some (b, c2) := by
  change (x.1 >>= fun a => (f a).1) c = _
  rw [bind_some h, h']

namespace Guarded

/-- Stages: circuits that the honest prover satisfies, whatever follows. -/
def Stage : Type := { c : Ctx N // Good tables c }

/-- If the native computation returns, the circuit is built on, and the honest prover still satisfies it. -/
def Run {α α' : Type} (w : Stage) (x : Option α) (x' : Build α') (Q : Stage → α → α' → Prop) : Prop :=
  ∀ a, x = some a → ∃ a' w', x'.1 w.1 = some (a', w'.1) ∧ Ext w.1 w'.1 ∧ Q w' a a'

namespace Run
variable {α α' β β' : Type} {w : Stage}

theorem pure {a : α} {a' : α'} {Q : Stage → α → α' → Prop} (h : Q w a a') : Run w (some a) (Pure.pure a' : Build α') Q := fun _ e => by
  cases e
  exact ⟨a', w, rfl, Ext.refl _, h⟩

theorem bind {x : Option α} {x' : Build α'} {f : α → Option β} {f' : α' → Build β'} {Q : Stage → α → α' → Prop} {S : Stage → β → β' → Prop}
    (hx : Run w x x' Q) (h : ∀ w' a a', Ext w.1 w'.1 → Q w' a a' → Run w' (f a) (f' a') S) : Run w (x.bind f) (x' >>= f') S := fun b e => by
  obtain ⟨a, h1, h2⟩ := Option.bind_eq_some_iff.1 e
  obtain ⟨a', w1, h3, e1, h4⟩ := hx a h1
  obtain ⟨b', w2, h5, e2, h6⟩ := h w1 a a' e1 h4 b h2
  exact ⟨b', w2, build_run h3 h5, e1.trans e2, h6⟩

theorem of {x' : M N α'} {post0 : Advice N → α' → Prop} (h : Spec tables x' post0) [Grows x'] {pre : Ctx N → Prop} {post : Ctx N → α' → Prop}
    (hc : CSpec tables x' pre post) (hp : pre w.1) {x : Option α} {a : α} (hx : x = some a) {Q : Stage → α → α' → Prop}
    (hq : ∀ (w' : Stage) a', post w'.1 a' → Q w' a a') : Run w x (Build.of x' h) Q := fun b e => by
  obtain rfl : a = b := Option.some.inj (hx.symm.trans e)
  obtain ⟨r, c', h1, h2, h3, h4⟩ := hc.run w.1 w.2 hp
  exact ⟨r, ⟨c', h2⟩, h1, h3, hq ⟨c', h2⟩ r h4⟩

theorem fst {x : Option α} {x' : Build (α' × β')} {Q : Stage → α → α' → Prop} (h : Run w x x' fun w a r => Q w a r.1) :
    Run w x (Prod.fst <$> x') Q := fun a e => by
  obtain ⟨r, w', h1, h2, h3⟩ := h a e
  exact ⟨r.1, w', build_run (f := fun r => Pure.pure r.1) h1 rfl, h2, h3⟩

theorem ite {p : Prop} {_ : Decidable p} {x : Option α} {x' : Build α'} {Q : Stage → α → α' → Prop} (h : p → Run w x x' Q) :
    Run w (if p then x else none) x' Q := fun a e => by
  split at e
  · next hp => exact h hp a e
  · cases e

end Run

/-- A cell that holds the value. -/
def Cell (w : Stage) (a : N) (a' : AV N) : Prop := ValidAV w.1 a' ∧ a'.value = a

theorem cells {w : Stage} : ∀ {ps : List N} {ps' : List (AV N)}, List.Forall₂ (Cell w) ps ps' →
    (∀ s ∈ ps', ValidAV w.1 s) ∧ ps'.map (fun s => s.value) = ps
  | _, _, .nil => ⟨by simp, rfl⟩
  | _, _, .cons h t => by
    obtain ⟨h1, h2⟩ := cells t
    exact ⟨List.forall_mem_cons.2 ⟨h.1, h1⟩, by rw [List.map_cons, h2, h.2]⟩

theorem terms {w : Stage} : ∀ {l : List (N × N)} {l' : List (AV N × N)}, List.Forall₂ (fun x x' => Cell w x.1 x'.1 ∧ x.2 = x'.2) l l' →
    (∀ p ∈ l', ValidAV w.1 p.1) ∧ hsum l' = (l.map fun p => p.2 * p.1).sum
  | _, _, .nil => ⟨by simp, rfl⟩
  | _, _, .cons h t => by
    obtain ⟨h1, h2⟩ := terms t
    refine ⟨List.forall_mem_cons.2 ⟨h.1.1, h1⟩, ?_⟩
    rw [hsum, List.map_cons, List.sum_cons, List.map_cons, List.sum_cons, h.1.2, h.2]
    exact congrArg _ h2

theorem mockMultiExp_some : ∀ (ps : List Pt) (ss : List N) (a : Pt), mockMultiExp (some a) ps ss = some (a + mulSum ps (ss.map ZMod.val))
  | [], ss, a => by
    cases ss <;> simp [mockMultiExp, mulSum]
  | p :: ps, [], a => by simp [mockMultiExp, mulSum]
  | p :: ps, s :: ss, a => by
    rw [mockMultiExp, mockMultiExp_some ps ss]
    simp only [mulSum, List.map_cons, List.zipWith_cons_cons, List.sum_cons, smul_eq_val, add_assoc]

theorem mockMultiExp_none {ps : List Pt} {ss : List N} (h : ps ≠ []) (hl : ps.length = ss.length) :
    mockMultiExp none ps ss = some (mulSum ps (ss.map ZMod.val)) := by
  match ps, ss with
  | [], _ => exact absurd rfl h
  | p :: ps, s :: ss =>
    rw [mockMultiExp, mockMultiExp_some]
    simp only [mulSum, List.map_cons, List.zipWith_cons_cons, List.sum_cons, smul_eq_val]

theorem sum_add {w : Stage} {a b : N} {a' b' : AV N} (ha : Cell w a a') (hb : Cell w b b') : 0 + hsum [(a', 1), (b', 1)] = a + b := by
  simp [hsum, ha.2, hb.2]

theorem sum_sub {w : Stage} {a b : N} {a' b' : AV N} (ha : Cell w a a') (hb : Cell w b b') : 0 + hsum [(a', 1), (b', -1)] = a - b := by
  simp [hsum, ha.2, hb.2, sub_eq_add_neg]

/-- The circuit chip. -/
noncomputable def circuit : Link guarded circuitChip (id : Pt → Pt) where
  W := Stage
  le w w' := Ext w.1 w'.1
  refl w := Ext.refl _
  trans h h' := h.trans h'
  R w x x' Q := Run w x x' Q
  s := Cell
  p w P p := HQ w.1 p P
  n w P p := HNorm w.1 p P
  o w P p := HEnd w.1 p P
  known w k a a' := a = k ∧ Cell w k a'
  s_up h e := ⟨e.1.ext h, e.2⟩
  p_up h e := e.ext h
  n_up h e := e.ext h
  o_up h e := e.ext h
  n_p h := h.hq
  p_o h := h.end
  known_up h e := ⟨e.1, e.2.1.ext h, e.2.2⟩
  known_s h := h.1 ▸ h.2
  pure h := Run.pure h
  bind hx h := Run.bind hx fun w' a a' hw ha => h w' a a' hw ha
  mono hx h := fun a e => by
    obtain ⟨a', w', h1, h2, h3⟩ := hx a e
    exact ⟨a', w', h1, h2, h w' a a' h2 h3⟩
  panic := fun a e => by cases e
  add := fun {w} {a b : N} {a' b' : AV N} ha hb => Run.of (Spec.add a' b') (CSpec.sumWithConstant _ _) (by simpa using ⟨ha.1, hb.1⟩) rfl
    fun w' r hr => ⟨hr.1, by rw [hr.2]; exact sum_add ha hb⟩
  sub := fun {w} {a b : N} {a' b' : AV N} ha hb => Run.of (Spec.sub a' b') (CSpec.sumWithConstant _ _) (by simpa using ⟨ha.1, hb.1⟩) rfl
    fun w' r hr => ⟨hr.1, by rw [hr.2]; exact sum_sub ha hb⟩
  mul := fun {w} {a b : N} {a' b' : AV N} ha hb => Run.of (Spec.mul a' b') (CSpec.mul _ _) ⟨ha.1, hb.1⟩ rfl fun w' r hr => ⟨hr.1, by rw [hr.2, ha.2, hb.2]⟩
  div := fun {w} (a : N) (b : N) (a' : AV N) (b' : AV N) ha hb => by
    intro r hr
    change (if b = 0 then none else some (a * b⁻¹)) = some r at hr
    by_cases h0 : b = 0
    · rw [if_pos h0] at hr
      cases hr
    · rw [if_neg h0] at hr
      refine Run.of (Spec.divUnsafe a' b') (CSpec.divUnsafe _ _ (by rw [hb.2]; exact h0)) ⟨ha.1, hb.1⟩ rfl (fun w' r hr => ⟨hr.1, ?_⟩) r hr
      rw [hr.2, ha.2, hb.2, div_eq_mul_inv]
  square := fun {w} {a : N} {a' : AV N} ha => Run.of (Spec.mul a' a') (CSpec.mul _ _) ⟨ha.1, ha.1⟩ rfl fun w' r hr => ⟨hr.1, by rw [hr.2, ha.2]⟩
  sumWithCoeff := fun {w} {k : N} {l : List (N × N)} {l' : List (AV N × N)} h => by
    obtain ⟨h1, h2⟩ := terms h
    exact Run.of (Spec.sumWithConstant l' k) (CSpec.sumWithConstant _ _) h1 rfl fun w' r hr => ⟨hr.1, by rw [hr.2, h2]; exact (mockSum_eq _ _).symm⟩
  assignZero := Run.of (Spec.assignConstant 0) (CSpec.assignConstant _) trivial rfl fun w' r hr => ⟨hr.1, hr.2⟩
  assignOne := Run.of (Spec.assignConstant 1) (CSpec.assignConstant _) trivial rfl fun w' r hr => ⟨hr.1, hr.2⟩
  assignConst k := Run.of (Spec.assignConstant k) (CSpec.assignConstant _) trivial rfl fun w' r hr => ⟨rfl, hr.1, hr.2⟩
  toValue h := Run.pure (h.1.trans h.2.2.symm)
  pAdd := fun {w} {a b : Pt} {a' b' : APt} ha hb => Run.ite fun hs => Run.fst (Run.of (Spec.pAdd a' b') (CSpec.pAdd_q a' b' a b hs.2) ⟨ha, hb, fun _ => hs.1⟩ rfl
    fun w' r hr => hr.1)
  pSub := fun {w} {a b : Pt} {a' b' : APt} ha hb => Run.ite fun hs => Run.fst (Run.of (Spec.pSub a' b') (CSpec.pSub_q a' b' a b) ⟨ha, hb, fun _ => hs⟩ rfl
    fun w' r hr => hr.1.end)
  pAssignOne := Run.of (Spec.assignConstantPoint _) (CSpec.assignConstantPoint_n _) trivial rfl fun w' r hr => hr.hq
  pAssignConst P := Run.of (Spec.assignConstantPoint P) (CSpec.assignConstantPoint_n P) trivial rfl fun w' r hr => hr
  normalize := fun {w} {a : Pt} {a' : APt} ha => Run.fst (Run.of (Spec.pReduce a') (CSpec.pReduce_n a' a) ha rfl fun w' r hr => hr)
  scalarMul := fun {w} (k : N) (k' : AV N) (a : Pt) (a' : APt) hk ha => Run.ite fun hs => Run.of (Spec.pMul a' k') (CSpec.pMul_q a' k' a (by rw [hk.2]; exact hs))
    ⟨ha, hk.1⟩ rfl fun w' r hr => by
      rw [hk.2, ← smul_eq_val] at hr
      exact hr
  scalarMulConstant := fun {w} (k : N) (k' : AV N) (P : Pt) hk => Run.of (Spec.constantMul P k') (CSpec.constantMul_q P k') hk.1 rfl fun w' r hr => by
    rw [hk.2, ← smul_eq_val] at hr
    exact hr.1
  multiExp := fun {w} (ps : List Pt) (ps' : List APt) (ss : List N) (ss' : List (AV N)) hp hs => Run.ite fun hg => by
    obtain ⟨h1, h2⟩ := cells hs
    have hv : ss'.map (fun s => s.value.val) = ss.map ZMod.val := by rw [← h2, List.map_map]; rfl
    refine Run.of (Spec.shamir ps' ss') (CSpec.shamir_q ps' ss' ps (by rw [hv]; exact hg.2.2) ?_ ?_) ⟨hp.flip.imp fun _ _ h => h.hq, h1⟩
      (mockMultiExp_none hg.1 hg.2.1) fun w' r hr => ?_
    · exact (hp.length_eq.symm.trans hg.2.1).trans hs.length_eq
    · rintro rfl
      cases hp
      exact hg.1 rfl
    · rw [hv] at hr
      exact hr

theorem circuit_mulAdd : circuit.MulAdd := fun {w} {a : N} {a' : AV N} {b : N} {b' : AV N} k ha hb =>
  Run.of (Spec.mulAddConstant a' b' k) (CSpec.mulAddConstant _ _ _) ⟨ha.1, hb.1⟩ rfl fun w' r hr => ⟨hr.1, by rw [hr.2, ha.2, hb.2]⟩

theorem circuit_words : circuit.SameWords guardedEncode circuitEncode where
  point := by
    rintro w (P : Pt) (p : APt) h
    have h : HNorm w.1 p P := h
    intro l hl
    obtain ⟨x, c1, f1, g1, e1, v1, k1, -⟩ := (CSpec.native p.x).run w.1 w.2 h.hq.hp.x.vint
    obtain ⟨y, c2, f2, g2, e2, v2, k2, -⟩ := (CSpec.native p.y).run c1 g1 (h.hq.hp.y.vint.ext e1)
    have h' := h.ext e1
    have h'' := h'.ext e2
    refine ⟨[x.1, y.1], ⟨c2, g2⟩, build_run f1 (build_run f2 rfl), e1.trans e2, ?_⟩
    obtain rfl := (Option.some.inj hl).symm
    exact .cons ⟨v1.ext e2, by rw [k1, h'.words.1]⟩ (.cons ⟨v2, by rw [k2, h''.words.2]⟩ .nil)
  scalar h := Run.pure (.cons h .nil)
  decode h := Run.pure h

/-- The Poseidon transcripts. -/
noncomputable def circuitBytes {rate : ℕ} (ps : PoseidonSpec N rate) (d : Codec N Pt) :
    SameBytes circuit (poseidonTranscript guarded ps guardedEncode) (poseidonTranscript circuitChip ps circuitEncode) d d :=
  poseidonBytes circuit_mulAdd ps circuit_words
    (fun k => Run.of (Spec.assign k) (CSpec.assign k) trivial rfl fun w' r hr => hr)
    (fun P => Run.of (Spec.assignPoint P) (CSpec.assignPoint_n P) trivial rfl fun w' r hr => hr) (id_point d) fun _ => rfl

end Guarded
end Verif.Api
