import Verif.Circuit.Program
import Verif.Circuit.BaseSound
import Verif.Circuit.BaseComplete

/-!
# Helper lemmas for straight-line programs
-/

set_option linter.unusedSimpArgs false
set_option linter.unusedSectionVars false

namespace Verif.Circuit

namespace Op
variable {F ι κ μ : Type}

theorem map_map (f : ι → κ) (g : κ → μ) (op : Op F ι) : (op.map f).map g = op.map (fun i => g (f i)) := by
  cases op <;> simp [map]

theorem map_congr {f g : ι → κ} {op : Op F ι} (h : ∀ i ∈ op.args, f i = g i) : op.map f = op.map g := by
  cases op <;> simp [map, args] at h ⊢ <;> grind

end Op

variable {F : Type} [Field F] [DecidableEq F] {t : Tables}

theorem map_getD {op : Op F ℕ} {env : List (AV F)} (d : AV F) (f : AV F → F)
    (h : ∀ i ∈ op.args, i < env.length) :
    (op.map fun i => env.getD i d).map f = op.map fun i => (env.map f).getD i 0 := by
  rw [Op.map_map]
  refine Op.map_congr fun i hi => ?_
  have := h i hi
  simp [List.getD, this]

omit [DecidableEq F] in
theorem Spec.ret1 {m : M F (AV F)} {P : Advice F → AV F → Prop} (h : Spec t m P) :
    Spec t (m >>= fun x => (Pure.pure [x] : M F _)) (fun adv r => ∃ x, r = [x] ∧ P adv x) :=
  (h.bind (fun x => Spec.pure _)).mono (by rintro adv r ⟨x, h, rfl⟩; exact ⟨x, rfl, h⟩)

omit [DecidableEq F] in
theorem Spec.ret0 {m : M F Unit} {P : Advice F → Unit → Prop} (h : Spec t m P) :
    Spec t (m >>= fun _ => (Pure.pure [] : M F (List (AV F)))) (fun adv r => r = [] ∧ P adv ()) :=
  (h.bind (fun x => Spec.pure _)).mono (by rintro adv r ⟨x, h, rfl⟩; exact ⟨rfl, h⟩)

/-- Every call: in every satisfying assignment the results are those the meaning allows. -/
theorem Spec.opRun (op : Op F (AV F)) :
    Spec t op.run (fun adv r => Op.Sem (op.map fun a => a.val adv) (r.map fun a => a.val adv)) := by
  cases op with
  | assign v =>
    refine (Spec.ret1 (Spec.assign v)).mono ?_
    rintro adv r ⟨x, rfl, -⟩; exact ⟨trivial, _, rfl⟩
  | constant v =>
    refine (Spec.ret1 (Spec.assignConstant v)).mono ?_
    rintro adv r ⟨x, rfl, h⟩; simp [Op.Sem, Op.claim, Op.value, Op.map, h]
  | sum l k =>
    refine (Spec.ret1 (Spec.sumWithConstant l k)).mono ?_
    rintro adv r ⟨x, rfl, h⟩; simp [Op.Sem, Op.claim, Op.value, Op.map, h, wsum, Function.comp_def]
  | add a b =>
    refine (Spec.ret1 (Spec.add a b)).mono ?_
    rintro adv r ⟨x, rfl, h⟩; simp [Op.Sem, Op.claim, Op.value, Op.map, h]
  | addConstant a k =>
    refine (Spec.ret1 (Spec.addConstant a k)).mono ?_
    rintro adv r ⟨x, rfl, h⟩; simp [Op.Sem, Op.claim, Op.value, Op.map, h]
  | sub a b =>
    refine (Spec.ret1 (Spec.sub a b)).mono ?_
    rintro adv r ⟨x, rfl, h⟩; simp [Op.Sem, Op.claim, Op.value, Op.map, h]
  | mul a b =>
    refine (Spec.ret1 (Spec.mul a b)).mono ?_
    rintro adv r ⟨x, rfl, h⟩; simp [Op.Sem, Op.claim, Op.value, Op.map, h]
  | mulAddConstant a b k =>
    refine (Spec.ret1 (Spec.mulAddConstant a b k)).mono ?_
    rintro adv r ⟨x, rfl, h⟩; simp [Op.Sem, Op.claim, Op.value, Op.map, h]
  | mulAdd a b c k =>
    refine (Spec.ret1 (Spec.mulAdd a b c k)).mono ?_
    rintro adv r ⟨x, rfl, h⟩; simp [Op.Sem, Op.claim, Op.value, Op.map, h]
  | mulAdd2 a b c k d l =>
    refine (Spec.ret1 (Spec.mulAdd2 a b c k d l)).mono ?_
    rintro adv r ⟨x, rfl, h⟩; simp [Op.Sem, Op.claim, Op.value, Op.map, h]
  | mulAddNext l =>
    cases l with
    | nil =>
      constructor
      intro ctx r ctx' h
      simp [Op.run, Circuit.mulAddWithNextLine, Circuit.unwrapM, Bind.bind, StateT.bind] at h
    | cons p l =>
      refine (Spec.ret1 (Spec.mulAddWithNextLine _)).mono ?_
      rintro adv r ⟨x, rfl, h⟩
      simp [Op.Sem, Op.claim, Op.value, Op.map, h, termsSum, Function.comp_def]
  | invertUnsafe a =>
    refine (Spec.ret1 (Spec.invertUnsafe a)).mono ?_
    rintro adv r ⟨x, rfl, h⟩
    have h0 : a.val adv ≠ 0 := by intro h0; rw [h0] at h; simp at h
    simp [Op.Sem, Op.claim, Op.value, Op.map, h0]
    exact (eq_inv_of_mul_eq_one_right h).symm
  | invert a =>
    refine ((Spec.invert a).bind (fun p => Spec.pure _)).mono ?_
    rintro adv r ⟨p, ⟨h1, h2⟩, rfl⟩
    have h3 := flag_of_invert h1 h2
    refine ⟨trivial, p.2.val adv, ?_, ?_⟩
    · simp [h3, zeroFlag]
    · intro h0
      rw [h3, zeroFlag, if_neg h0, add_zero] at h2
      exact eq_inv_of_mul_eq_one_right h2
  | isZero a =>
    refine (Spec.ret1 (Spec.isZero a)).mono ?_
    rintro adv r ⟨x, rfl, h⟩; simp [Op.Sem, Op.claim, Op.value, Op.map, h, zeroFlag]
  | divUnsafe a b =>
    refine (Spec.ret1 (Spec.divUnsafe a b)).mono ?_
    rintro adv r ⟨x, rfl, h⟩
    refine ⟨trivial, x.val adv, rfl, fun (h0 : b.val adv ≠ 0) => ?_, fun (h0 : b.val adv = 0) => ?_⟩
    · show x.val adv = a.val adv / b.val adv
      rw [eq_div_iff h0, ← h, mul_comm]
    · show a.val adv = 0
      rw [← h, h0, zero_mul]
  | and a b =>
    refine (Spec.ret1 (Spec.mul a b)).mono ?_
    rintro adv r ⟨x, rfl, h⟩; simp [Op.Sem, Op.claim, Op.value, Op.map, h]
  | or a b =>
    refine (Spec.ret1 (Spec.or a b)).mono ?_
    rintro adv r ⟨x, rfl, h⟩; simp [Op.Sem, Op.claim, Op.value, Op.map, h]
  | xor a b =>
    refine (Spec.ret1 (Spec.xor a b)).mono ?_
    rintro adv r ⟨x, rfl, h⟩; simp [Op.Sem, Op.claim, Op.value, Op.map, h]
  | xnor a b =>
    refine (Spec.ret1 (Spec.xnor a b)).mono ?_
    rintro adv r ⟨x, rfl, h⟩; simp [Op.Sem, Op.claim, Op.value, Op.map, h]
  | not a =>
    refine (Spec.ret1 (Spec.not a)).mono ?_
    rintro adv r ⟨x, rfl, h⟩; simp [Op.Sem, Op.claim, Op.value, Op.map, h]
  | bisec c a b =>
    refine (Spec.ret1 (Spec.bisec c a b)).mono ?_
    rintro adv r ⟨x, rfl, h⟩; simp [Op.Sem, Op.claim, Op.value, Op.map, h]
  | bisecCond c a b =>
    refine (Spec.ret1 (Spec.bisec c a b)).mono ?_
    rintro adv r ⟨x, rfl, h⟩; simp [Op.Sem, Op.claim, Op.value, Op.map, h]
  | assertEqual a b =>
    refine (Spec.ret0 (Spec.assertEqual a b)).mono ?_
    rintro adv r ⟨rfl, h⟩; simp [Op.Sem, Op.claim, Op.value, Op.map, h]
  | assertConstant a k =>
    refine (Spec.ret0 (Spec.assertConstant a k)).mono ?_
    rintro adv r ⟨rfl, h⟩; simp [Op.Sem, Op.claim, Op.value, Op.map, h]
  | assertBit a =>
    refine (Spec.ret0 (Spec.assertBit a)).mono ?_
    rintro adv r ⟨rfl, h⟩; simp [Op.Sem, Op.claim, Op.value, Op.map, h]
  | assertTrue a =>
    refine (Spec.ret0 (Spec.assertConstant a 1)).mono ?_
    rintro adv r ⟨rfl, h⟩; simp [Op.Sem, Op.claim, Op.value, Op.map, h]
  | assertFalse a =>
    refine (Spec.ret0 (Spec.assertConstant a 0)).mono ?_
    rintro adv r ⟨rfl, h⟩; simp [Op.Sem, Op.claim, Op.value, Op.map, h]

theorem Spec.runProg (ops : List (Op F ℕ)) : ∀ env : List (AV F),
    Spec t (runProg ops env)
      (fun adv r => progSem ops (env.map fun a => a.val adv) (r.map fun a => a.val adv)) := by
  induction ops with
  | nil =>
    intro env
    refine (Spec.pure env).mono ?_
    rintro adv r rfl; rfl
  | cons op ops ih =>
    intro env
    unfold Circuit.runProg
    refine ((Spec.assertM _).bind (fun _ => (Spec.opRun _).bind (fun new => ih _))).mono ?_
    rintro adv r ⟨-, hargs, new, hnew, hr⟩
    refine ⟨by simpa using hargs, new.map fun a => a.val adv, ?_, ?_⟩
    · rw [map_getD _ _ hargs] at hnew
      exact hnew
    · simpa using hr

/-! ### Completeness -/

omit [DecidableEq F] in
theorem CSpec.ret1 {m : M F (AV F)} {P : Ctx F → Prop} {v : F}
    (h : CSpec t m P (fun c r => ValidAV c r ∧ r.value = v)) :
    CSpec t (m >>= fun x => (Pure.pure [x] : M F _)) P
      (fun c r => (∀ a ∈ r, ValidAV c a) ∧ r.map AV.value = [v]) :=
  h.bind (P2 := fun x c => ValidAV c x ∧ x.value = v) (fun x => (CSpec.pure _ _).mono (fun _ h => h)
    (by rintro c r ⟨h, rfl⟩; simp [h.1, h.2])) (fun _ _ _ _ _ h => h)

omit [DecidableEq F] in
theorem CSpec.ret0 {m : M F Unit} {P : Ctx F → Prop} (h : CSpec t m P (fun _ _ => True)) :
    CSpec t (m >>= fun _ => (Pure.pure [] : M F (List (AV F)))) P
      (fun c r => (∀ a ∈ r, ValidAV c a) ∧ r.map AV.value = []) :=
  h.bind (P2 := fun _ _ => True) (fun x => (CSpec.pure _ _).mono (fun _ h => h)
    (by rintro c r ⟨h, rfl⟩; simp)) (fun _ _ _ _ _ h => h)

theorem hterms_eq (l : List (AV F × AV F × AV F × F)) :
    hterms (l.map fun p => ⟨p.1, p.2.1, p.2.2.1, p.2.2.2⟩) =
      ((l.map fun p => (p.1.value, p.2.1.value, p.2.2.1.value, p.2.2.2)).map
        fun p => p.1 * p.2.1 + p.2.2.2 * p.2.2.1).sum := by
  simp [hterms, Function.comp_def]

theorem CSpec.opRun (op : Op F (AV F)) (vs : List F) (hv : Op.value (op.map AV.value) = some vs)
    (hc : Op.claim (op.map AV.value)) :
    CSpec t op.run (fun c => ∀ a ∈ op.args, ValidAV c a)
      (fun c r => (∀ a ∈ r, ValidAV c a) ∧ r.map AV.value = vs) := by
  cases op with
  | assign v =>
    simp [Op.map, Op.value] at hv; subst hv
    exact (CSpec.ret1 (CSpec.assign v)).mono (by simp [Op.args]) (fun _ _ h => h)
  | constant v =>
    simp [Op.map, Op.value] at hv; subst hv
    exact (CSpec.ret1 (CSpec.assignConstant v)).mono (by simp [Op.args]) (fun _ _ h => h)
  | sum l k =>
    simp [Op.map, Op.value] at hv; subst hv
    refine (CSpec.ret1 (CSpec.sumWithConstant l k)).mono ?_ ?_
    · intro c h; simpa [Op.args] using h
    · intro c r h; simpa [hsum, Function.comp_def] using h
  | add a b =>
    simp [Op.map, Op.value] at hv; subst hv
    refine (CSpec.ret1 (CSpec.sumWithConstant [(a, 1), (b, 1)] 0)).mono ?_ ?_
    · intro c h; simpa [Op.args] using h
    · intro c r h; simpa [hsum] using h
  | addConstant a k =>
    simp [Op.map, Op.value] at hv; subst hv
    refine (CSpec.ret1 (CSpec.sumWithConstant [(a, 1)] k)).mono ?_ ?_
    · intro c h; simpa [Op.args] using h
    · intro c r h; simpa [hsum, add_comm] using h
  | sub a b =>
    simp [Op.map, Op.value] at hv; subst hv
    refine (CSpec.ret1 (CSpec.sumWithConstant [(a, 1), (b, -1)] 0)).mono ?_ ?_
    · intro c h; simpa [Op.args] using h
    · intro c r h; simpa [hsum, sub_eq_add_neg] using h
  | mul a b =>
    simp [Op.map, Op.value] at hv; subst hv
    exact (CSpec.ret1 (CSpec.mul a b)).mono (by simp [Op.args]) (fun _ _ h => h)
  | mulAddConstant a b k =>
    simp [Op.map, Op.value] at hv; subst hv
    exact (CSpec.ret1 (CSpec.mulAddConstant a b k)).mono (by simp [Op.args]) (fun _ _ h => h)
  | mulAdd a b c k =>
    simp [Op.map, Op.value] at hv; subst hv
    exact (CSpec.ret1 (CSpec.mulAdd a b c k)).mono (by simp [Op.args]) (fun _ _ h => h)
  | mulAdd2 a b c k d l =>
    simp [Op.map, Op.value] at hv; subst hv
    exact (CSpec.ret1 (CSpec.mulAdd2 a b c k d l)).mono (by simp [Op.args]) (fun _ _ h => h)
  | mulAddNext l =>
    simp only [Op.map, Op.value, List.map_eq_nil_iff] at hv
    split at hv
    · cases hv
    · next hl =>
      rw [← hterms_eq] at hv
      simp only [Option.some.injEq] at hv
      subst hv
      refine (CSpec.ret1 (CSpec.mulAddWithNextLine (l.map fun p => ⟨p.1, p.2.1, p.2.2.1, p.2.2.2⟩)
        (by simpa using hl))).mono ?_ (fun _ _ h => h)
      intro c h
      simp only [Op.args, List.mem_flatMap] at h
      simp only [List.mem_map]
      rintro x ⟨p, hp, rfl⟩
      exact ⟨h _ ⟨p, hp, by simp⟩, h _ ⟨p, hp, by simp⟩, h _ ⟨p, hp, by simp⟩⟩
  | invertUnsafe a =>
    simp only [Op.map, Op.value] at hv
    split at hv
    · cases hv
    · next h0 =>
      simp only [Option.some.injEq] at hv; subst hv
      exact (CSpec.ret1 (CSpec.invertUnsafe a h0)).mono (by simp [Op.args]) (fun _ _ h => h)
  | invert a =>
    simp [Op.map, Op.value] at hv; subst hv
    refine (CSpec.invert a).bind (P2 := fun x c => ValidAV c x.1 ∧ ValidAV c x.2 ∧
      x.1.value = zeroFlag a.value ∧ x.2.value = a.value⁻¹) (fun x => (CSpec.pure _ _).mono (fun _ h => h)
      ?_) (fun _ _ _ _ _ h => h) |>.mono (by simp [Op.args]) (fun _ _ h => h)
    rintro c r ⟨⟨h1, h2, h3, h4⟩, rfl⟩
    simp [h1, h2, h3, h4, zeroFlag]
  | isZero a =>
    simp [Op.map, Op.value] at hv; subst hv
    exact (CSpec.ret1 (CSpec.isZero a)).mono (by simp [Op.args]) (fun _ _ h => h)
  | divUnsafe a b =>
    simp only [Op.map, Op.value] at hv
    split at hv
    · cases hv
    · next h0 =>
      simp only [Option.some.injEq] at hv; subst hv
      exact (CSpec.ret1 (CSpec.divUnsafe a b h0)).mono (by simp [Op.args]) (fun _ _ h => h)
  | and a b =>
    simp [Op.map, Op.value] at hv; subst hv
    exact (CSpec.ret1 (CSpec.mul a b)).mono (by simp [Op.args]) (fun _ _ h => h)
  | or a b =>
    simp [Op.map, Op.value] at hv; subst hv
    exact (CSpec.ret1 (CSpec.or a b)).mono (by simp [Op.args]) (fun _ _ h => h)
  | xor a b =>
    simp [Op.map, Op.value] at hv; subst hv
    exact (CSpec.ret1 (CSpec.xor a b)).mono (by simp [Op.args]) (fun _ _ h => h)
  | xnor a b =>
    simp [Op.map, Op.value] at hv; subst hv
    exact (CSpec.ret1 (CSpec.xnor a b)).mono (by simp [Op.args]) (fun _ _ h => h)
  | not a =>
    simp [Op.map, Op.value] at hv; subst hv
    refine (CSpec.ret1 (CSpec.sumWithConstant [(a, -1)] 1)).mono ?_ ?_
    · intro c h; simpa [Op.args] using h
    · intro c r h; simpa [hsum, sub_eq_add_neg] using h
  | bisec k a b =>
    simp [Op.map, Op.value] at hv; subst hv
    exact (CSpec.ret1 (CSpec.bisec k a b)).mono (by simp [Op.args]) (fun _ _ h => h)
  | bisecCond k a b =>
    simp [Op.map, Op.value] at hv; subst hv
    exact (CSpec.ret1 (CSpec.bisec k a b)).mono (by simp [Op.args]) (fun _ _ h => h)
  | assertEqual a b =>
    simp [Op.map, Op.value] at hv; subst hv
    exact (CSpec.ret0 (CSpec.assertEqual a b hc)).mono (by simp [Op.args]) (fun _ _ h => h)
  | assertConstant a k =>
    simp [Op.map, Op.value] at hv; subst hv
    exact (CSpec.ret0 (CSpec.assertConstant a k hc)).mono (by simp [Op.args]) (fun _ _ h => h)
  | assertBit a =>
    simp [Op.map, Op.value] at hv; subst hv
    exact (CSpec.ret0 (CSpec.assertBit a hc)).mono (by simp [Op.args]) (fun _ _ h => h)
  | assertTrue a =>
    simp [Op.map, Op.value] at hv; subst hv
    exact (CSpec.ret0 (CSpec.assertConstant a 1 hc)).mono (by simp [Op.args]) (fun _ _ h => h)
  | assertFalse a =>
    simp [Op.map, Op.value] at hv; subst hv
    exact (CSpec.ret0 (CSpec.assertConstant a 0 hc)).mono (by simp [Op.args]) (fun _ _ h => h)

namespace Op
variable {ι κ : Type}
theorem args_map (f : ι → κ) (op : Op F ι) : (op.map f).args = op.args.map f := by
  cases op <;> simp [map, args, Function.comp_def, List.flatMap_map, List.map_flatMap]
end Op

theorem CSpec.runProg (ops : List (Op F ℕ)) : ∀ (env : List (AV F)) (out : List F),
    progValue ops (env.map AV.value) = some out → progClaims ops (env.map AV.value) →
    CSpec t (runProg ops env) (fun c => ∀ a ∈ env, ValidAV c a)
      (fun c r => (∀ a ∈ r, ValidAV c a) ∧ r.map AV.value = out) := by
  induction ops with
  | nil =>
    intro env out hv _
    simp only [progValue, Option.some.injEq] at hv
    exact (CSpec.pure env _).mono (fun _ h => h) (by rintro c r ⟨h, rfl⟩; exact ⟨h, hv⟩)
  | cons op ops ih =>
    intro env out hv hc
    unfold Circuit.runProg
    simp only [progValue, List.length_map] at hv
    split at hv
    · next hargs =>
      refine CSpec.assertM _ hargs ?_
      simp only [Option.bind_eq_bind, Option.bind_eq_some_iff] at hv
      obtain ⟨new, h1, h2⟩ := hv
      have h3 := hc.2 new h1
      have h4 := hc.1
      rw [← map_getD ⟨⟨0, 0⟩, 0⟩ AV.value hargs] at h1 h4
      have hval : ∀ c : Ctx F, (∀ a ∈ env, ValidAV c a) →
          ∀ a ∈ (op.map fun i => env.getD i ⟨⟨0, 0⟩, 0⟩).args, ValidAV c a := by
        intro c h a ha
        rw [Op.args_map, List.mem_map] at ha
        obtain ⟨i, hi, rfl⟩ := ha
        have := hargs i hi
        have he : env.getD i ⟨⟨0, 0⟩, 0⟩ = env[i] := by simp [List.getD, this]
        rw [he]
        exact h _ (List.getElem_mem _)
      constructor
      intro ctx hg hp
      obtain ⟨r, c1, k1, k2, k3, k4, k5⟩ := (CSpec.opRun _ _ h1 h4).run ctx hg (hval ctx hp)
      obtain ⟨r', c2, l1, l2, l3, l4⟩ := (ih (env ++ r) out (by simpa [k5] using h2)
        (by simpa [k5] using h3)).run c1 k2 (by
          intro a ha
          rcases List.mem_append.1 ha with ha | ha
          · exact (hp a ha).ext k3
          · exact k4 a ha)
      refine ⟨r', c2, ?_, l2, k3.trans l3, l4⟩
      simp only [Bind.bind, StateT.bind, Option.bind_eq_some_iff]
      exact ⟨(r, c1), k1, l1⟩
    · cases hv

/-! ### When calls panic -/

omit [DecidableEq F] in
theorem sumLoop_total (elems : List (AV F × F)) : ∀ (acc constant : F) (ctx : Ctx F),
    ∃ r ctx', sumLoop acc elems constant ctx = some (r, ctx') ∧
      r.value = constant + hsum elems + acc := by
  induction hn : elems.length using Nat.strong_induction_on generalizing elems with
  | _ n ih =>
    intro acc constant ctx
    rw [sumLoop.eq_1]
    split
    · next hlen =>
      obtain ⟨a, b, c, d, htake⟩ := list_len4 (l := elems.take 4) (by simp; omega)
      have hrun : ∃ r ctx1, oneLineWithLastBase (assignedPairs [a, b, c, d]) (.unassigned acc, 1) 0 []
          (-1) ctx = some (r, ctx1) := by
        simp [oneLineWithLastBase_eq, assignedPairs, resizePairs, oneLine, oneLineSel]
      obtain ⟨r, ctx1, h1⟩ := hrun
      obtain ⟨r', ctx', k1, k2⟩ := ih (elems.drop 4).length (by simp; omega) (elems.drop 4) rfl
        (acc + honestSum 0 [a, b, c, d]) constant ctx1
      refine ⟨r', ctx', ?_, ?_⟩
      · simp only [Bind.bind, StateT.bind, Option.bind_eq_some_iff, htake]
        exact ⟨_, h1, k1⟩
      · rw [k2]
        conv_rhs => rw [← List.take_append_drop 4 elems, hsum_append, htake]
        rw [honestSum_eq]
        ring
    · next hlen =>
      have h5 : (resizePairs 4 ((Schema.unassigned (honestSum constant elems + acc), -1) ::
          assignedPairs elems) ++ [(Schema.unassigned acc, (1 : F))]).length ≤ 5 := by
        simp [resizePairs, assignedPairs]; omega
      have h4 : ((Schema.unassigned (honestSum constant elems + acc), (-1 : F)) ::
          assignedPairs elems).length < 5 := by simp [assignedPairs]; omega
      simp only [Bind.bind, StateT.bind, oneLineWithLastBase_eq h4, oneLine, oneLineSel, h5,
        List.length_nil, Nat.zero_le, and_self, if_true, Option.bind_some, Pure.pure, StateT.pure,
        Option.some.injEq, Prod.mk.injEq, exists_and_left, exists_eq', and_true]
      refine ⟨_, _, ⟨rfl, rfl⟩, ?_⟩
      simp [resizePairs, Schema.value, honestSum_eq]

omit [DecidableEq F] in
theorem sumWithConstant_total (elems : List (AV F × F)) (constant : F) (ctx : Ctx F) :
    ∃ r ctx', sumWithConstant elems constant ctx = some (r, ctx') ∧
      r.value = constant + hsum elems := by
  unfold Circuit.sumWithConstant
  split
  · next hlen =>
    obtain ⟨a, b, c, d, e, htake⟩ := list_len5 (l := elems.take 5) (by simp; omega)
    have hrun : ∃ r ctx1, oneLine (assignedPairs [a, b, c, d, e]) 0 [] (-1) ctx = some (r, ctx1) := by
      simp [assignedPairs, oneLine, oneLineSel]
    obtain ⟨r, ctx1, h1⟩ := hrun
    obtain ⟨r', ctx', k1, k2⟩ := sumLoop_total (elems.drop 5) (0 + honestSum 0 [a, b, c, d, e])
      constant ctx1
    refine ⟨r', ctx', ?_, ?_⟩
    · simp only [Bind.bind, StateT.bind, Option.bind_eq_some_iff, htake]
      exact ⟨_, h1, k1⟩
    · rw [k2]
      conv_rhs => rw [← List.take_append_drop 5 elems, hsum_append, htake]
      rw [honestSum_eq]
      ring
  · next hlen =>
    have h4 : ((Schema.unassigned (honestSum constant elems + 0), (-1 : F)) ::
        assignedPairs elems).length ≤ 5 := by simp [assignedPairs]; omega
    simp only [Bind.bind, StateT.bind, oneLine, oneLineSel, h4,
      List.length_nil, Nat.zero_le, and_self, if_true, Option.bind_some, Pure.pure, StateT.pure,
      Option.some.injEq, Prod.mk.injEq, exists_and_left, exists_eq', and_true]
    refine ⟨_, _, ⟨rfl, rfl⟩, ?_⟩
    simp [Schema.value, honestSum_eq]

omit [DecidableEq F] in
theorem mulAddFold_total (l : List (MulTerm F)) : ∀ (acc : AV F) (ctx : Ctx F),
    ∃ r ctx', mulAddFold acc l ctx = some (r, ctx') ∧ r.value = acc.value + hterms l := by
  induction l with
  | nil => intro acc ctx; exact ⟨acc, ctx, rfl, by simp [hterms]⟩
  | cons x l ih =>
    intro acc ctx
    have h1 : ∃ r c1, mulAdd2 x.a x.b x.c x.coeff acc 1 ctx = some (r, c1) ∧
        r.value = x.a.value * x.b.value + x.c.value * x.coeff + acc.value * 1 := by
      refine ⟨_, _, rfl, ?_⟩
      simp [Schema.value]
    obtain ⟨r, c1, h1, h2⟩ := h1
    obtain ⟨r', c2, k1, k2⟩ := ih r c1
    refine ⟨r', c2, ?_, ?_⟩
    · unfold mulAddFold
      simp only [Bind.bind, StateT.bind, Option.bind_eq_some_iff]
      exact ⟨_, h1, k1⟩
    · rw [k2, h2]
      simp only [hterms, List.map_cons, List.sum_cons]
      ring

omit [DecidableEq F] in
theorem ret1_total {m : M F (AV F)} {v : F} {ctx : Ctx F}
    (h : ∃ r ctx', m ctx = some (r, ctx') ∧ r.value = v) :
    ∃ r ctx', (m >>= fun x => (Pure.pure [x] : M F _)) ctx = some (r, ctx') ∧ r.map AV.value = [v] := by
  obtain ⟨r, c, h1, h2⟩ := h
  refine ⟨[r], c, ?_, by simp [h2]⟩
  simp only [Bind.bind, StateT.bind, Option.bind_eq_some_iff]
  exact ⟨_, h1, rfl⟩

/-- Whatever the circuit so far: a call whose direct evaluation succeeds does not panic, and hands back
cells carrying the directly evaluated values. -/
theorem opRun_total (op : Op F (AV F)) (vs : List F) (hv : Op.value (op.map AV.value) = some vs)
    (ctx : Ctx F) : ∃ r ctx', op.run ctx = some (r, ctx') ∧ r.map AV.value = vs := by
  cases op with
  | sum l k =>
    simp [Op.map, Op.value] at hv; subst hv
    refine ret1_total (by simpa [hsum, Function.comp_def] using sumWithConstant_total l k ctx)
  | add a b =>
    simp [Op.map, Op.value] at hv; subst hv
    exact ret1_total (by simpa [hsum, Circuit.add] using sumWithConstant_total [(a, 1), (b, 1)] 0 ctx)
  | addConstant a k =>
    simp [Op.map, Op.value] at hv; subst hv
    exact ret1_total (by simpa [hsum, add_comm, Circuit.addConstant] using sumWithConstant_total [(a, 1)] k ctx)
  | sub a b =>
    simp [Op.map, Op.value] at hv; subst hv
    exact ret1_total (by
      simpa [hsum, sub_eq_add_neg, Circuit.sub] using sumWithConstant_total [(a, 1), (b, -1)] 0 ctx)
  | not a =>
    simp [Op.map, Op.value] at hv; subst hv
    exact ret1_total (by simpa [hsum, sub_eq_add_neg, Circuit.not] using sumWithConstant_total [(a, -1)] 1 ctx)
  | mulAddNext l =>
    cases l with
    | nil => simp [Op.map, Op.value] at hv
    | cons p l =>
      simp only [Op.map, Op.value, List.map_eq_nil_iff, reduceCtorEq, if_false] at hv
      rw [← hterms_eq] at hv
      simp only [Option.some.injEq] at hv
      subst hv
      refine ret1_total ?_
      have h1 : ∃ r c1, Circuit.mulAdd p.1 p.2.1 p.2.2.1 p.2.2.2 ctx = some (r, c1) ∧
          r.value = p.1.value * p.2.1.value + p.2.2.1.value * p.2.2.2 := by
        refine ⟨_, _, rfl, ?_⟩
        simp [Schema.value]
      obtain ⟨r, c1, h1, h2⟩ := h1
      obtain ⟨r', c2, k1, k2⟩ := mulAddFold_total (l.map fun p => ⟨p.1, p.2.1, p.2.2.1, p.2.2.2⟩) r c1
      refine ⟨r', c2, ?_, ?_⟩
      · simp only [List.map_cons, Circuit.mulAddWithNextLine, Bind.bind, StateT.bind,
          Option.bind_eq_some_iff]
        exact ⟨_, h1, k1⟩
      · rw [k2, h2]
        simp only [hterms, List.map_cons, List.sum_cons]
        ring
  | invertUnsafe a =>
    simp only [Op.map, Op.value] at hv
    split at hv
    · cases hv
    · next h0 =>
      simp only [Option.some.injEq] at hv; subst hv
      refine ret1_total ?_
      simp [Circuit.invertUnsafe, Circuit.assertM, h0, Bind.bind, StateT.bind, oneLine, oneLineSel,
        Pure.pure, StateT.pure, Schema.value]
  | divUnsafe a b =>
    simp only [Op.map, Op.value] at hv
    split at hv
    · cases hv
    · next h0 =>
      simp only [Option.some.injEq] at hv; subst hv
      refine ret1_total ?_
      simp [Circuit.divUnsafe, Circuit.assertM, h0, Bind.bind, StateT.bind, oneLine, oneLineSel,
        Pure.pure, StateT.pure, Schema.value, div_eq_mul_inv, mul_comm]
  | invert a =>
    simp [Op.map, Op.value] at hv; subst hv
    refine ⟨_, _, rfl, ?_⟩
    by_cases h : a.value = 0 <;> simp [Schema.value, h]
  | isZero a =>
    simp [Op.map, Op.value] at hv; subst hv
    refine ⟨_, _, rfl, ?_⟩
    by_cases h : a.value = 0 <;> simp [Schema.value, h]
  | xor a b =>
    simp [Op.map, Op.value] at hv; subst hv
    refine ⟨_, _, rfl, ?_⟩
    simp [Schema.value]; ring
  | xnor a b =>
    simp [Op.map, Op.value] at hv; subst hv
    refine ⟨_, _, rfl, ?_⟩
    simp [Schema.value]; ring
  | mulAdd a b c k =>
    simp [Op.map, Op.value] at hv; subst hv
    refine ⟨_, _, rfl, ?_⟩
    simp [Schema.value]; ring
  | mulAdd2 a b c k d l =>
    simp [Op.map, Op.value] at hv; subst hv
    refine ⟨_, _, rfl, ?_⟩
    simp [Schema.value]; ring
  | _ =>
    simp [Op.map, Op.value] at hv; subst hv
    refine ⟨_, _, rfl, ?_⟩
    simp [Schema.value]

theorem runProg_total (ops : List (Op F ℕ)) : ∀ (env : List (AV F)) (out : List F),
    progValue ops (env.map AV.value) = some out → ∀ ctx : Ctx F,
      ∃ r ctx', runProg ops env ctx = some (r, ctx') ∧ r.map AV.value = out := by
  induction ops with
  | nil =>
    intro env out hv ctx
    simp only [progValue, Option.some.injEq] at hv
    exact ⟨env, ctx, rfl, hv⟩
  | cons op ops ih =>
    intro env out hv ctx
    simp only [progValue, List.length_map] at hv
    split at hv
    · next hargs =>
      simp only [Option.bind_eq_bind, Option.bind_eq_some_iff] at hv
      obtain ⟨new, h1, h2⟩ := hv
      rw [← map_getD ⟨⟨0, 0⟩, 0⟩ AV.value hargs] at h1
      obtain ⟨r, c1, k1, k2⟩ := opRun_total _ _ h1 ctx
      obtain ⟨r', c2, l1, l2⟩ := ih (env ++ r) out (by simpa [k2] using h2) c1
      refine ⟨r', c2, ?_, l2⟩
      simp only [runProg, Bind.bind, StateT.bind, Option.bind_eq_some_iff, Circuit.assertM]
      refine ⟨((), ctx), by simpa using hargs, (r, c1), k1, l1⟩
    · cases hv

theorem opRun_none (op : Op F (AV F)) (hv : Op.value (op.map AV.value) = none) (ctx : Ctx F) :
    op.run ctx = none := by
  cases op with
  | mulAddNext l =>
    cases l with
    | nil => rfl
    | cons p l => simp [Op.map, Op.value] at hv
  | invertUnsafe a =>
    have h0 : a.value = 0 := by simpa [Op.map, Op.value] using hv
    simp [Op.run, Circuit.invertUnsafe, Circuit.assertM, h0, Bind.bind, StateT.bind]
  | divUnsafe a b =>
    have h0 : b.value = 0 := by simpa [Op.map, Op.value] using hv
    simp [Op.run, Circuit.divUnsafe, Circuit.assertM, h0, Bind.bind, StateT.bind]
  | _ => simp [Op.map, Op.value] at hv

theorem runProg_none (ops : List (Op F ℕ)) : ∀ (env : List (AV F)),
    progValue ops (env.map AV.value) = none → ∀ ctx : Ctx F, runProg ops env ctx = none := by
  induction ops with
  | nil => intro env hv; cases hv
  | cons op ops ih =>
    intro env hv ctx
    simp only [progValue, List.length_map] at hv
    unfold runProg
    split at hv
    · next hargs =>
      have hass : (Circuit.assertM (∀ i ∈ op.args, i < env.length) : M F Unit) ctx = some ((), ctx) := by
        simpa [Circuit.assertM] using hargs
      simp only [Bind.bind, StateT.bind, hass, Option.bind_some]
      cases h1 : Op.value (op.map fun i => (env.map AV.value).getD i 0) with
      | none =>
        rw [← map_getD ⟨⟨0, 0⟩, 0⟩ AV.value hargs] at h1
        rw [opRun_none _ h1]
        rfl
      | some new =>
        rw [h1] at hv
        rw [← map_getD ⟨⟨0, 0⟩, 0⟩ AV.value hargs] at h1
        obtain ⟨r, c1, k1, k2⟩ := opRun_total _ _ h1 ctx
        rw [k1]
        simp only [Option.bind_some]
        exact ih _ (by simpa [k2] using hv) c1
    · next hargs =>
      have hass : (Circuit.assertM (∀ i ∈ op.args, i < env.length) : M F Unit) ctx = none := by
        simpa [Circuit.assertM] using hargs
      simp only [Bind.bind, StateT.bind, hass, Option.bind_none]

end Verif.Circuit
