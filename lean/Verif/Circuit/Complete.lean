import Verif.Circuit.BaseSound

/-!
# Completeness logic (helper lemmas)

`Good t ctx`: the recorded honest advice satisfies the circuit, whatever is written in later rows.
`CSpec t m pre post`: started from a good context satisfying `pre`, the computation does not panic, ends
in a good context, keeps earlier advice, and establishes `post`.
-/

set_option linter.unusedSimpArgs false

namespace Verif.Circuit

variable {F : Type} [Field F] {t : Tables} {α β : Type}

/-- `adv` equals the honest advice on all rows written so far. -/
def Agree (ctx : Ctx F) (adv : Advice F) : Prop := ∀ r, r < ctx.offset → adv r = ctx.wit r

/-- The honest advice satisfies the circuit, provided the next row's last cell is `acc`. -/
def GoodP (t : Tables) (ctx : Ctx F) (acc : F) : Prop :=
  ∀ adv, Agree ctx adv → adv ctx.offset 4 = acc → Sat t ctx adv

/-- The honest advice satisfies the circuit, whatever follows. -/
def Good (t : Tables) (ctx : Ctx F) : Prop := ∀ adv, Agree ctx adv → Sat t ctx adv

/-- The handle carries the honest value of an already written cell. -/
def ValidAV (ctx : Ctx F) (a : AV F) : Prop :=
  a.cell.row < ctx.offset ∧ ctx.wit a.cell.row a.cell.col = a.value

/-- The later context extends the earlier one without changing honest advice. -/
def Ext (ctx ctx' : Ctx F) : Prop :=
  ctx.offset ≤ ctx'.offset ∧ ∀ r, r < ctx.offset → ctx'.wit r = ctx.wit r

omit [Field F] in
theorem Ext.refl (ctx : Ctx F) : Ext ctx ctx := ⟨le_rfl, fun _ _ => rfl⟩

omit [Field F] in
theorem Ext.trans {a b c : Ctx F} (h1 : Ext a b) (h2 : Ext b c) : Ext a c :=
  ⟨h1.1.trans h2.1, fun r hr => (h2.2 r (hr.trans_le h1.1)).trans (h1.2 r hr)⟩

omit [Field F] in
theorem ValidAV.ext {ctx ctx' : Ctx F} {a : AV F} (h : ValidAV ctx a) (he : Ext ctx ctx') :
    ValidAV ctx' a := ⟨h.1.trans_le he.1, by rw [he.2 _ h.1]; exact h.2⟩

omit [Field F] in
theorem Agree.ext {ctx ctx' : Ctx F} {adv : Advice F} (h : Agree ctx' adv) (he : Ext ctx ctx') :
    Agree ctx adv := fun r hr => (h r (hr.trans_le he.1)).trans (he.2 r hr)

theorem Good.pend {ctx : Ctx F} (h : Good t ctx) (acc : F) : GoodP t ctx acc :=
  fun adv ha _ => h adv ha

/-- A schema refers to a valid handle (or is a fresh value). -/
def ValidSchema (ctx : Ctx F) : Schema F → Prop
  | .assigned a => ValidAV ctx a
  | .unassigned _ => True

/-- Honest value in column `j` of a row built from `ps`. -/
def lineVal (ps : List (Schema F × F)) (j : Fin 5) : F := (ps.getD j (.unassigned 0, 0)).1.value

theorem copyOf_sat {ctx : Ctx F} {ps : List (Schema F × F)} {adv : Advice F} {j : Fin 5}
    (hv : ∀ p ∈ ps, ValidSchema ctx p.1) (hadv : Agree ctx adv)
    (hrow : adv ctx.offset j = lineVal ps j) :
    ∀ p ∈ copyOf ctx.offset ps j, adv.at p.1 = adv.at p.2 := by
  intro p hp
  unfold copyOf at hp
  split at hp
  · next a ha =>
    simp only [List.mem_singleton] at hp
    subst hp
    unfold lineVal at hrow
    rw [ha] at hrow
    have hmem : ∃ c, (Schema.assigned a, c) ∈ ps := by
      rw [List.getD_eq_getElem?_getD] at ha
      cases hx : ps[(j : ℕ)]? with
      | none => rw [hx] at ha; simp at ha
      | some q =>
        rw [hx] at ha
        simp only [Option.getD_some] at ha
        exact ⟨q.2, by rw [← ha]; exact List.mem_of_getElem? hx⟩
    obtain ⟨c, hc⟩ := hmem
    have hva : ValidAV ctx a := hv _ hc
    simp only [Advice.at]
    rw [hrow, hadv _ hva.1]
    exact hva.2
  · simp at hp

theorem oneLineSel_complete {sel : Sel} {ps : List (Schema F × F)} {const : F} {mul : List F} {next : F}
    {ctx : Ctx F} {acc acc' : F} (hg : GoodP t ctx acc) (hacc : lineVal ps 4 = acc ∨ Good t ctx)
    (hlen : ps.length ≤ 5) (hmul : mul.length ≤ 2) (hv : ∀ p ∈ ps, ValidSchema ctx p.1)
    (heq : ∀ nxt : Fin 5 → F, nxt 4 = acc' →
      gateEval (mkRow sel ps const mul next) (lineVal ps) nxt = 0)
    (hlook : lookupsHold t (mkRow sel ps const mul next) (lineVal ps)) :
    ∃ r ctx', oneLineSel sel ps const mul next ctx = some (r, ctx') ∧ GoodP t ctx' acc' ∧
      (next = 0 → Good t ctx') ∧ Ext ctx ctx' ∧
      ctx'.offset = ctx.offset + 1 ∧
      ∀ j, ValidAV ctx' (r j) ∧ (r j).value = lineVal ps j := by
  have hag : ∀ adv : Advice F, (∀ r, r < ctx.offset + 1 → adv r =
      Function.update ctx.wit ctx.offset (lineVal ps) r) →
      Agree ctx adv ∧ adv ctx.offset = lineVal ps := by
    intro adv h
    refine ⟨fun r hr => ?_, ?_⟩
    · rw [h r (by omega), Function.update_of_ne (by omega)]
    · rw [h _ (by omega), Function.update_self]
  have hold : ∀ adv, Agree ctx adv → adv ctx.offset = lineVal ps → Sat t ctx adv := by
    intro adv ha hrow
    rcases hacc with h | h
    · exact hg adv ha (by rw [hrow, h])
    · exact h adv ha
  have hsat : ∀ adv : Advice F, (∀ r, r < ctx.offset + 1 → adv r =
      Function.update ctx.wit ctx.offset (lineVal ps) r) →
      gateEval (mkRow sel ps const mul next) (lineVal ps) (adv (ctx.offset + 1)) = 0 →
      Sat t { offset := ctx.offset + 1
              rows := (ctx.offset, mkRow sel ps const mul next) :: ctx.rows
              copies := copyOf ctx.offset ps 0 ++ (copyOf ctx.offset ps 1 ++ (copyOf ctx.offset ps 2 ++
                (copyOf ctx.offset ps 3 ++ (copyOf ctx.offset ps 4 ++ ctx.copies))))
              wit := Function.update ctx.wit ctx.offset (lineVal ps) } adv := by
    intro adv ha hgate
    obtain ⟨ha', hrow⟩ := hag adv ha
    have hs := hold adv ha' hrow
    refine ⟨?_, ?_⟩
    · simp only [List.forall_mem_cons]
      refine ⟨⟨?_, ?_⟩, hs.1⟩
      · rw [hrow]; exact hgate
      · rw [hrow]; exact hlook
    · simp only [List.forall_mem_append]
      exact ⟨copyOf_sat hv ha' (by rw [hrow]), copyOf_sat hv ha' (by rw [hrow]),
        copyOf_sat hv ha' (by rw [hrow]), copyOf_sat hv ha' (by rw [hrow]),
        copyOf_sat hv ha' (by rw [hrow]), hs.2⟩
  refine ⟨fun j => ⟨⟨ctx.offset, j⟩, lineVal ps j⟩,
    { offset := ctx.offset + 1
      rows := (ctx.offset, mkRow sel ps const mul next) :: ctx.rows
      copies := copyOf ctx.offset ps 0 ++ (copyOf ctx.offset ps 1 ++ (copyOf ctx.offset ps 2 ++
        (copyOf ctx.offset ps 3 ++ (copyOf ctx.offset ps 4 ++ ctx.copies))))
      wit := Function.update ctx.wit ctx.offset (lineVal ps) }, ?_, ?_, ?_, ?_, ?_, ?_⟩
  · unfold oneLineSel
    rw [if_pos ⟨hlen, hmul⟩]
    rfl
  · intro adv ha hn
    exact hsat adv ha (heq _ hn)
  · intro hn adv ha
    refine hsat adv ha ?_
    have := heq (fun _ => acc') rfl
    subst hn
    simpa [gateEval, mkRow] using this
  · refine ⟨by simp, fun r hr => ?_⟩
    simp only
    rw [Function.update_of_ne (by omega)]
  · rfl
  · intro j
    refine ⟨⟨by simp, ?_⟩, rfl⟩
    simp

/-- Completeness triple. -/
structure CSpec (t : Tables) (m : M F α) (pre : Ctx F → Prop) (post : Ctx F → α → Prop) : Prop where
  run : ∀ ctx, Good t ctx → pre ctx →
    ∃ r ctx', m ctx = some (r, ctx') ∧ Good t ctx' ∧ Ext ctx ctx' ∧ post ctx' r

theorem CSpec.mono {m : M F α} {P P' : Ctx F → Prop} {Q Q' : Ctx F → α → Prop} (h : CSpec t m P Q)
    (hp : ∀ c, P' c → P c) (hq : ∀ c r, Q c r → Q' c r) : CSpec t m P' Q' := by
  constructor
  intro ctx hg hpre
  obtain ⟨r, c', h1, h2, h3, h4⟩ := h.run ctx hg (hp _ hpre)
  exact ⟨r, c', h1, h2, h3, hq _ _ h4⟩

theorem CSpec.bind {m : M F α} {k : α → M F β} {P : Ctx F → Prop} {Q : Ctx F → α → Prop}
    {R : Ctx F → β → Prop} {P2 : α → Ctx F → Prop}
    (hm : CSpec t m P Q) (hk : ∀ a, CSpec t (k a) (P2 a) R)
    (hpq : ∀ c c' a, P c → Ext c c' → Q c' a → P2 a c') : CSpec t (m >>= k) P R := by
  constructor
  intro ctx hg hpre
  obtain ⟨a, c1, h1, h2, h3, h4⟩ := hm.run ctx hg hpre
  obtain ⟨b, c2, k1, k2, k3, k4⟩ := (hk a).run c1 h2 (hpq _ _ _ hpre h3 h4)
  refine ⟨b, c2, ?_, k2, h3.trans k3, k4⟩
  simp only [Bind.bind, StateT.bind, Option.bind_eq_some_iff]
  exact ⟨(a, c1), h1, k1⟩

theorem CSpec.pure (a : α) (P : Ctx F → Prop) : CSpec t (Pure.pure a : M F α) P (fun c r => P c ∧ r = a) := by
  constructor
  intro ctx hg hp
  exact ⟨a, ctx, rfl, hg, Ext.refl _, hp, rfl⟩

/-- A single row with `next = 0` whose gate equation and lookups hold on honest values. -/
theorem CSpec.oneLineSel (sel : Sel) (ps : List (Schema F × F)) (const : F) (mul : List F)
    (hlen : ps.length ≤ 5) (hmul : mul.length ≤ 2)
    (heq : gateEval (mkRow sel ps const mul 0) (lineVal ps) (fun _ => 0) = 0)
    (hlook : lookupsHold t (mkRow sel ps const mul 0) (lineVal ps)) :
    CSpec t (oneLineSel sel ps const mul 0) (fun ctx => ∀ p ∈ ps, ValidSchema ctx p.1)
      (fun ctx r => ∀ j, ValidAV ctx (r j) ∧ (r j).value = lineVal ps j) := by
  constructor
  intro ctx hg hv
  obtain ⟨r, c', h1, _, h3, h4, _, h6⟩ := oneLineSel_complete (t := t) (sel := sel) (ps := ps)
    (const := const) (mul := mul) (next := 0) (acc := 0) (acc' := 0) (hg.pend 0) (Or.inr hg) hlen hmul hv
    (by intro nxt _; simpa [gateEval, mkRow] using heq) hlook
  exact ⟨r, c', h1, h3 rfl, h4, h6⟩

theorem lookupsHold_none (row : Row F) (cur : Fin 5 → F) (h1 : row.common = false)
    (h2 : row.wLead = false) (h3 : row.nLead = false) (h4 : row.dLead = false) :
    lookupsHold t row cur := by
  simp [lookupsHold, h1, h2, h3, h4]

theorem CSpec.oneLine (ps : List (Schema F × F)) (const : F) (mul : List F)
    (hlen : ps.length ≤ 5) (hmul : mul.length ≤ 2)
    (heq : gateEval (mkRow {} ps const mul 0) (lineVal ps) (fun _ => 0) = 0) :
    CSpec t (oneLine ps const mul 0) (fun ctx => ∀ p ∈ ps, ValidSchema ctx p.1)
      (fun ctx r => ∀ j, ValidAV ctx (r j) ∧ (r j).value = lineVal ps j) :=
  CSpec.oneLineSel {} ps const mul hlen hmul heq (lookupsHold_none _ _ rfl rfl rfl rfl)

/-- Return one cell of a line. -/
theorem CSpec.cell {m : M F (Fin 5 → AV F)} {P : Ctx F → Prop} {f : Fin 5 → F} (j : Fin 5) {v : F}
    (h : CSpec t m P (fun ctx r => ∀ j, ValidAV ctx (r j) ∧ (r j).value = f j)) (hv : f j = v) :
    CSpec t (m >>= fun cells => Pure.pure (cells j)) P
      (fun ctx r => ValidAV ctx r ∧ r.value = v) := by
  refine h.bind (P2 := fun a c => ∀ j, ValidAV c (a j) ∧ (a j).value = f j)
    (fun a => (CSpec.pure _ _).mono (fun _ h => h) ?_) (fun _ _ _ _ _ h => h)
  rintro c r ⟨h1, rfl⟩
  exact ⟨(h1 j).1, by rw [(h1 j).2, hv]⟩

end Verif.Circuit
