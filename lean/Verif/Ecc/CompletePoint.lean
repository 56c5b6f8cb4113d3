import Verif.Ecc.CompleteShamir

/-!
# Completeness of multiplication of a constant and of the assignment of points
-/

set_option exponentiation.threshold 600

namespace Verif.Circuit

open Verif.Ecc

theorem constLoop_curv {id : APt} : ∀ {ws : List (List (AV N))} {base : Pt} {acc r : APt} {c c' : Ctx N},
    Circuit.constLoop id ws base acc c = some (r, c') → ws ≠ [] → r.curv = none
  | [], _, _, _, _, _, _, h => absurd rfl h
  | bits :: ws, base, acc, r, c, c', h, _ => by
    unfold Circuit.constLoop at h
    simp only [bind_run] at h
    obtain ⟨slot, c1, -, p, c2, h2, h3⟩ := h
    cases ws with
    | nil =>
      unfold Circuit.constLoop at h3
      simp only [pure_run] at h3
      obtain ⟨rfl, -⟩ := h3
      exact pAdd_curv h2
    | cons b ws => exact constLoop_curv h3 (by simp)

theorem HDig.val {c : Ctx N} {w : ℕ} : ∀ {s : ℕ} {l : List (List (AV N))}, HDig w s l → (∀ b ∈ l, ∀ x ∈ b, ValidAV c x) →
    windowsVal c.wit w l = s
  | s, [], h, _ => by simpa [HDig, windowsVal] using h.symm
  | s, b :: bs, h, hv => by
    rw [windowsVal, bitsVal_hbits (hv b (by simp)), HDig.val h.2 (fun b' hb' => hv b' (by simp [hb'])), h.1, Nat.mod_add_div]

/-- `constant_mul` computes the coordinates of the product for every point and every scalar. -/
theorem CSpec.constantMul_q (a : Pt) (s : AV N) : CSpec tables (Circuit.constantMul a s) (fun c => ValidAV c s)
    (fun c r => HQ c r (s.value.val • a) ∧ r.curv = none) := by
  constructor
  intro ctx hg hv
  obtain ⟨ws, c1, f1, g1, e1, l1, p1, d1⟩ := (CSpec.decomposeScalar 2 (by norm_num) (by norm_num) s).run ctx hg hv
  obtain ⟨id, c2, f2, g2, e2, p2⟩ := (CSpec.assignConstantPointCurv 0).run c1 g1 trivial
  cases hr : ws.reverse with
  | nil =>
    rw [List.reverse_eq_nil_iff] at hr
    rw [hr] at l1
    simp at l1
  | cons bits rest =>
    have hw : HWin c2 2 (bits :: rest) := fun b hb => (p1.ext e2) b (by rw [← hr, List.mem_reverse] at hb; exact hb)
    obtain ⟨hb, hb'⟩ := hw bits (by simp)
    obtain ⟨b0, b1, rfl⟩ := List.length_eq_two.1 hb
    obtain ⟨v0, k0⟩ := hb' b0 (by simp)
    obtain ⟨v1, k1⟩ := hb' b1 (by simp)
    obtain ⟨slot, c3, f3, g3, e3, p3⟩ := (CSpec.constSlot id a b0 b1 k0 k1).run c2 g2 ⟨p2, v0, v1⟩
    obtain ⟨r, c4, f4, g4, e4, p4⟩ := (CSpec.constLoop id rest (a + a + a + a) slot).run c3 g3
      ⟨p2.ext e3, HWin.ext (fun b hb => hw b (by simp [hb])) e3, p3.1⟩
    have hrun : Circuit.constantMul a s ctx = some (r, c4) := by
      unfold Circuit.constantMul
      rw [bind_some f1, bind_some f2]
      rw [hr]
      dsimp only
      rw [bind_some f3, f4]
    have e14 := e2.trans (e3.trans e4)
    have hlen : rest.length = 126 := by
      have : ([b0, b1] :: rest).length = 127 := by rw [← hr, List.length_reverse, l1]
      simpa using this
    have hne : rest ≠ [] := by rintro rfl; simp at hlen
    have hcurv := constLoop_curv f4 hne
    have hrep := ((Spec.constantMul a s).run _ _ _ hrun c4.wit g4.sat).2
    rw [val_wit (hv.ext (e1.trans e14))] at hrep
    have e : a + a + a + a = 4 ^ 1 • a := by rw [pow_one, four_nsmul']
    rw [e] at f4
    obtain ⟨s3, q4⟩ := (Spec.constLoop _ _ _ _ _).run _ _ _ f4 c4.wit g4.sat
    obtain ⟨s2, q3⟩ := (Spec.constSlot _ _ _).run _ _ _ f3 c4.wit s3
    obtain ⟨-, q2⟩ := (Spec.assignConstantPointCurv _).run _ _ _ f2 c4.wit s2
    obtain ⟨-, q2z⟩ := (Spec.assignConstantPointCurv_zero _).run _ _ _ f2 c4.wit s2
    have hw4 : HWin c4 2 ([b0, b1] :: rest) := hw.ext (e3.trans e4)
    have hall : ∀ b ∈ [b0, b1] :: rest, ∀ c ∈ b, BitCell c4.wit c := by
      intro b hb c hc
      obtain ⟨m1, m2⟩ := (hw4 b hb).2 c hc
      rcases m2 with m2 | m2
      · exact .inl (by rw [val_wit m1, m2])
      · exact .inr (by rw [val_wit m1, m2])
    obtain ⟨j1, -, j3⟩ := q3 q2 (hall [b0, b1] (by simp))
    obtain ⟨-, -, r3⟩ := q4 _ (by omega) q2 (fun b hb => hall b (by simp [hb])) (by
      have := (q3 q2 (hall [b0, b1] (by simp))).2.1
      omega) j1
    have hval : bitsVal c4.wit [b0, b1] + 4 ^ 1 * windowsVal c4.wit 2 rest = s.value.val := by
      rw [hr] at d1
      have := d1.val (c := c4) fun b hb x hx => ((hw4 b hb).2 x hx).1
      rw [← this]
      rfl
    rw [hval] at r3
    refine ⟨r, c4, hrun, g4, e1.trans e14, HQ.of p4 hrep fun h0 => ?_, hcurv⟩
    obtain ⟨t1, t2⟩ := r3 (ZMod.val_lt _) q2z (j3 q2z) h0
    exact ⟨t1, t2, fun k hk => by rw [hcurv] at hk; cases hk⟩

theorem HPt.hq {c : Ctx N} {p : APt} {P : Pt} (h : HPt c p (coordX P) (coordY P) (flagOf P)) (hx : p.x.overflows = 0)
    (hy : p.y.overflows = 0) (hc : p.curv = none) : HQ c p P :=
  ⟨⟨h.x.h, by rw [hx]; exact evenCount_zero, h.y.h, by rw [hy]; exact evenCount_zero, h.z, by rw [h.zv]; exact flagOf_bit P,
    fun k hk => by rw [hc] at hk; cases hk⟩, h.zv, h.x.val, h.y.val, fun k hk => by rw [hc] at hk; cases hk⟩

/-- `assign_constant_point`. -/
theorem CSpec.assignConstantPoint_q (P : Pt) : CSpec tables (Circuit.assignConstantPoint P) (fun _ => True)
    (fun c r => HQ c r P ∧ r.curv = none) :=
  (CSpec.assignConstantPoint P).mono (fun _ h => h) fun _ _ h => ⟨h.1.hq h.2.1 h.2.2.1 h.2.2.2, h.2.2.2⟩

/-- `assign_point`. -/
theorem CSpec.assignPoint_q (P : Pt) : CSpec tables (Circuit.assignPoint P) (fun _ => True)
    (fun c r => HQ c r P ∧ r.curv = none) :=
  (CSpec.assignPointRaw _ _ _ (by
    by_cases h : P = 0
    · exact .inr (flagOf_zero h)
    · exact .inl (coords_aff h).eqn)).mono (fun _ h => h) fun _ _ h => ⟨h.1.hq h.2.1 h.2.2.1 h.2.2.2, h.2.2.2⟩

end Verif.Circuit
