import Verif.Sol.MergeProps

/-!
# Packed multiply-adds (C45)
-/

namespace Verif.Sol

/-! ### Opcodes -/

/-- The opcode for pairs of offsets: the first pair has the lowest bits. -/
def encPM (last : ℕ) : List (ℕ × ℕ) → ℕ
  | [] => last
  | x :: xs => encPM last xs * 2 ^ 16 + x.2 * 2 ^ 8 + x.1

def encMT (last : ℕ) : List ℕ → ℕ
  | [] => last
  | x :: xs => encMT last xs * 2 ^ 8 + x

theorem packPM_eq (l : List (ℕ × ℕ)) : packPM l = encPM (if l.length = 16 then 0 else 0xffff) l := by
  unfold packPM
  generalize (if l.length = 16 then 0 else 0xffff) = last
  rw [List.foldl_reverse]
  induction l with
  | nil => rfl
  | cons x xs ih => simp only [List.foldr_cons, encPM, ih]

theorem packMT_eq (l : List ℕ) : packMT l = encMT (if l.length = 32 then 0 else 0xff) l := by
  unfold packMT
  generalize (if l.length = 32 then 0 else 0xff) = last
  rw [List.foldl_reverse]
  induction l with
  | nil => rfl
  | cons x xs ih => simp only [List.foldr_cons, encMT, ih]

theorem encPM_lt {last : ℕ} : ∀ {l : List (ℕ × ℕ)}, (∀ x ∈ l, x.1 < 255 ∧ x.2 < 256) → encPM last l < (last + 1) * 2 ^ (16 * l.length)
  | [], _ => by simp [encPM]
  | x :: xs, h => by
    have ih := encPM_lt (last := last) fun y hy => h y (List.mem_cons_of_mem _ hy)
    obtain ⟨h1, h2⟩ := h x (List.mem_cons_self ..)
    simp only [encPM, List.length_cons, Nat.mul_add, pow_add, mul_one, ← mul_assoc]
    generalize (last + 1) * 2 ^ (16 * xs.length) = B at ih
    omega

theorem encMT_lt {last : ℕ} : ∀ {l : List ℕ}, (∀ x ∈ l, x < 255) → encMT last l < (last + 1) * 2 ^ (8 * l.length)
  | [], _ => by simp [encMT]
  | x :: xs, h => by
    have ih := encMT_lt (last := last) fun y hy => h y (List.mem_cons_of_mem _ hy)
    have h1 := h x (List.mem_cons_self ..)
    simp only [encMT, List.length_cons, Nat.mul_add, pow_add, mul_one, ← mul_assoc]
    generalize (last + 1) * 2 ^ (8 * xs.length) = B at ih
    omega

theorem low_byte {w : Word} {q a : ℕ} (h : w.toNat = q * 2 ^ 8 + a) (ha : a < 256) : (w &&& 0xff#256).toNat = a := by
  rw [BitVec.toNat_and, h, show (0xff#256 : Word).toNat = 2 ^ 8 - 1 from rfl, Nat.and_two_pow_sub_one_eq_mod]
  omega

theorem high_bits {w : Word} {q a : ℕ} (h : w.toNat = q * 2 ^ 8 + a) (ha : a < 256) : (w >>> 8).toNat = q := by
  rw [BitVec.toNat_ushiftRight, h, Nat.shiftRight_eq_div_pow]
  omega

/-- The rounds for a list of offsets, scalars and points. -/
def frRounds (E : Env) (s : St) : List (ℕ × ℕ) → Word → Option Word
  | [], t => some t
  | x :: xs, t => do
    let p ← E.proof[x.1]?
    let v ← E.load s x.2
    frRounds E s xs (addmod (mulmod p v) t)

noncomputable def eccRounds (E : Env) (s : St) : List (ℕ × ℕ) → Word → Word → Option (Word × Word)
  | [], x, y => some (x, y)
  | o :: os, x, y => do
    let px ← E.proof[o.1]?
    let py ← E.proof[o.1 + 1]?
    let v ← E.load s o.2
    let r ← eccMulAdd px py v x y
    eccRounds E s os r.1 r.2

def mtRounds (E : Env) (s : St) (base : Word) : List ℕ → Word → Option Word
  | [], t => some t
  | o :: os, t => do
    let v ← E.load s o
    mtRounds E s base os (addmod (mulmod base t) v)

/-- The loop stops after the pairs: there are no more rounds, or the next offset is 255. -/
def Stops (last n len : ℕ) (size : ℕ) : Prop := n = len ∨ len < n ∧ last = size

theorem frMulAddPM_enc {E : Env} {s : St} {last : ℕ} : ∀ (l : List (ℕ × ℕ)) (n : ℕ) (w t : Word), (∀ x ∈ l, x.1 < 255 ∧ x.2 < 256) →
    Stops last n l.length 0xffff → w.toNat = encPM last l → frMulAddPM E s n w t = frRounds E s l t
  | [], n, w, t, _, hs, hw => by
    rcases hs with rfl | ⟨hn, rfl⟩
    · rfl
    · obtain ⟨n, rfl⟩ : ∃ k, n = k + 1 := ⟨n - 1, by simp at hn; omega⟩
      have : w &&& 0xff#256 = 0xff#256 := by
        apply BitVec.eq_of_toNat_eq
        exact low_byte (q := 0xff) (a := 0xff) (by rw [hw]; rfl) (by norm_num)
      simp only [frMulAddPM, this, ne_eq, not_true_eq_false, if_false, frRounds]
  | x :: xs, n, w, t, h, hs, hw => by
    obtain ⟨h1, h2⟩ := h x (List.mem_cons_self ..)
    obtain ⟨n, rfl⟩ : ∃ k, n = k + 1 := ⟨n - 1, by rcases hs with rfl | ⟨h, _⟩ <;> simp at *; omega⟩
    have hw1 : w.toNat = (encPM last xs * 2 ^ 8 + x.2) * 2 ^ 8 + x.1 := by rw [hw, encPM]; ring
    have ha := low_byte hw1 (by omega)
    have hw2 := high_bits hw1 (by omega)
    have hb := low_byte hw2 (by omega)
    have hw3 := high_bits hw2 (by omega)
    have hne : w &&& 0xff#256 ≠ 0xff#256 := by
      intro he
      rw [he] at ha
      have : (0xff#256 : Word).toNat = 255 := rfl
      omega
    have ih : ∀ t, frMulAddPM E s n (w >>> 8 >>> 8) t = frRounds E s xs t := fun t =>
      frMulAddPM_enc xs n _ t (fun y hy => h y (List.mem_cons_of_mem _ hy)) (by rcases hs with hs | ⟨hs, rfl⟩ <;> simp [Stops] at *; omega; omega) hw3
    simp only [frMulAddPM, hne, ne_eq, not_false_eq_true, if_true, ha, hb, ih, frRounds]

theorem eccMulAddPM_enc {E : Env} {s : St} {last : ℕ} : ∀ (l : List (ℕ × ℕ)) (n : ℕ) (w a b : Word), (∀ x ∈ l, x.1 < 255 ∧ x.2 < 256) →
    Stops last n l.length 0xffff → w.toNat = encPM last l → eccMulAddPM E s n w a b = eccRounds E s l a b
  | [], n, w, a, b, _, hs, hw => by
    rcases hs with rfl | ⟨hn, rfl⟩
    · rfl
    · obtain ⟨n, rfl⟩ : ∃ k, n = k + 1 := ⟨n - 1, by simp at hn; omega⟩
      have : w &&& 0xff#256 = 0xff#256 := by
        apply BitVec.eq_of_toNat_eq
        exact low_byte (q := 0xff) (a := 0xff) (by rw [hw]; rfl) (by norm_num)
      simp only [eccMulAddPM, this, ne_eq, not_true_eq_false, if_false, eccRounds]
  | x :: xs, n, w, a, b, h, hs, hw => by
    obtain ⟨h1, h2⟩ := h x (List.mem_cons_self ..)
    obtain ⟨n, rfl⟩ : ∃ k, n = k + 1 := ⟨n - 1, by rcases hs with rfl | ⟨h, _⟩ <;> simp at *; omega⟩
    have hw1 : w.toNat = (encPM last xs * 2 ^ 8 + x.2) * 2 ^ 8 + x.1 := by rw [hw, encPM]; ring
    have ha := low_byte hw1 (by omega)
    have hw2 := high_bits hw1 (by omega)
    have hb := low_byte hw2 (by omega)
    have hw3 := high_bits hw2 (by omega)
    have hne : w &&& 0xff#256 ≠ 0xff#256 := by
      intro he
      rw [he] at ha
      have : (0xff#256 : Word).toNat = 255 := rfl
      omega
    have ih : ∀ a b, eccMulAddPM E s n (w >>> 8 >>> 8) a b = eccRounds E s xs a b := fun a b =>
      eccMulAddPM_enc xs n _ a b (fun y hy => h y (List.mem_cons_of_mem _ hy)) (by rcases hs with hs | ⟨hs, rfl⟩ <;> simp [Stops] at *; omega; omega) hw3
    simp only [eccMulAddPM, hne, ne_eq, not_false_eq_true, if_true, ha, hb, ih, eccRounds]

theorem frMulAddMT_enc {E : Env} {s : St} {last : ℕ} {base : Word} : ∀ (l : List ℕ) (n : ℕ) (w t : Word), (∀ x ∈ l, x < 255) →
    Stops last n l.length 0xff → w.toNat = encMT last l → frMulAddMT E s base n w t = mtRounds E s base l t
  | [], n, w, t, _, hs, hw => by
    rcases hs with rfl | ⟨hn, rfl⟩
    · rfl
    · obtain ⟨n, rfl⟩ : ∃ k, n = k + 1 := ⟨n - 1, by simp at hn; omega⟩
      have : w &&& 0xff#256 = 0xff#256 := by
        apply BitVec.eq_of_toNat_eq
        exact low_byte (q := 0) (a := 0xff) (by rw [hw]; rfl) (by norm_num)
      simp only [frMulAddMT, this, ne_eq, not_true_eq_false, if_false, mtRounds]
  | x :: xs, n, w, t, h, hs, hw => by
    have h1 := h x (List.mem_cons_self ..)
    obtain ⟨n, rfl⟩ : ∃ k, n = k + 1 := ⟨n - 1, by rcases hs with rfl | ⟨h, _⟩ <;> simp at *; omega⟩
    have hw1 : w.toNat = encMT last xs * 2 ^ 8 + x := by rw [hw, encMT]
    have ha := low_byte hw1 (by omega)
    have hw2 := high_bits hw1 (by omega)
    have hne : w &&& 0xff#256 ≠ 0xff#256 := by
      intro he
      rw [he] at ha
      have : (0xff#256 : Word).toNat = 255 := rfl
      omega
    have ih : ∀ t, frMulAddMT E s base n (w >>> 8) t = mtRounds E s base xs t := fun t =>
      frMulAddMT_enc xs n _ t (fun y hy => h y (List.mem_cons_of_mem _ hy)) (by rcases hs with hs | ⟨hs, rfl⟩ <;> simp [Stops] at *; omega; omega) hw2
    simp only [frMulAddMT, hne, ne_eq, not_false_eq_true, if_true, ha, ih, mtRounds]

/-! ### The statements of a run -/

/-- `t = proof[p] * m[m] + t`. -/
def pmStmt (t : Ty) (x : ℕ × ℕ) : Stmt := .assign (.temp t) (.mulAdd (.transcript x.1 t) (.memory x.2 .scalar) (.temp t) t)

/-- `t = m[a] * t + m[c]`. -/
def mtStmt (a c : ℕ) : Stmt := .assign (.temp .scalar) (.mulAdd (.memory a .scalar) (.temp .scalar) (.memory c .scalar) .scalar)

theorem execAll_pm_scalar {E : Env} : ∀ (l : List (ℕ × ℕ)) (s : St),
    execAll E s (l.map (pmStmt .scalar)) = (frRounds E s l s.t0).map fun w => { s with t0 := w }
  | [], s => rfl
  | x :: xs, s => by
    have ih := fun w => execAll_pm_scalar (E := E) xs { s with t0 := w }
    have hl : ∀ w i, E.load { s with t0 := w } i = E.load s i := fun w i => rfl
    have hr : ∀ w l t, frRounds E { s with t0 := w } l t = frRounds E s l t := by
      intro w l
      induction l with
      | nil => intro t; rfl
      | cons y ys ihy => intro t; simp only [frRounds, hl, ihy]
    simp only [List.map_cons, execAll, pmStmt, exec, evalRhs, eval, readArr, Env.readMem, readTemp, frRounds]
    cases E.proof[x.1]? with
    | none => rfl
    | some p =>
      cases E.load s x.2 with
      | none => rfl
      | some v =>
        simp only [Option.map_some, Option.bind_eq_bind, Option.bind_some, opMulAdd, put, frMulAdd]
        rw [ih, hr]

theorem execAll_pm_point {E : Env} : ∀ (l : List (ℕ × ℕ)) (s : St),
    execAll E s (l.map (pmStmt .point)) = (eccRounds E s l s.t0 s.t1).map fun w => { s with t0 := w.1, t1 := w.2 }
  | [], s => rfl
  | x :: xs, s => by
    have ih := fun a b => execAll_pm_point (E := E) xs { s with t0 := a, t1 := b }
    have hl : ∀ a b i, E.load { s with t0 := a, t1 := b } i = E.load s i := fun a b i => rfl
    have hr : ∀ a b l t u, eccRounds E { s with t0 := a, t1 := b } l t u = eccRounds E s l t u := by
      intro a b l
      induction l with
      | nil => intro t u; rfl
      | cons y ys ihy => intro t u; simp only [eccRounds, hl, ihy]
    simp only [List.map_cons, execAll, pmStmt, exec, evalRhs, eval, readArr, Env.readMem, readTemp, eccRounds]
    cases E.proof[x.1]? with
    | none => rfl
    | some p =>
      cases E.proof[x.1 + 1]? with
      | none => rfl
      | some p' =>
        cases E.load s x.2 with
        | none => rfl
        | some v =>
          simp only [Option.map_some, Option.bind_eq_bind, Option.bind_some, opMulAdd, Option.pure_def]
          cases eccMulAdd p p' v s.t0 s.t1 with
          | none => rfl
          | some r =>
            simp only [Option.map_some, Option.bind_some, put]
            rw [ih, hr]

theorem execAll_mt {E : Env} (a : ℕ) {base : Word} : ∀ (l : List ℕ) (s : St), E.load s a = some base →
    execAll E s (l.map (mtStmt a)) = (mtRounds E s base l s.t0).map fun w => { s with t0 := w }
  | [], s, _ => rfl
  | x :: xs, s, hb => by
    have hl : ∀ w i, E.load { s with t0 := w } i = E.load s i := fun w i => rfl
    have ih := fun w => execAll_mt a xs { s with t0 := w } ((hl w a).trans hb)
    have hr : ∀ w l t, mtRounds E { s with t0 := w } base l t = mtRounds E s base l t := by
      intro w l
      induction l with
      | nil => intro t; rfl
      | cons y ys ihy => intro t; simp only [mtRounds, hl, ihy]
    simp only [List.map_cons, execAll, mtStmt, exec, evalRhs, eval, Env.readMem, readTemp, mtRounds, hb]
    cases E.load s x with
    | none => rfl
    | some v =>
      simp only [Option.map_some, Option.bind_eq_bind, Option.bind_some, opMulAdd, put, frMulAdd]
      rw [ih, hr]

theorem pm_after {t : Ty} {l : List (ℕ × ℕ)} (h : l ≠ []) (cur : Option Ty) : after cur (l.map (pmStmt t)) = some t := by
  rw [← List.dropLast_append_getLast h, List.map_append, after_append]
  rfl

theorem mt_after {a : ℕ} {l : List ℕ} (h : l ≠ []) (cur : Option Ty) : after cur (l.map (mtStmt a)) = some .scalar := by
  rw [← List.dropLast_append_getLast h, List.map_append, after_append]
  rfl

theorem pm_cur {t : Ty} {l : List (ℕ × ℕ)} (h : l ≠ []) {cur : Option Ty} (hc : Temps cur (l.map (pmStmt t))) : cur = some t := by
  cases l with
  | nil => exact absurd rfl h
  | cons x xs => exact hc.1.2.2

theorem mt_cur {a : ℕ} {l : List ℕ} (h : l ≠ []) {cur : Option Ty} (hc : Temps cur (l.map (mtStmt a))) : cur = some .scalar := by
  cases l with
  | nil => exact absurd rfl h
  | cons x xs => exact hc.1.2.1

theorem lit_of_lt {n : ℕ} (h : n < 2 ^ 256) : ∃ w : Word, lit n = some w ∧ w.toNat = n :=
  ⟨BitVec.ofNat 256 n, by rw [lit, if_pos h], by rw [BitVec.toNat_ofNat, Nat.mod_eq_of_lt h]⟩

theorem packPM_lt {l : List (ℕ × ℕ)} (hl : l.length ≤ 16) (h : ∀ x ∈ l, x.1 < 255 ∧ x.2 < 256) : packPM l < 2 ^ 256 := by
  rw [packPM_eq]
  split
  · next he =>
    refine (encPM_lt h).trans_le ?_
    rw [he]
    norm_num
  · next hne =>
    refine (encPM_lt h).trans_le ?_
    calc (0xffff + 1) * 2 ^ (16 * l.length) = 2 ^ (16 * (l.length + 1)) := by ring
      _ ≤ 2 ^ 256 := Nat.pow_le_pow_right (by norm_num) (by omega)

theorem packMT_lt {l : List ℕ} (hl : l.length ≤ 32) (h : ∀ x ∈ l, x < 255) : packMT l < 2 ^ 256 := by
  rw [packMT_eq]
  split
  · next he =>
    refine (encMT_lt h).trans_le ?_
    rw [he]
    norm_num
  · next hne =>
    refine (encMT_lt h).trans_le ?_
    calc (0xff + 1) * 2 ^ (8 * l.length) = 2 ^ (8 * (l.length + 1)) := by ring
      _ ≤ 2 ^ 256 := Nat.pow_le_pow_right (by norm_num) (by omega)

theorem pm_repl {t : Ty} {l : List (ℕ × ℕ)} (hne : l ≠ []) (hl : l.length ≤ 16) (h : ∀ x ∈ l, x.1 < 255 ∧ x.2 < 256) :
    Repl (l.map (pmStmt t)) [.assign (.temp t) (.mulAddPM (.temp t) (packPM l) t)] := by
  intro cur hc
  obtain rfl := pm_cur hne hc
  rw [pm_after hne]
  refine ⟨⟨rfl, trivial⟩, rfl, fun E s s' hs => ?_⟩
  obtain ⟨w, hw, hw'⟩ := lit_of_lt (packPM_lt hl h)
  rw [packPM_eq] at hw'
  have hst : Stops (if l.length = 16 then 0 else 0xffff) 16 l.length 0xffff := by
    split
    · next he => exact .inl he.symm
    · exact .inr ⟨by omega, rfl⟩
  cases t with
  | scalar =>
    have ht : s'.t0 = s.t0 := hs.t0 (by simp)
    rw [execAll_pm_scalar]
    simp only [execAll, exec, evalRhs, eval, readTemp, Option.bind_eq_bind, Option.bind_some, opPM, hw, pm_teq hs, ht, frMulAddPM_enc l 16 w _ h hst hw', Option.pure_def]
    cases frRounds E s l s.t0 with
    | none => trivial
    | some r => exact ⟨hs.m, hs.abs, fun _ => rfl, fun hc => by cases hc⟩
  | point =>
    have ht : s'.t0 = s.t0 := hs.t0 (by simp)
    have ht' : s'.t1 = s.t1 := hs.t1 rfl
    rw [execAll_pm_point]
    simp only [execAll, exec, evalRhs, eval, readTemp, Option.bind_eq_bind, Option.bind_some, opPM, hw, epm_teq hs, ht, ht', eccMulAddPM_enc l 16 w _ _ h hst hw', Option.pure_def]
    cases eccRounds E s l s.t0 s.t1 with
    | none => trivial
    | some r => exact ⟨hs.m, hs.abs, fun _ => rfl, fun _ => rfl⟩

theorem mt_repl {a : ℕ} {l : List ℕ} (hne : l ≠ []) (hl : l.length ≤ 32) (h : ∀ x ∈ l, x < 255) :
    Repl (l.map (mtStmt a)) [.assign (.temp .scalar) (.mulAddMT a (packMT l))] := by
  intro cur hc
  obtain rfl := mt_cur hne hc
  rw [mt_after hne]
  refine ⟨⟨rfl, trivial⟩, rfl, fun E s s' hs => ?_⟩
  obtain ⟨w, hw, hw'⟩ := lit_of_lt (packMT_lt hl h)
  rw [packMT_eq] at hw'
  have hst : Stops (if l.length = 32 then 0 else 0xff) 32 l.length 0xff := by
    split
    · next he => exact .inl he.symm
    · exact .inr ⟨by omega, rfl⟩
  have ht : s'.t0 = s.t0 := hs.t0 (by simp)
  cases hb : E.load s a with
  | none =>
    have h1 : execAll E s (l.map (mtStmt a)) = none := by
      cases l with
      | nil => exact absurd rfl hne
      | cons x xs => simp only [List.map_cons, execAll, mtStmt, exec, evalRhs, eval, Env.readMem, hb]; rfl
    have h2 : execAll E s' [.assign (.temp .scalar) (.mulAddMT a (packMT l))] = none := by
      simp only [execAll, exec, evalRhs, eval, load_teq hs, hb]; rfl
    rw [h1, h2]
    trivial
  | some base =>
    rw [execAll_mt a l s hb]
    simp only [execAll, exec, evalRhs, eval, load_teq hs, hb, Option.bind_eq_bind, Option.bind_some, hw, mt_teq hs, ht, frMulAddMT_enc l 32 w _ h hst hw', Option.pure_def]
    cases mtRounds E s base l s.t0 with
    | none => trivial
    | some r => exact ⟨hs.m, hs.abs, fun _ => rfl, fun hc => by cases hc⟩

/-! ### The passes -/

/-- Offsets fit into the opcode. -/
def SmallPM (stmts : List Stmt) : Prop :=
  ∀ l p t m t' c t'', .assign l (.mulAdd (.transcript p t) (.memory m t') c t'') ∈ stmts → p < 255 ∧ m < 256

def SmallMT (stmts : List Stmt) : Prop :=
  ∀ l m t b c t' t'', .assign l (.mulAdd (.memory m t) b (.memory c t') t'') ∈ stmts → c < 255

theorem extractPM_eq {c : Stmt} {p m : ℕ} {target : Expr} {t : Ty} (h : extractPM c = some (p, m, target, t)) (hty : c.Typed) :
    target = .temp t ∧ c = pmStmt t (p, m) := by
  unfold extractPM at h
  split at h
  · next l a b e t' =>
    split at h
    · next hc =>
      obtain ⟨h1, h2, h3, h4⟩ := hc
      cases a <;> cases h1
      cases b <;> cases h2
      cases e <;> cases h3
      cases l <;> cases h4
      simp only [Expr.offset?, Option.bind_eq_bind, Option.bind_some, Option.pure_def, Option.some.injEq, Prod.mk.injEq] at h
      obtain ⟨rfl, rfl, rfl, rfl⟩ := h
      obtain ⟨g1, ⟨g2, g3, g4⟩, -⟩ := hty
      simp only [Expr.type] at g1 g2 g3 g4
      subst g1 g2 g3
      rw [g4]
      exact ⟨rfl, rfl⟩
    · cases h
  · cases h

theorem extractMT_eq {c : Stmt} {a m : ℕ} (h : extractMT c = some (a, m)) (hty : c.Typed) : c = mtStmt a m := by
  unfold extractMT at h
  split at h
  · next l a b e =>
    split at h
    · next hc =>
      obtain ⟨h1, h2, h3, h4⟩ := hc
      cases a <;> cases h1
      cases b <;> cases h2
      cases e <;> cases h3
      cases l <;> cases h4
      simp only [Expr.offset?, Option.bind_eq_bind, Option.bind_some, Option.pure_def, Option.some.injEq, Prod.mk.injEq] at h
      obtain ⟨rfl, rfl⟩ := h
      obtain ⟨g1, ⟨g2, g3, g4⟩, -⟩ := hty
      simp only [Expr.type] at g1 g2 g3 g4
      subst g1 g2 g3 g4
      rfl
    · cases h
  · cases h

/-- Multiply-adds. -/
def Stmt.IsMulAdd : Stmt → Prop
  | .assign _ (.mulAdd ..) => True
  | _ => False

/-- What the passes make of them. -/
def Stmt.IsPM (d : Stmt) : Prop := ∃ t op, d = .assign (.temp t) (.mulAddPM (.temp t) op t)
def Stmt.IsMT (d : Stmt) : Prop := ∃ m op, d = .assign (.temp .scalar) (.mulAddMT m op)

structure PMInv (prog : List Stmt) (r : PMRun) (run : List Stmt) : Prop where
  stmts : r.stmts = run
  isRun : run = r.pairs.map (pmStmt r.t)
  target : r.target = .temp r.t
  ne : r.pairs ≠ []
  len : r.pairs.length ≤ 16
  inProg : ∀ c ∈ run, c ∈ prog

theorem PMInv.repl {prog : List Stmt} {r : PMRun} {run : List Stmt} (h : PMInv prog r run) (hs : SmallPM prog) :
    Rep Stmt.IsMulAdd Stmt.IsPM run [pmMerger.toStatement r] := by
  have : ∀ x ∈ r.pairs, x.1 < 255 ∧ x.2 < 256 := fun x hx =>
    hs _ _ _ _ _ _ _ (h.inProg _ (by rw [h.isRun]; exact List.mem_map_of_mem (f := pmStmt r.t) hx))
  rw [h.isRun]
  simp only [pmMerger, h.target]
  refine ⟨pm_repl h.ne h.len this, .single (by simpa using h.ne) ?_ ⟨_, _, rfl⟩⟩
  intro c hc
  obtain ⟨x, -, rfl⟩ := List.mem_map.1 hc
  trivial

theorem pmMerger_sound {prog : List Stmt} (hty : ∀ c ∈ prog, c.Typed) (hs : SmallPM prog) : Sound pmMerger prog (fun _ => PMInv prog) Stmt.IsMulAdd Stmt.IsPM := by
  refine ⟨?_, ?_, ?_, ?_, ?_, ?_⟩
  · intro pre c rest r hp _ hst
    have hc : c ∈ prog := by rw [hp]; simp
    simp only [pmMerger, Option.map_eq_some_iff] at hst
    obtain ⟨⟨p, m, target, t⟩, hx, rfl⟩ := hst
    obtain ⟨h1, h2⟩ := extractPM_eq hx (hty c hc)
    exact ⟨rfl, by simp [h2], h1, by simp, by simp, by simp [hc]⟩
  · intro pre r run c rest s' hp hi hm
    have hc : c ∈ prog := by rw [hp]; simp
    simp only [pmMerger] at hm
    split at hm
    · cases hm
    · next hlen =>
      split at hm
      · next p m target t hx =>
        split at hm
        · next he =>
          injection hm with hm
          injection hm with hm
          subst hm
          obtain ⟨h1, h2⟩ := extractPM_eq hx (hty c hc)
          obtain ⟨-, rfl⟩ := he
          refine ⟨by simp [hi.stmts], by simp [hi.isRun, h2], hi.target, by simp, ?_, ?_⟩
          · have := hi.len
            simp only [List.length_append, List.length_singleton]
            omega
          · intro x hx
            rcases List.mem_append.1 hx with hx | hx
            · exact hi.inProg x hx
            · rw [List.mem_singleton.1 hx]
              exact hc
        · cases hm
      · split at hm <;> cases hm
  · intro pre r run c rest u _ hi _ hu
    cases hu
    rw [hi.stmts]
    exact Rep.refl _
  · intro pre r run c rest _ hi _
    exact hi.repl hs
  · intro pre r run _ hi _
    exact hi.repl hs
  · intro pre r run u _ hi _ hu
    cases hu
    rw [hi.stmts]
    exact Rep.refl _

structure MTInv (prog : List Stmt) (r : MTRun) (run : List Stmt) : Prop where
  stmts : r.stmts = run
  isRun : run = r.offsets.map (mtStmt r.target)
  ne : r.offsets ≠ []
  len : r.offsets.length ≤ 32
  inProg : ∀ c ∈ run, c ∈ prog

theorem MTInv.repl {prog : List Stmt} {r : MTRun} {run : List Stmt} (h : MTInv prog r run) (hs : SmallMT prog) :
    Rep Stmt.IsMulAdd Stmt.IsMT run [mtMerger.toStatement r] := by
  have : ∀ x ∈ r.offsets, x < 255 := fun x hx =>
    hs _ _ _ _ _ _ _ (h.inProg _ (by rw [h.isRun]; exact List.mem_map_of_mem (f := mtStmt r.target) hx))
  rw [h.isRun]
  refine ⟨mt_repl h.ne h.len this, .single (by simpa using h.ne) ?_ ⟨_, _, rfl⟩⟩
  intro c hc
  obtain ⟨x, -, rfl⟩ := List.mem_map.1 hc
  trivial

theorem mtMerger_sound {prog : List Stmt} (hty : ∀ c ∈ prog, c.Typed) (hs : SmallMT prog) : Sound mtMerger prog (fun _ => MTInv prog) Stmt.IsMulAdd Stmt.IsMT := by
  refine ⟨?_, ?_, ?_, ?_, ?_, ?_⟩
  · intro pre c rest r hp _ hst
    have hc : c ∈ prog := by rw [hp]; simp
    simp only [mtMerger, Option.map_eq_some_iff] at hst
    obtain ⟨⟨a, m⟩, hx, rfl⟩ := hst
    exact ⟨rfl, by simp [extractMT_eq hx (hty c hc)], by simp, by simp, by simp [hc]⟩
  · intro pre r run c rest s' hp hi hm
    have hc : c ∈ prog := by rw [hp]; simp
    simp only [mtMerger] at hm
    split at hm
    · cases hm
    · next hlen =>
      split at hm
      · next a m hx =>
        split at hm
        · next he =>
          injection hm with hm
          injection hm with hm
          subst hm
          subst he
          refine ⟨by simp [hi.stmts], by simp [hi.isRun, extractMT_eq hx (hty c hc)], by simp, ?_, ?_⟩
          · have := hi.len
            simp only [List.length_append, List.length_singleton]
            omega
          · intro x hx
            rcases List.mem_append.1 hx with hx | hx
            · exact hi.inProg x hx
            · rw [List.mem_singleton.1 hx]
              exact hc
        · cases hm
      · split at hm <;> cases hm
  · intro pre r run c rest u _ hi _ hu
    cases hu
    rw [hi.stmts]
    exact Rep.refl _
  · intro pre r run c rest _ hi _
    exact hi.repl hs
  · intro pre r run _ hi _
    exact hi.repl hs
  · intro pre r run u _ hi _ hu
    cases hu
    rw [hi.stmts]
    exact Rep.refl _

theorem pmMerger_total (stmts : List Stmt) : ∃ q, drive pmMerger none stmts = some q := by
  refine Option.isSome_iff_exists.1 (drive_total (fun r c => ?_) (fun _ _ _ => rfl) (fun _ _ => rfl) _ _)
  simp only [pmMerger]
  split
  · rfl
  · split
    · split <;> rfl
    · split <;> rfl

theorem mtMerger_total (stmts : List Stmt) : ∃ q, drive mtMerger none stmts = some q := by
  refine Option.isSome_iff_exists.1 (drive_total (fun r c => ?_) (fun _ _ _ => rfl) (fun _ _ => rfl) _ _)
  simp only [mtMerger]
  split
  · rfl
  · split
    · split <;> rfl
    · split <;> rfl

/-- Missing for the full claim: `SmallPM` (see `C45_false`). -/
theorem C45_pm_partial {p : Prog} (ht : Temps none p.stmts) (hf : ∀ e ∈ p.finals, e.Temps none) (hty : ∀ c ∈ p.stmts, c.Typed) (hs : SmallPM p.stmts) :
    ∃ q, drive pmMerger none p.stmts = some q ∧ ∀ c : Call, { p with stmts := q }.run c = p.run c := by
  obtain ⟨q, hq⟩ := pmMerger_total p.stmts
  exact ⟨q, hq, fun c => ((pmMerger_sound hty hs).rep hq).repl.run ht hf c⟩

/-- Missing for the full claim: `SmallMT` (see `C45_false`). -/
theorem C45_mt_partial {p : Prog} (ht : Temps none p.stmts) (hf : ∀ e ∈ p.finals, e.Temps none) (hty : ∀ c ∈ p.stmts, c.Typed) (hs : SmallMT p.stmts) :
    ∃ q, drive mtMerger none p.stmts = some q ∧ ∀ c : Call, { p with stmts := q }.run c = p.run c := by
  obtain ⟨q, hq⟩ := mtMerger_total p.stmts
  exact ⟨q, hq, fun c => ((mtMerger_sound hty hs).rep hq).repl.run ht hf c⟩

/-! ### Offsets that do not fit -/

/-- `t = proof[255] * m[0] + t`, twice. -/
def farPM : Prog :=
  ⟨[.assign (.memory 0 .scalar) (.mul (.transcript 0 .scalar) (.transcript 1 .scalar) .scalar),
    .assign (.temp .scalar) (.mul (.transcript 0 .scalar) (.transcript 1 .scalar) .scalar),
    pmStmt .scalar (255, 0), pmStmt .scalar (255, 0),
    .assign (.memory 1 .scalar) (.add (.temp .scalar) (.temp .scalar) .scalar)], [.memory 1 .scalar], 2, 0⟩

/-- `t = m[0] * t + m[255]`, twice. -/
def farMT : Prog :=
  ⟨[.assign (.memory 0 .scalar) (.mul (.transcript 0 .scalar) (.transcript 1 .scalar) .scalar),
    .assign (.memory 255 .scalar) (.mul (.transcript 0 .scalar) (.transcript 1 .scalar) .scalar),
    .assign (.temp .scalar) (.mul (.transcript 0 .scalar) (.transcript 1 .scalar) .scalar),
    mtStmt 0 255, mtStmt 0 255,
    .assign (.memory 1 .scalar) (.add (.temp .scalar) (.temp .scalar) .scalar)], [.memory 1 .scalar], 256, 0⟩

/-- The offset 255 ends the loop of the contract: both multiply-adds are left out. -/
theorem C45_false : (∃ p : Prog, ∃ q, Temps none p.stmts ∧ (∀ e ∈ p.finals, e.Temps none) ∧ (∀ c ∈ p.stmts, c.Typed) ∧
      drive pmMerger none p.stmts = some q ∧ ∃ c, p.run c = some [.s 6] ∧ { p with stmts := q }.run c = some [.s 2]) ∧
    ∃ p : Prog, ∃ q, Temps none p.stmts ∧ (∀ e ∈ p.finals, e.Temps none) ∧ (∀ c ∈ p.stmts, c.Typed) ∧
      drive mtMerger none p.stmts = some q ∧ ∃ c, p.run c = some [.s 6] ∧ { p with stmts := q }.run c = some [.s 2] := by
  refine ⟨⟨farPM, _, ?_, ?_, ?_, rfl, ⟨thirdWord, List.replicate 256 1, []⟩, rfl, rfl⟩, farMT, _, ?_, ?_, ?_, rfl, ⟨thirdWord, [1, 1], []⟩, rfl, rfl⟩
  · simp [farPM, pmStmt, Temps, Stmt.Temps, Expr.Temps, Stmt.after]
  · simp [farPM, Expr.Temps]
  · simp [farPM, pmStmt, Stmt.Typed, Expr.Typed, Expr.type]
  · simp [farMT, mtStmt, Temps, Stmt.Temps, Expr.Temps, Stmt.after]
  · simp [farMT, Expr.Temps]
  · simp [farMT, mtStmt, Stmt.Typed, Expr.Typed, Expr.type]

/-! Example: points of the proof are combined with coefficients from memory. -/

def packed : List Stmt :=
  [.assign (.memory 0 .scalar) (.mul (.transcript 0 .scalar) (.transcript 1 .scalar) .scalar),
   .assign (.temp .point) (.mul (.memory 0 .scalar) (.transcript 8 .point) .point),
   pmStmt .point (2, 0), pmStmt .point (4, 0), pmStmt .point (6, 0),
   .assign (.memory 1 .point) (.add (.temp .point) (.transcript 8 .point) .point)]

example : drive pmMerger none packed = some
    [.assign (.memory 0 .scalar) (.mul (.transcript 0 .scalar) (.transcript 1 .scalar) .scalar),
     .assign (.temp .point) (.mul (.memory 0 .scalar) (.transcript 8 .point) .point),
     .assign (.temp .point) (.mulAddPM (.temp .point) 0xffff000600040002 .point),
     .assign (.memory 1 .point) (.add (.temp .point) (.transcript 8 .point) .point)] := by
  decide +kernel

example : Temps none packed ∧ (∀ c ∈ packed, c.Typed) ∧ SmallPM packed := by
  refine ⟨?_, ?_, ?_⟩
  · simp [packed, pmStmt, Temps, Stmt.Temps, Expr.Temps, Stmt.after]
  · simp [packed, pmStmt, Stmt.Typed, Expr.Typed, Expr.type]
  · intro l p t m t' c t'' h
    simp [packed, pmStmt] at h
    omega

example : drive mtMerger none [mtStmt 0 1, mtStmt 0 2, .assign (.memory 3 .scalar) (.mul (.temp .scalar) (.memory 0 .scalar) .scalar)] = some
    [.assign (.temp .scalar) (.mulAddMT 0 0xff0201), .assign (.memory 3 .scalar) (.mul (.temp .scalar) (.memory 0 .scalar) .scalar)] := by
  decide +kernel

end Verif.Sol
