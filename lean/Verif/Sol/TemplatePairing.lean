import Verif.Sol.TemplateLink

/-!
# The text of `pairing` and of the functions for points of `G2`: C99
-/

namespace Verif.Sol.Template
open Verif.Sol Verif.Circuit Verif.Ecc

variable {c : Cx} {vars : String → Option V} {h g : Heap} {as : List Stmt}

/-! ### Points in memory -/

/-- A structure with the coordinates of a point. -/
def IsG1 (h : Heap) (o : ℕ) (P : Word × Word) : Prop := h[o]? = some ⟨false, [.w P.1, .w P.2]⟩

/-- A structure with two arrays. -/
def IsG2 (h : Heap) (o : ℕ) (Q : G2Point) : Prop :=
  ∃ a b, h[o]? = some ⟨false, [.r a, .r b]⟩ ∧ h[a]? = some ⟨false, [.w Q.x0, .w Q.x1]⟩ ∧ h[b]? = some ⟨false, [.w Q.y0, .w Q.y1]⟩

/-- An array of references. -/
def IsArr {α : Type} (R : Heap → ℕ → α → Prop) (h : Heap) (o : ℕ) (l : List α) : Prop :=
  ∃ rs : List ℕ, h[o]? = some ⟨true, rs.map .r⟩ ∧ List.Forall₂ (R h) rs l

theorem IsG1.left {o : ℕ} {P : Word × Word} (hP : IsG1 h o P) : IsG1 (h ++ g) o P := get_left hP

theorem IsG2.left {o : ℕ} {Q : G2Point} (hQ : IsG2 h o Q) : IsG2 (h ++ g) o Q := by
  obtain ⟨a, b, h1, h2, h3⟩ := hQ
  exact ⟨a, b, get_left h1, get_left h2, get_left h3⟩

/-! ### Steps -/

/-- `x.length` -/
theorem run_length {x : String} {o : ℕ} {obj : Obj} (hx : vars x = some (.ref o)) (ho : h[o]? = some obj) :
    Exp.run c ⟨vars, h⟩ (.field (.var x) "length") = some (⟨vars, h⟩, [.word (BitVec.ofNat 256 obj.cells.length)]) := by
  rw [Exp.run, run_var hx]
  simp only [Option.bind_eq_bind, Option.bind_some, oneV, readField, ho, Option.pure_def]

/-- `x[i]` for an array of references. -/
theorem run_elem {x y : String} {o i k : ℕ} {rs : List ℕ} (hx : vars x = some (.ref o)) (ho : h[o]? = some ⟨true, rs.map .r⟩)
    (hy : vars y = some (.word (BitVec.ofNat 256 i))) (hi : i < 2 ^ 256) (hk : rs[i]? = some k) :
    Exp.run c ⟨vars, h⟩ (.index (.var x) (.var y)) = some (⟨vars, h⟩, [.ref k]) := by
  rw [Exp.run, run_var hx]
  simp only [Option.bind_eq_bind, Option.bind_some]
  rw [run_var hy]
  simp only [Option.bind_some, oneV, V.toNat, readAt, ho, List.getElem?_map, Option.bind_eq_bind, lit_big hi, hk, Option.map_some]
  rfl

/-- `e.f` -/
theorem run_get_field {e : Exp} {f : String} {o i : ℕ} {d : Bool} {cells : List Cell} {u : Cell} (he : Exp.run c ⟨vars, h⟩ e = some (⟨vars, h⟩, [.ref o]))
    (hf : fieldPos f = some i) (hl : f ≠ "length") (ho : h[o]? = some ⟨d, cells⟩) (hc : cells[i]? = some u) :
    Exp.run c ⟨vars, h⟩ (.field e f) = some (⟨vars, h⟩, [u.val]) := by
  rw [Exp.run, he]
  simp only [Option.bind_eq_bind, Option.bind_some, oneV]
  have : readField h (.ref o) f = some u.val := by
    unfold readField
    split
    · exact absurd rfl hl
    · next he => cases he
    · simp [hf, readAt, ho, hc]
  rw [this]
  rfl

/-- `e[i]` -/
theorem run_get_num {e : Exp} {o i : ℕ} {d : Bool} {cells : List Cell} {u : Cell} (he : Exp.run c ⟨vars, h⟩ e = some (⟨vars, h⟩, [.ref o]))
    (ho : h[o]? = some ⟨d, cells⟩) (hc : cells[i]? = some u) : Exp.run c ⟨vars, h⟩ (.index e (.num i)) = some (⟨vars, h⟩, [u.val]) := by
  rw [Exp.run, he]
  simp only [Option.bind_eq_bind, Option.bind_some, run_num, oneV, V.toNat, readAt, ho, hc]
  rfl

/-- An array of variable length. -/
def dynObj (a : List Word) : Obj := ⟨true, a.map .w⟩

theorem write_dyn {o i : ℕ} {a : List Word} {v : V} {w : Word} (ho : h[o]? = some (dynObj a)) (hv : v.toWord = some w) :
    writeAt h (.ref o) i v = (setAt a i w).map fun a' => h.set o (dynObj a') := by
  by_cases hi : i < a.length
  · simp [writeAt, ho, dynObj, hi, Cell.like, hv, setAt, List.map_set]
  · simp [writeAt, ho, dynObj, hi, setAt]

/-- `input[k + i * 6] = e;` -/
theorem step_row {k i : ℕ} {a : List Word} {e : Exp} {w : Word} (hx : vars "input" = some (.ref (h.length + 0)))
    (hy : vars "i" = some (.word (BitVec.ofNat 256 i))) (hi : k + i * 6 < 2 ^ 256) (he : Exp.run c ⟨vars, h ++ g⟩ e = some (⟨vars, h ++ g⟩, [.word w]))
    (ho : g[0]? = some (dynObj a)) :
    rest c (.assign [.index (.var "input") (.bin .add (.num k) (.bin .mul (.var "i") (.num 6)))] e :: as) ⟨vars, h ++ g⟩ =
      (setAt a (k + i * 6) w).bind fun a' => rest c as ⟨vars, h ++ g.set 0 (dynObj a')⟩ := by
  have h6 : (BitVec.ofNat 256 6 : Word).toNat = 6 := lit_big (by norm_num)
  have hm : binOp .mul (.word (BitVec.ofNat 256 i)) (.num 6) = some (.word (BitVec.ofNat 256 (i * 6))) := by
    rw [bin_num (by norm_num), wordOp, lit_big (by omega), h6, if_pos (by omega), ← BitVec.ofNat_mul]
  have hk : lit k = some (BitVec.ofNat 256 k) := lit_small (by omega)
  have ha : binOp .add (.num k) (.word (BitVec.ofNat 256 (i * 6))) = some (.word (BitVec.ofNat 256 (k + i * 6))) := by
    simp only [binOp, V.toWord, hk, Option.bind_eq_bind, Option.bind_some, wordOp]
    rw [lit_big (by omega), lit_big (by omega), if_pos hi, BitVec.ofNat_add]
  have ho' : (h ++ g)[h.length + 0]? = some (dynObj a) := by rw [get_app, ho]
  rw [rest_cons, Stmt.run, he]
  simp only [Option.bind_eq_bind, Option.bind_some, assignAll, assignTo]
  rw [run_var hx]
  simp only [Option.bind_some]
  rw [run_bin (run_num _ _) (run_bin (run_var hy) (run_num _ _) hm) ha]
  simp only [Option.bind_some, oneV, V.toNat, lit_big hi, write_dyn ho' (v := .word w) rfl, set_app]
  cases setAt a (k + i * 6) w <;> rfl

/-- The body of the loop of `pairing`: verifier.sol:18-23. -/
def pairBody : List Stmt := match pairingFn.body with
  | _ :: _ :: _ :: _ :: _ :: .loop _ _ _ body :: _ => body
  | _ => []

theorem pair_row {o₁ o₂ i : ℕ} {l₁ : List (Word × Word)} {l₂ : List G2Point} {P : Word × Word} {Q : G2Point} {a : List Word}
    (h1 : IsArr IsG1 h o₁ l₁) (h2 : IsArr IsG2 h o₂ l₂) (v1 : vars "p1" = some (.ref o₁)) (v2 : vars "p2" = some (.ref o₂))
    (vi : vars "i" = some (.word (BitVec.ofNat 256 i))) (vn : vars "input" = some (.ref (h.length + 0))) (hP : l₁[i]? = some P) (hQ : l₂[i]? = some Q)
    (hi : 5 + i * 6 < 2 ^ 256) (z : Obj) :
    rest c pairBody ⟨vars, h ++ [dynObj a, z]⟩ = (pairingRow l₁ l₂ a i).bind fun a' => some (.next ⟨vars, h ++ [dynObj a', z]⟩) := by
  obtain ⟨rs, r1, f1⟩ := h1
  obtain ⟨qs, r2, f2⟩ := h2
  obtain ⟨k, hk, hG⟩ : ∃ k, rs[i]? = some k ∧ IsG1 h k P := by
    obtain ⟨hl, hx⟩ := List.getElem?_eq_some_iff.1 hP
    have hl' : i < rs.length := by rw [f1.length_eq]; exact hl
    exact ⟨rs[i], List.getElem?_eq_getElem hl', by rw [← hx]; exact (List.forall₂_iff_get.1 f1).2 i hl' hl⟩
  obtain ⟨k', hk', hG'⟩ : ∃ k, qs[i]? = some k ∧ IsG2 h k Q := by
    obtain ⟨hl, hx⟩ := List.getElem?_eq_some_iff.1 hQ
    have hl' : i < qs.length := by rw [f2.length_eq]; exact hl
    exact ⟨qs[i], List.getElem?_eq_getElem hl', by rw [← hx]; exact (List.forall₂_iff_get.1 f2).2 i hl' hl⟩
  obtain ⟨x, y, hq, hqx, hqy⟩ := hG'
  have e1 : ∀ g, Exp.run c ⟨vars, h ++ g⟩ (.index (.var "p1") (.var "i")) = some (⟨vars, h ++ g⟩, [.ref k]) := fun g =>
    run_elem v1 (get_left r1) vi (by omega) hk
  have e2 : ∀ g, Exp.run c ⟨vars, h ++ g⟩ (.index (.var "p2") (.var "i")) = some (⟨vars, h ++ g⟩, [.ref k']) := fun g =>
    run_elem v2 (get_left r2) vi (by omega) hk'
  have ex : ∀ g, Exp.run c ⟨vars, h ++ g⟩ (.field (.index (.var "p2") (.var "i")) "x") = some (⟨vars, h ++ g⟩, [.ref x]) := fun g =>
    run_get_field (f := "x") (u := .r x) (e2 g) rfl (by decide) (get_left hq) rfl
  have ey : ∀ g, Exp.run c ⟨vars, h ++ g⟩ (.field (.index (.var "p2") (.var "i")) "y") = some (⟨vars, h ++ g⟩, [.ref y]) := fun g =>
    run_get_field (f := "y") (u := .r y) (e2 g) rfl (by decide) (get_left hq) rfl
  have hr : pairingRow l₁ l₂ a i = ((((((setAt a (0 + i * 6) P.1).bind fun a => setAt a (1 + i * 6) P.2).bind fun a => setAt a (2 + i * 6) Q.x0).bind
      fun a => setAt a (3 + i * 6) Q.x1).bind fun a => setAt a (4 + i * 6) Q.y0).bind fun a => setAt a (5 + i * 6) Q.y1) := by
    simp only [pairingRow, hP, hQ, Option.bind_eq_bind, Option.bind_some, Option.bind_assoc]
  rw [hr]
  dsimp only [pairBody, pairingFn]
  rw [step_row vn vi (by omega) (run_get_field (f := "x") (u := .w P.1) (e1 _) rfl (by decide) (get_left hG) rfl) rfl]
  cases setAt a (0 + i * 6) P.1 with
  | none => rfl
  | some a =>
  simp only [Option.bind_some, List.set_cons_zero]
  rw [step_row vn vi (by omega) (run_get_field (f := "y") (u := .w P.2) (e1 _) rfl (by decide) (get_left hG) rfl) rfl]
  cases setAt a (1 + i * 6) P.2 with
  | none => rfl
  | some a =>
  simp only [Option.bind_some, List.set_cons_zero]
  rw [step_row vn vi (by omega) (run_get_num (u := .w Q.x0) (ex _) (get_left hqx) rfl) rfl]
  cases setAt a (2 + i * 6) Q.x0 with
  | none => rfl
  | some a =>
  simp only [Option.bind_some, List.set_cons_zero]
  rw [step_row vn vi (by omega) (run_get_num (u := .w Q.x1) (ex _) (get_left hqx) rfl) rfl]
  cases setAt a (3 + i * 6) Q.x1 with
  | none => rfl
  | some a =>
  simp only [Option.bind_some, List.set_cons_zero]
  rw [step_row vn vi (by omega) (run_get_num (u := .w Q.y0) (ey _) (get_left hqy) rfl) rfl]
  cases setAt a (4 + i * 6) Q.y0 with
  | none => rfl
  | some a =>
  simp only [Option.bind_some, List.set_cons_zero]
  rw [step_row vn vi (by omega) (run_get_num (u := .w Q.y1) (ey _) (get_left hqy) rfl) rfl]
  cases setAt a (5 + i * 6) Q.y1 with
  | none => rfl
  | some a =>
  simp only [Option.bind_some, List.set_cons_zero]
  rw [rest_nil]

/-- `i < p1.length` -/
theorem test_length {o i : ℕ} {obj : Obj} (hx : vars "p1" = some (.ref o)) (ho : h[o]? = some obj) (vi : vars "i" = some (.word (BitVec.ofNat 256 i)))
    (hi : i < 2 ^ 256) (hl : obj.cells.length < 2 ^ 256) :
    Exp.test c (.bin .lt (.var "i") (.field (.var "p1") "length")) ⟨vars, h⟩ = some (⟨vars, h⟩, decide (i < obj.cells.length)) := by
  rw [Exp.test, run_bin (run_var vi) (run_length hx ho) (by rw [bin_word, wordOp, lit_big hi, lit_big hl])]
  rfl

/-- `i++` -/
theorem step_inc {i : ℕ} (vi : vars "i" = some (.word (BitVec.ofNat 256 i))) (hi : i + 1 < 2 ^ 256) :
    Stmt.run c ⟨vars, h⟩ (.exp (.inc "i")) = some (.next ⟨Function.update vars "i" (some (.word (BitVec.ofNat 256 (i + 1)))), h⟩) := by
  have h1 : lit 1 = some 1#256 := lit_small (by norm_num)
  have h2 : binOp .add (.word (BitVec.ofNat 256 i)) (.num 1) = some (.word (BitVec.ofNat 256 (i + 1))) := by
    simp only [binOp, V.toWord, h1, Option.bind_eq_bind, Option.bind_some, wordOp]
    rw [lit_big (by omega), if_pos (by simpa using hi), BitVec.ofNat_add]
  rw [Stmt.run, Exp.run, lookup]
  simp only [vi, Option.bind_eq_bind, Option.bind_some, h2, Option.pure_def, S.put]

theorem pair_rounds {o₁ o₂ : ℕ} {l₁ : List (Word × Word)} {l₂ : List G2Point} (h1 : IsArr IsG1 h o₁ l₁) (h2 : IsArr IsG2 h o₂ l₂)
    (he : l₁.length = l₂.length) (hs : l₁.length < 2 ^ 64) (z : Obj) :
    ∀ (n i fuel : ℕ) (a : List Word) (vars : String → Option V), i + n = l₁.length → n < fuel → vars "i" = some (.word (BitVec.ofNat 256 i)) →
      vars "p1" = some (.ref o₁) → vars "p2" = some (.ref o₂) → vars "input" = some (.ref (h.length + 0)) →
      match (List.range' i n).foldlM (pairingRow l₁ l₂) a with
      | none => loopRounds c (.bin .lt (.var "i") (.field (.var "p1") "length")) (.exp (.inc "i")) pairBody fuel ⟨vars, h ++ [dynObj a, z]⟩ = none
      | some a' => ∃ w, loopRounds c (.bin .lt (.var "i") (.field (.var "p1") "length")) (.exp (.inc "i")) pairBody fuel ⟨vars, h ++ [dynObj a, z]⟩ =
          some (.next ⟨Function.update vars "i" (some w), h ++ [dynObj a', z]⟩)
  | 0, i, fuel, a, vars, hi, hf, vi, v1, v2, vn => by
    obtain ⟨fuel, rfl⟩ : ∃ k, fuel = k + 1 := ⟨fuel - 1, by omega⟩
    obtain ⟨rs, r1, f1⟩ := h1
    refine ⟨.word (BitVec.ofNat 256 i), ?_⟩
    rw [rounds_done]
    · rw [← vi, Function.update_eq_self]
    · rw [test_length v1 (get_left r1) vi (by omega) (by simp [f1.length_eq]; omega), decide_eq_false]
      simp [f1.length_eq]
      omega
  | n + 1, i, fuel, a, vars, hi, hf, vi, v1, v2, vn => by
    obtain ⟨fuel, rfl⟩ : ∃ k, fuel = k + 1 := ⟨fuel - 1, by omega⟩
    have ht : Exp.test c (.bin .lt (.var "i") (.field (.var "p1") "length")) ⟨vars, h ++ [dynObj a, z]⟩ = some (⟨vars, h ++ [dynObj a, z]⟩, true) := by
      obtain ⟨rs, r1, f1⟩ := h1
      rw [test_length v1 (get_left r1) vi (by omega) (by simp [f1.length_eq]; omega), decide_eq_true]
      simp [f1.length_eq]
      omega
    have hr := pair_row (c := c) (a := a) h1 h2 v1 v2 vi vn (List.getElem?_eq_getElem (show i < l₁.length by omega))
      (List.getElem?_eq_getElem (show i < l₂.length by omega)) (by omega) z
    rw [List.range'_succ, List.foldlM_cons]
    cases hp : pairingRow l₁ l₂ a i with
    | none =>
      rw [hp] at hr
      exact rounds_none ht hr
    | some a' =>
      rw [hp] at hr
      have := pair_rounds h1 h2 he hs z n (i + 1) fuel a' (Function.update vars "i" (some (.word (BitVec.ofNat 256 (i + 1))))) (by omega) (by omega)
        (by simp) (by simp [Function.update_apply, v1]) (by simp [Function.update_apply, v2]) (by simp [Function.update_apply, vn])
      simp only [Option.bind_eq_bind, Option.bind_some]
      rw [rounds_next ht hr (step_inc vi (by omega))]
      simpa only [Function.update_idem] using this

theorem dyn_words (a : List Word) : (dynObj a).words = some (BitVec.ofNat 256 a.length :: a) := by
  have := arr_words a
  simp only [Obj.words, arrObj, Option.bind_eq_bind] at this
  simp only [Obj.words, dynObj, Option.bind_eq_bind]
  cases hm : (a.map Cell.w).mapM Cell.word? with
  | none => rw [hm] at this; cases this
  | some ws =>
    rw [hm] at this
    simp only [Option.bind_some, Bool.false_eq_true, if_false, Option.pure_def, Option.some.injEq] at this
    simp [this]

theorem setAt_length {a a' : List Word} {i : ℕ} {v : Word} (hs : setAt a i v = some a') : a'.length = a.length := by
  rw [setAt] at hs
  split at hs <;> simp_all
  rw [← hs, List.length_set]

theorem row_length {l₁ : List (Word × Word)} {l₂ : List G2Point} {a a' : List Word} {i : ℕ} (hr : pairingRow l₁ l₂ a i = some a') :
    a'.length = a.length := by
  unfold pairingRow at hr
  obtain ⟨P, -, hr⟩ := Option.bind_eq_some_iff.1 hr
  obtain ⟨Q, -, hr⟩ := Option.bind_eq_some_iff.1 hr
  obtain ⟨a1, h1, hr⟩ := Option.bind_eq_some_iff.1 hr
  obtain ⟨a2, h2, hr⟩ := Option.bind_eq_some_iff.1 hr
  obtain ⟨a3, h3, hr⟩ := Option.bind_eq_some_iff.1 hr
  obtain ⟨a4, h4, hr⟩ := Option.bind_eq_some_iff.1 hr
  obtain ⟨a5, h5, hr⟩ := Option.bind_eq_some_iff.1 hr
  rw [setAt_length hr, setAt_length h5, setAt_length h4, setAt_length h3, setAt_length h2, setAt_length h1]

theorem rows_length {l₁ : List (Word × Word)} {l₂ : List G2Point} : ∀ {is : List ℕ} {a a' : List Word},
    is.foldlM (pairingRow l₁ l₂) a = some a' → a'.length = a.length
  | [], a, a', hr => by cases hr; rfl
  | i :: is, a, a', hr => by
    rw [List.foldlM_cons] at hr
    obtain ⟨b, h1, h2⟩ := Option.bind_eq_some_iff.1 hr
    rw [rows_length h2, row_length h1]

/-- `require(e);` -/
theorem step_req {e : Exp} {b : Bool} (he : Exp.run c ⟨vars, h⟩ e = some (⟨vars, h⟩, [.bool b])) :
    rest c (.exp (.call "require" [e]) :: as) ⟨vars, h⟩ = if b then rest c as ⟨vars, h⟩ else none := by
  rw [rest_cons, Stmt.run, Exp.run, runAll, he]
  cases b <;> simp [runAll, oneV, applyFn, andThen_next, andThen_none]

/-- `new uint256[](x)` -/
theorem run_new {x : String} {n : ℕ} (hx : vars x = some (.word (BitVec.ofNat 256 n))) (hn : n < 2 ^ 256) :
    Exp.run c ⟨vars, h⟩ (.newArr "uint256" (.var x)) = some (⟨vars, h ++ [dynObj (List.replicate n 0)]⟩, [.ref h.length]) := by
  rw [Exp.run, run_var hx]
  simp only [Option.bind_eq_bind, Option.bind_some, oneV, V.toNat, lit_big hn, newArray, Heap.new, Option.pure_def, zeros, dynObj, List.map_replicate]

theorem asm_mul {s : S} {x : String} {n k : ℕ} (hx : s.vars x = some (.word (BitVec.ofNat 256 n))) (hn : n * k < 2 ^ 256) (hb : n < 2 ^ 256) :
    asmExp s (.call "mul" [.var x, .num k]) = some (.n (n * k)) := by
  rw [asmExp, hx]
  simp only [Option.bind_some, asmVal, lit_big hb, Nat.mod_eq_of_lt hn]

/-- `pairing`: verifier.sol:5-38. -/
theorem pairing_text {o₁ o₂ : ℕ} {l₁ : List (Word × Word)} {l₂ : List G2Point} (h1 : IsArr IsG1 h o₁ l₁) (h2 : IsArr IsG2 h o₂ l₂)
    (hs : l₁.length < 2 ^ 64) (hs' : l₂.length < 2 ^ 64) (hf : l₁.length < c.fuel) :
    ∃ g, pairingFn.run c [.ref o₁, .ref o₂] h = (pairing c.p l₁ l₂).map fun b => ([.bool b], h ++ g) := by
  obtain ⟨rs, r1, f1⟩ := id h1
  obtain ⟨qs, r2, f2⟩ := id h2
  have n1 : (Obj.cells ⟨true, rs.map Cell.r⟩).length = l₁.length := by simp [f1.length_eq]
  have n2 : (Obj.cells ⟨true, qs.map Cell.r⟩).length = l₂.length := by simp [f2.length_eq]
  have h6 : (BitVec.ofNat 256 6 : Word).toNat = 6 := lit_big (by norm_num)
  have hm : binOp .mul (.word (BitVec.ofNat 256 l₁.length)) (.num 6) = some (.word (BitVec.ofNat 256 (l₁.length * 6))) := by
    rw [bin_num (by norm_num), wordOp, lit_big (by omega), h6, if_pos (by omega), ← BitVec.ofNat_mul]
  have hq : binOp .eq (.word (BitVec.ofNat 256 l₁.length)) (.word (BitVec.ofNat 256 l₂.length)) = some (.bool (decide (l₁.length = l₂.length))) := by
    rw [bin_word, wordOp]
    congr 3
    refine propext ⟨fun e => ?_, fun e => by rw [e]⟩
    have := congrArg BitVec.toNat e
    rwa [lit_big (by omega), lit_big (by omega)] at this
  -- what is executed before the loop
  have hb : ∀ (P : Option Out → Prop), P (if decide (l₁.length = l₂.length) = true then Out.andThen (loopRounds c (.bin .lt (.var "i") (.field (.var "p1") "length"))
      (.exp (.inc "i")) pairBody c.fuel ⟨Function.update (Function.update (Function.update (Function.update (Function.update (Function.update (Function.update
        (fun _ => none) "p1" (some (.ref o₁))) "p2" (some (.ref o₂))) "length" (some (.word (BitVec.ofNat 256 (l₁.length * 6))))) "input"
        (some (.ref h.length))) "result" (some (.ref (h.length + 1)))) "ret" (some (.bool false))) "i" (some (.word (BitVec.ofNat 256 0))),
        h ++ [dynObj (List.replicate (l₁.length * 6) 0), ⟨false, zeros 1⟩]⟩) (rest c [
      .staticcall "ret" [.call "gas" [], .num 8, .call "add" [.var "input", .num 32], .call "mul" [.var "length", .num 32], .var "result", .num 32],
      .exp (.call "require" [.var "ret"]),
      .ret [.bin .ne (.index (.var "result") (.num 0)) (.num 0)]]) else none) →
      P (rest c pairingFn.body ⟨Function.update (Function.update (fun _ => none) "p1" (some (.ref o₁))) "p2" (some (.ref o₂)), h⟩) := by
    intro P hP
    dsimp only [pairingFn]
    rw [step_init (run_bin (run_length (o := o₁) (by vars) r1) (run_num _ _) (by rw [n1, hm])) rfl]
    rw [step_init (run_new (n := l₁.length * 6) (by vars) (by omega)) rfl, step_array, step_bool]
    rw [List.append_assoc, List.singleton_append, List.length_append]
    rw [step_req (run_bin (run_length (o := o₁) (by vars) (get_left r1)) (run_length (o := o₂) (by vars) (get_left r2)) (by rw [n1, n2, hq]))]
    rw [step_loop (init_zero _ _ _)]
    exact hP
  by_cases he : l₁.length = l₂.length
  · simp only [decide_eq_true he, if_true] at hb
    have hr := pair_rounds (c := c) h1 h2 he hs ⟨false, zeros 1⟩ l₁.length 0 c.fuel (List.replicate (l₁.length * 6) 0)
      (Function.update (Function.update (Function.update (Function.update (Function.update (Function.update (Function.update
        (fun _ => none) "p1" (some (.ref o₁))) "p2" (some (.ref o₂))) "length" (some (.word (BitVec.ofNat 256 (l₁.length * 6))))) "input"
        (some (.ref h.length))) "result" (some (.ref (h.length + 1)))) "ret" (some (.bool false))) "i" (some (.word (BitVec.ofNat 256 0))))
      (by omega) hf (by look) (by look) (by look) (by look)
    rw [← List.range_eq_range'] at hr
    have hp : pairing c.p l₁ l₂ = ((List.range l₁.length).foldlM (pairingRow l₁ l₂) (List.replicate (l₁.length * 6) 0)).bind fun a =>
        (ecPairing c.p a).map fun r => decide (r ≠ 0) := by
      rw [pairing, if_pos he]
      cases (List.range l₁.length).foldlM (pairingRow l₁ l₂) (List.replicate (l₁.length * 6) 0) with
      | none => rfl
      | some a =>
        simp only [Option.bind_eq_bind, Option.bind_some]
        cases ecPairing c.p a <;> rfl
    rw [hp]
    cases hz : (List.range l₁.length).foldlM (pairingRow l₁ l₂) (List.replicate (l₁.length * 6) 0) with
    | none =>
      rw [hz] at hr
      refine ⟨[], run_none rfl rfl (hb (· = none) ?_)⟩
      rw [hr]
      rfl
    | some a =>
      rw [hz] at hr
      obtain ⟨w, hw⟩ := hr
      have hl : a.length = l₁.length * 6 := by rw [rows_length hz, List.length_replicate]
      have hc : precompiled c.D c.p 8 ((BitVec.ofNat 256 a.length :: a).drop 1) (l₁.length * 6 * 32) = some ((ecPairing c.p a).map fun r => [r]) := by
        rw [List.drop_succ_cons, List.drop_zero, precompiled, if_pos (by omega)]
        simp only [show l₁.length * 6 * 32 % 192 = 0 by omega, if_true]
        rw [show l₁.length * 6 * 32 / 32 = a.length by omega, List.take_length]
      simp only [Option.bind_some]
      cases hv : ecPairing c.p a with
      | none =>
        rw [hv] at hc
        refine ⟨[], run_none rfl rfl (hb (· = none) ?_)⟩
        rw [hw, andThen_next]
        rw [step_call rfl (asm_add (j := 1) rfl (by vars)) (asm_mul (n := l₁.length * 6) (by vars) (by omega) (by omega)) (asm_ref (by vars)) rfl
          (call_none (n := 0) (m := 1) (i := 1) (j := 0) rfl (dyn_words a) hc)]
        exact step_require_not (by vars)
      | some r =>
        rw [hv] at hc
        refine ⟨[dynObj a, ⟨false, [.w r]⟩], ?_⟩
        refine run_ret (vs := [.bool (decide (r ≠ 0))]) rfl rfl (hb (· = _) ?_) rfl
        rw [hw, andThen_next]
        rw [step_call rfl (asm_add (j := 1) rfl (by vars)) (asm_mul (n := l₁.length * 6) (by vars) (by omega) (by omega)) (asm_ref (by vars)) rfl
          (call_some (n := 0) (m := 1) (i := 1) (j := 0) rfl (dyn_words a) hc rfl rfl rfl rfl)]
        rw [step_require (by vars)]
        refine step_ret (run_bin (run_index (k := 1) (u := .w r) (by vars) rfl rfl) (run_num _ _) ?_)
        rw [show Cell.val (.w r) = .word r from rfl, bin_num (by norm_num), wordOp]
        rfl
  · have hp : pairing c.p l₁ l₂ = none := by
      rw [pairing, if_neg he]
    rw [hp]
    refine ⟨[], run_none rfl rfl (hb (· = none) ?_)⟩
    rw [if_neg (by simpa using he)]

/-! ### Points of `G2` -/

/-- `s.x[0] = uint256({{...}});` and so on. -/
def g2Fn (name s x0 x1 y0 y1 : String) : Fn where
  name := name
  params := []
  rets := [(.plain "G2Point", some s)]
  body := [
    .assign [.index (.field (.var s) "x") (.num 0)] (.call "uint256" [.hole x0]),
    .assign [.index (.field (.var s) "x") (.num 1)] (.call "uint256" [.hole x1]),
    .assign [.index (.field (.var s) "y") (.num 0)] (.call "uint256" [.hole y0]),
    .assign [.index (.field (.var s) "y") (.num 1)] (.call "uint256" [.hole y1])]

theorem run_uint {x : String} {n : ℕ} (hx : c.fill x = some n) : Exp.run c ⟨vars, h⟩ (.call "uint256" [.hole x]) =
    (lit n).map fun w => (⟨vars, h⟩, [.word w]) := by
  rw [Exp.run, runAll, Exp.run, hx]
  simp only [Option.map_some, Option.bind_eq_bind, Option.bind_some, runAll, oneV, Option.pure_def, applyFn, V.toWord]
  cases lit n <;> rfl

/-- `s.f[i] = e;` -/
theorem step_coord {s f x : String} {m k i j n : ℕ} {cells cells' : List Cell} {u : Word} (hs : vars s = some (.ref (h.length + m)))
    (hf : fieldPos f = some j) (hl : f ≠ "length") (hm : g[m]? = some ⟨false, cells'⟩) (hj : cells'[j]? = some (.r (h.length + k)))
    (hk : g[k]? = some ⟨false, cells⟩) (hi : cells[i]? = some (.w u)) (hx : c.fill x = some n) :
    rest c (.assign [.index (.field (.var s) f) (.num i)] (.call "uint256" [.hole x]) :: as) ⟨vars, h ++ g⟩ =
      (lit n).bind fun w => rest c as ⟨vars, h ++ g.set k ⟨false, cells.set i (.w w)⟩⟩ := by
  rw [rest_cons, Stmt.run, run_uint hx]
  cases lit n with
  | none => rfl
  | some w =>
    simp only [Option.map_some, Option.bind_eq_bind, Option.bind_some, assignAll, assignTo]
    rw [run_get_field (run_var hs) hf hl (by rw [get_app, hm]) hj]
    simp only [Option.bind_some, run_num, oneV, V.toNat, Cell.val, writeAt, Option.bind_eq_bind, get_app, hk, hi, Cell.like, V.toWord, Option.map_some, set_app]
    rfl

/-- The objects of a point of `G2`. -/
def g2Objs (n : ℕ) (q : G2Point) : Heap := [⟨false, [.w q.x0, .w q.x1]⟩, ⟨false, [.w q.y0, .w q.y1]⟩, ⟨false, [.r n, .r (n + 1)]⟩]

theorem g2Objs_is (h : Heap) (q : G2Point) : IsG2 (h ++ g2Objs h.length q) (h.length + 2) q :=
  ⟨h.length, h.length + 1, by rw [get_app]; rfl, by rw [get_app0]; rfl, by rw [get_app]; rfl⟩

/-- `get_verify_circuit_g2_s` and the other three: verifier.sol:312-338. -/
theorem g2_text {name s x0 x1 y0 y1 : String} {n : (ℕ × ℕ) × ℕ × ℕ} (h1 : c.fill x0 = some n.1.1) (h2 : c.fill x1 = some n.1.2)
    (h3 : c.fill y0 = some n.2.1) (h4 : c.fill y1 = some n.2.2) (h : Heap) :
    (g2Fn name s x0 x1 y0 y1).run c [] h = (g2Point n).map fun q => ([.ref (h.length + 2)], h ++ g2Objs h.length q) := by
  have e : ∀ (P : Option Out → Prop), P ((lit n.1.1).bind fun w0 => (lit n.1.2).bind fun w1 => (lit n.2.1).bind fun w2 => (lit n.2.2).bind fun w3 =>
      some (.next ⟨Function.update (fun _ => none) s (some (.ref (h.length + 2))), h ++ g2Objs h.length ⟨w0, w1, w2, w3⟩⟩)) →
      P (rest c (g2Fn name s x0 x1 y0 y1).body ⟨Function.update (fun _ => none) s (some (.ref (h.length + 2))),
        h ++ [⟨false, zeros 2⟩, ⟨false, zeros 2⟩, ⟨false, [.r h.length, .r (h.length + 1)]⟩]⟩) := by
    intro P hP
    dsimp only [g2Fn]
    rw [step_coord (m := 2) (k := 0) (f := "x") (u := 0) (cells := zeros 2) (cells' := [.r h.length, .r (h.length + 1)]) (by vars) rfl (by decide) rfl rfl rfl rfl h1]
    cases hw : lit n.1.1 with
    | none => rw [hw] at hP; exact hP
    | some w0 =>
    rw [hw] at hP
    rw [Option.bind_some, step_coord (m := 2) (k := 0) (f := "x") (u := 0) (cells := [.w w0, .w 0]) (cells' := [.r h.length, .r (h.length + 1)]) (by vars) rfl (by decide) rfl rfl rfl rfl h2]
    cases hw : lit n.1.2 with
    | none => rw [hw] at hP; exact hP
    | some w1 =>
    rw [hw] at hP
    rw [Option.bind_some, step_coord (m := 2) (k := 1) (f := "y") (u := 0) (cells := zeros 2) (cells' := [.r h.length, .r (h.length + 1)]) (by vars) rfl (by decide) rfl rfl rfl rfl h3]
    cases hw : lit n.2.1 with
    | none => rw [hw] at hP; exact hP
    | some w2 =>
    rw [hw] at hP
    rw [Option.bind_some, step_coord (m := 2) (k := 1) (f := "y") (u := 0) (cells := [.w w2, .w 0]) (cells' := [.r h.length, .r (h.length + 1)]) (by vars) rfl (by decide) rfl rfl rfl rfl h4]
    cases hw : lit n.2.2 with
    | none => rw [hw] at hP; exact hP
    | some w3 =>
    rw [hw] at hP
    rw [Option.bind_some, rest_nil]
    exact hP
  have hd : declare c.fill (g2Fn name s x0 x1 y0 y1).rets ⟨fun _ => none, h⟩ = some ⟨Function.update (fun _ => none) s (some (.ref (h.length + 2))),
      h ++ [⟨false, zeros 2⟩, ⟨false, zeros 2⟩, ⟨false, [.r h.length, .r (h.length + 1)]⟩]⟩ := by
    simp [g2Fn, declare, default, Heap.new, S.put]
  unfold g2Point
  cases h1 : lit n.1.1 with
  | none => exact run_none rfl hd (e (· = none) (by rw [h1]; rfl))
  | some w0 =>
  cases h2 : lit n.1.2 with
  | none => exact run_none rfl hd (e (· = none) (by rw [h1, h2]; rfl))
  | some w1 =>
  cases h3 : lit n.2.1 with
  | none => exact run_none rfl hd (e (· = none) (by rw [h1, h2, h3]; rfl))
  | some w2 =>
  cases h4 : lit n.2.2 with
  | none => exact run_none rfl hd (e (· = none) (by rw [h1, h2, h3, h4]; rfl))
  | some w3 =>
  refine run_next (s'' := ⟨Function.update (fun _ => none) s (some (.ref (h.length + 2))), h ++ g2Objs h.length ⟨w0, w1, w2, w3⟩⟩) rfl hd
    (e (· = _) (by rw [h1, h2, h3, h4]; rfl)) ?_
  simp [named, g2Fn]

end Verif.Sol.Template
