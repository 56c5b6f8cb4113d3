import Verif.Sol.TemplateAssign
import Verif.Sol.TemplateLink
import Verif.Sol.TemplatePairing
import Verif.Top.PairingText

/-!
# The text of `verify`: C99

`halo2-snark-aggregator-solidity/templates/verifier.sol` lines 5-38 and 312-398, `src/lib.rs` lines 46-57. `get_wx_wg` is what C93 says about
its text.
-/

namespace Verif.Sol.Template
open Verif.Sol Verif.Circuit Verif.Ecc Verif.Api Verif.Top

variable {c : Cx} {vars : String → Option V} {h g : Heap} {as : List Stmt}

/-! ### The instances -/

/-- The state after some statements. -/
def Out.state : Out → Option S
  | .next s => some s
  | _ => none

/-- `x[i]` -/
theorem run_data_num {x : String} {l : List Word} (i : ℕ) (hx : vars x = some (.data l)) :
    Exp.run c ⟨vars, h⟩ (.index (.var x) (.num i)) = l[i]?.map fun v => (⟨vars, h⟩, [.word v]) := by
  rw [Exp.run, run_var hx]
  simp only [Option.bind_eq_bind, Option.bind_some, run_num, oneV, V.toNat, readAt]
  cases l[i]? <;> rfl

/-- `instances[i] = e;` -/
theorem step_inst {i : ℕ} {a : List Word} {e : Exp} {o : Option Word} (hx : vars "instances" = some (.ref h.length)) (hi : i < a.length)
    (he : Exp.run c ⟨vars, h ++ [arrObj a]⟩ e = o.map fun v => (⟨vars, h ++ [arrObj a]⟩, [.word v])) :
    rest c (.assign [.index (.var "instances") (.num i)] e :: as) ⟨vars, h ++ [arrObj a]⟩ =
      o.bind fun v => rest c as ⟨vars, h ++ [arrObj (a.set i v)]⟩ := by
  cases o with
  | none => exact step_assign_none he
  | some v =>
    rw [step_set (k := 0) (i := i) (d := false) (cells := a.map .w) (u := a[i]) (w := v) hx he rfl (by simp [hi]) rfl]
    simp [arrObj, List.map_set]

theorem assign_rounds {target : List Word} (vx : vars "instances" = some (.ref h.length))
    (vt : vars "target_circuit_final_pair" = some (.data target)) : ∀ (n i : ℕ) (a : List Word), a.length = i → i ≤ target.length →
    rest c ((List.range' i n).map fun i => .assign [.index (.var "instances") (.num i)] (.index (.var "target_circuit_final_pair") (.num i)))
      ⟨vars, h ++ [arrObj (a ++ List.replicate n 0)]⟩ =
      if i + n ≤ target.length then some (.next ⟨vars, h ++ [arrObj (a ++ (target.drop i).take n)]⟩) else none
  | 0, i, a, _, hi => by
    rw [if_pos (by omega)]
    simp [rest_nil]
  | n + 1, i, a, ha, hi => by
    rw [List.range'_succ, List.map_cons, step_inst vx (by simp [ha]) (run_data_num i vt)]
    by_cases hl : i < target.length
    · rw [List.getElem?_eq_getElem hl, Option.bind_some]
      have e : (a ++ List.replicate (n + 1) 0).set i target[i] = (a ++ [target[i]]) ++ List.replicate n 0 := by
        rw [List.set_append_right _ _ (by omega), ha, Nat.sub_self, List.replicate_succ, List.set_cons_zero]
        simp
      rw [e, assign_rounds vx vt n (i + 1) (a ++ [target[i]]) (by simp [ha]) (by omega)]
      rw [List.drop_eq_getElem_cons hl, List.take_succ_cons]
      simp only [List.append_assoc, List.singleton_append, show i + 1 + n = i + (n + 1) by omega]
    · rw [List.getElem?_eq_none (by omega), if_neg (by omega)]
      rfl

/-- `x[i] & ((1 << 136) - 1)` -/
theorem run_low {target : List Word} (i : ℕ) (y : Word) (vt : vars "target_circuit_final_pair" = some (.data target)) :
    Exp.run c ⟨vars, h⟩ (.bin .and (.index (.var "target_circuit_final_pair") (.num i)) (.bin .sub (.bin .shl (.num 1) (.num 136)) (.num 1))) =
      (target[i]?.map fun x => (contractPoint x y).1).map fun v => (⟨vars, h⟩, [.word v]) := by
  have h1 : Exp.run c ⟨vars, h⟩ (.bin .sub (.bin .shl (.num 1) (.num 136)) (.num 1)) = some (⟨vars, h⟩, [.num (2 ^ 136 - 1)]) :=
    run_bin (run_bin (run_num _ _) (run_num _ _) rfl) (run_num _ _) rfl
  have h2 : (BitVec.ofNat 256 (2 ^ 136 - 1) : Word) = (1#256 <<< 136) - 1#256 := by decide +kernel
  cases ht : target[i]? with
  | none =>
    rw [Exp.run, run_data_num i vt, ht]
    rfl
  | some x =>
    rw [run_bin (v := .word (contractPoint x y).1) (by rw [run_data_num i vt, ht]; rfl) h1 (by rw [bin_num (by norm_num), wordOp, h2]; rfl)]
    rfl

theorem high_lt (x y : Word) : (x >>> 136).toNat + ((y &&& 1#256) <<< 136).toNat < 2 ^ 256 := by
  have h1 : (x >>> 136).toNat < 2 ^ 120 := by
    rw [BitVec.toNat_ushiftRight, Nat.shiftRight_eq_div_pow]
    have := x.isLt
    omega
  have h2 : (y &&& 1#256).toNat ≤ 1 := by
    rw [BitVec.toNat_and]
    exact Nat.and_le_right
  have h3 : ((y &&& 1#256) <<< 136).toNat ≤ 2 ^ 136 := by
    rw [BitVec.toNat_shiftLeft, Nat.shiftLeft_eq]
    exact (Nat.mod_le _ _).trans (by omega)
  omega

/-- `(x[i] >> 136) + ((x[j] & 1) << 136)` -/
theorem run_high {target : List Word} (i j : ℕ) (vt : vars "target_circuit_final_pair" = some (.data target)) :
    Exp.run c ⟨vars, h⟩ (.bin .add (.bin .shr (.index (.var "target_circuit_final_pair") (.num i)) (.num 136))
      (.bin .shl (.bin .and (.index (.var "target_circuit_final_pair") (.num j)) (.num 1)) (.num 136))) =
      (target[i]?.bind fun x => target[j]?.map fun y => (contractPoint x y).2).map fun v => (⟨vars, h⟩, [.word v]) := by
  cases hi : target[i]? with
  | none =>
    rw [Exp.run, Exp.run, run_data_num i vt, hi]
    rfl
  | some x =>
    have h1 : Exp.run c ⟨vars, h⟩ (.bin .shr (.index (.var "target_circuit_final_pair") (.num i)) (.num 136)) =
        some (⟨vars, h⟩, [.word (x >>> 136)]) :=
      run_bin (by rw [run_data_num i vt, hi]; rfl) (run_num _ _) (shr_num (by norm_num))
    cases hj : target[j]? with
    | none =>
      rw [Exp.run, h1]
      simp only [Option.bind_eq_bind, Option.bind_some]
      rw [Exp.run, Exp.run, run_data_num j vt, hj]
      rfl
    | some y =>
      have h2 : Exp.run c ⟨vars, h⟩ (.bin .shl (.bin .and (.index (.var "target_circuit_final_pair") (.num j)) (.num 1)) (.num 136)) =
          some (⟨vars, h⟩, [.word ((y &&& 1#256) <<< 136)]) :=
        run_bin (run_bin (by rw [run_data_num j vt, hj]; rfl) (run_num _ _) (by rw [bin_num (by norm_num), wordOp])) (run_num _ _) (shl_num (by norm_num))
      rw [run_bin h1 h2 (v := .word (contractPoint x y).2) (by rw [bin_word, wordOp, if_pos (high_lt x y)]; rfl)]
      rfl

/-- verifier.sol:360-367. -/
theorem instances_text {target : List Word} {size : ℕ} (hz : 4 ≤ size) (hf : c.fill "instance_size" = some size)
    (hs : ∀ s, c.splice "instance_assign" s = (rest c (instanceAssign size) s).bind Out.state)
    (vt : vars "target_circuit_final_pair" = some (.data target)) :
    rest c (verifyFn.body.take 6 ++ as) ⟨vars, h⟩ = (contractInstances size target).bind fun inst =>
      rest c as ⟨Function.update vars "instances" (some (.ref h.length)), h ++ [arrObj inst]⟩ := by
  have hd : rest c (verifyFn.body.take 6 ++ as) ⟨vars, h⟩ = rest c ((verifyFn.body.drop 1).take 5 ++ as)
      ⟨Function.update vars "instances" (some (.ref h.length)), h ++ [arrObj (List.replicate size 0)]⟩ := by
    dsimp only [verifyFn, List.take, List.drop, List.cons_append, List.nil_append]
    rw [rest_cons, Stmt.run]
    simp [default, Size.val, hf, Heap.new, zeros, arrObj, andThen_next, S.put]
  rw [hd]
  generalize hv : Function.update vars "instances" (some (.ref h.length)) = vars'
  have vx : vars' "instances" = some (.ref h.length) := by rw [← hv]; simp
  have vt' : vars' "target_circuit_final_pair" = some (.data target) := by rw [← hv]; simpa using vt
  obtain ⟨n, rfl⟩ : ∃ n, size = 4 + n := ⟨size - 4, by omega⟩
  dsimp only [verifyFn, List.take, List.drop, List.cons_append, List.nil_append]
  rw [step_inst vx (by simp) (run_low 0 0 vt')]
  have hn : ∀ l : List Word, l.length < 4 → contractInstances (4 + n) l = none := fun l hl => if_pos (by omega)
  match target, vt' with
  | [], vt' => rw [hn _ (by simp)]; rfl
  | [x0], vt' =>
    simp only [List.getElem?_cons_zero, Option.map_some, Option.bind_some]
    rw [step_inst vx (by simp; omega) (run_high 0 1 vt')]
    rw [hn _ (by simp)]
    rfl
  | [x0, y0], vt' =>
    simp only [List.getElem?_cons_zero, Option.map_some, Option.bind_some]
    rw [step_inst vx (by simp; omega) (run_high 0 1 vt')]
    simp only [List.getElem?_cons_zero, List.getElem?_cons_succ, Option.map_some, Option.bind_some]
    rw [step_inst vx (by simp; omega) (run_low 2 0 vt')]
    rw [hn _ (by simp)]
    rfl
  | [x0, y0, x1], vt' =>
    simp only [List.getElem?_cons_zero, Option.map_some, Option.bind_some]
    rw [step_inst vx (by simp; omega) (run_high 0 1 vt')]
    simp only [List.getElem?_cons_zero, List.getElem?_cons_succ, Option.map_some, Option.bind_some]
    rw [step_inst vx (by simp; omega) (run_low 2 0 vt')]
    simp only [List.getElem?_cons_zero, List.getElem?_cons_succ, Option.map_some, Option.bind_some]
    rw [step_inst vx (by simp; omega) (run_high 2 3 vt')]
    rw [hn _ (by simp)]
    rfl
  | x0 :: y0 :: x1 :: y1 :: r, vt' =>
    simp only [List.getElem?_cons_zero, Option.map_some, Option.bind_some]
    rw [step_inst vx (by simp; omega) (run_high 0 1 vt')]
    simp only [List.getElem?_cons_zero, List.getElem?_cons_succ, Option.map_some, Option.bind_some]
    rw [step_inst vx (by simp; omega) (run_low 2 0 vt')]
    simp only [List.getElem?_cons_zero, List.getElem?_cons_succ, Option.map_some, Option.bind_some]
    rw [step_inst vx (by simp; omega) (run_high 2 3 vt')]
    simp only [List.getElem?_cons_zero, List.getElem?_cons_succ, Option.map_some, Option.bind_some]
    have e : ((((List.replicate (4 + n) (0 : Word)).set 0 (contractPoint x0 0).1).set 1 (contractPoint x0 y0).2).set 2 (contractPoint x1 0).1).set 3
        (contractPoint x1 y1).2 = [(contractPoint x0 y0).1, (contractPoint x0 y0).2, (contractPoint x1 y1).1, (contractPoint x1 y1).2] ++
        List.replicate n 0 := by
      rw [show 4 + n = n + 1 + 1 + 1 + 1 by omega]
      rfl
    rw [e, rest_cons, Stmt.run, hs]
    rw [instanceAssign, show 4 + n - 4 = n by omega, assign_rounds vx vt' n 4 _ rfl (by simp)]
    unfold contractInstances
    by_cases hl : 4 + n ≤ (x0 :: y0 :: x1 :: y1 :: r).length
    · rw [if_pos hl, if_neg (by omega), show 4 + n - 4 = n by omega]
      rfl
    · rw [if_neg hl, if_pos (by omega)]
      rfl

/-! ### Memory of `verify` -/

/-- The objects of `verify`: `instances`, two points and the array of them, two points of `G2` that are not used, and the array of references to points of `G2`. -/
def mem (h : Heap) (I : Obj) (x0 y0 x1 y1 : Word) (u v : ℕ) (t : Heap) : Heap :=
  h ++ (I :: ⟨false, [.w x0, .w y0]⟩ :: ⟨false, [.w x1, .w y1]⟩ :: ⟨true, [.r (h.length + 1), .r (h.length + 2)]⟩ :: ⟨false, zeros 2⟩ :: ⟨false, zeros 2⟩ ::
    ⟨false, [.r (h.length + 4), .r (h.length + 5)]⟩ :: ⟨false, zeros 2⟩ :: ⟨false, zeros 2⟩ :: ⟨false, [.r (h.length + 7), .r (h.length + 8)]⟩ ::
    ⟨true, [.r u, .r v]⟩ :: t)

variable {I : Obj} {x0 y0 x1 y1 : Word} {u v : ℕ} {t : Heap}

theorem mem_app (g : Heap) : mem h I x0 y0 x1 y1 u v t ++ g = mem h I x0 y0 x1 y1 u v (t ++ g) := by
  simp [mem]

theorem mem_length : (mem h I x0 y0 x1 y1 u v t).length = h.length + 11 + t.length := by
  simp [mem]
  omega

/-- A point of `G2` after the objects of `verify`. -/
theorem mem_is (q : G2Point) (g : Heap) : IsG2 (mem h I x0 y0 x1 y1 u v (t ++ g2Objs (h.length + 11 + t.length) q ++ g)) (h.length + 11 + t.length + 2) q := by
  have := (g2Objs_is (mem h I x0 y0 x1 y1 u v t) q).left (g := g)
  rwa [mem_length, mem_app, mem_app] at this

/-- `new G1Point[](2)` -/
theorem run_g1s : Exp.run c ⟨vars, h⟩ (.newArr "G1Point" (.num 2)) =
    some (⟨vars, h ++ [⟨false, zeros 2⟩, ⟨false, zeros 2⟩, ⟨true, [.r h.length, .r (h.length + 1)]⟩]⟩, [.ref (h.length + 2)]) := by
  rw [Exp.run, run_num]
  simp [oneV, V.toNat, newArray, elements, default, Heap.new]

/-- `new G2Point[](2)` -/
theorem run_g2s : Exp.run c ⟨vars, h⟩ (.newArr "G2Point" (.num 2)) =
    some (⟨vars, h ++ [⟨false, zeros 2⟩, ⟨false, zeros 2⟩, ⟨false, [.r h.length, .r (h.length + 1)]⟩, ⟨false, zeros 2⟩, ⟨false, zeros 2⟩,
      ⟨false, [.r (h.length + 3), .r (h.length + 4)]⟩, ⟨true, [.r (h.length + 2), .r (h.length + 5)]⟩]⟩, [.ref (h.length + 6)]) := by
  rw [Exp.run, run_num]
  simp [oneV, V.toNat, newArray, elements, default, Heap.new]

/-! ### The checks -/

/-- `g1_points[i].f = e;` -/
theorem step_point_set {i j k : ℕ} {f : String} {e : Exp} {w z : Word} {cells : List Cell} {rs : List ℕ} (vx : vars "g1_points" = some (.ref (h.length + 3)))
    (he : Exp.run c ⟨vars, h ++ g⟩ e = some (⟨vars, h ++ g⟩, [.word w])) (ha : g[3]? = some ⟨true, rs.map .r⟩) (hr : rs[i]? = some (h.length + k))
    (hk : g[k]? = some ⟨false, cells⟩) (hf : fieldPos f = some j) (hc : cells[j]? = some (.w z)) :
    rest c (.assign [.field (.index (.var "g1_points") (.num i)) f] e :: as) ⟨vars, h ++ g⟩ =
      rest c as ⟨vars, h ++ g.set k ⟨false, cells.set j (.w w)⟩⟩ := by
  rw [rest_cons, Stmt.run, he]
  simp only [Option.bind_eq_bind, Option.bind_some, assignAll, assignTo]
  rw [run_get_num (u := .r (h.length + k)) (run_var vx) (by rw [get_app, ha]) (by simp [hr])]
  simp only [Option.bind_some, oneV, Cell.val, hf, writeAt, Option.bind_eq_bind, get_app, hk, hc, Cell.like, V.toWord, Option.map_some, set_app]
  rfl

/-- A call without arguments. -/
theorem run_call0 {f : String} : Exp.run c ⟨vars, h⟩ (.call f []) = (applyFn c f [] h).map fun r => (⟨vars, r.2⟩, r.1) := by
  rw [Exp.run, runAll]
  simp only [Option.bind_eq_bind, Option.bind_some, Option.pure_def]
  cases applyFn c f [] h <;> rfl

/-- What a function for a point of `G2` does. -/
def G2Text (c : Cx) (f : String) (n : (ℕ × ℕ) × ℕ × ℕ) : Prop :=
  ∀ h, applyFn c f [] h = (g2Point n).map fun q => ([.ref (h.length + 2)], h ++ g2Objs h.length q)

/-- What `pairing` does. -/
def PairingText (c : Cx) : Prop := ∀ (h : Heap) o₁ o₂ (l₁ : List (Word × Word)) (l₂ : List G2Point), IsArr IsG1 h o₁ l₁ → IsArr IsG2 h o₂ l₂ →
  l₁.length = 2 → l₂.length = 2 → ∃ g, applyFn c "pairing" [.ref o₁, .ref o₂] h = (pairing c.p l₁ l₂).map fun b => ([.bool b], h ++ g)

/-- `g2_points[0] = f();` -/
theorem step_g2_0 {f : String} {n : (ℕ × ℕ) × ℕ × ℕ} (hf : G2Text c f n) (vx : vars "g2_points" = some (.ref (h.length + 10))) :
    rest c (.assign [.index (.var "g2_points") (.num 0)] (.call f []) :: as) ⟨vars, mem h I x0 y0 x1 y1 u v t⟩ = (g2Point n).bind fun q =>
      rest c as ⟨vars, mem h I x0 y0 x1 y1 (h.length + 11 + t.length + 2) v (t ++ g2Objs (h.length + 11 + t.length) q)⟩ := by
  rw [rest_cons, Stmt.run, run_call0, hf]
  cases g2Point n with
  | none => rfl
  | some q =>
    simp only [Option.map_some, Option.bind_eq_bind, Option.bind_some, assignAll, assignTo, mem_app, mem_length]
    rw [run_var vx]
    simp only [Option.bind_some, run_num, oneV, V.toNat, writeAt, Option.bind_eq_bind, mem, get_app, set_app]
    rfl

/-- `g2_points[1] = f();` -/
theorem step_g2_1 {f : String} {n : (ℕ × ℕ) × ℕ × ℕ} (hf : G2Text c f n) (vx : vars "g2_points" = some (.ref (h.length + 10))) :
    rest c (.assign [.index (.var "g2_points") (.num 1)] (.call f []) :: as) ⟨vars, mem h I x0 y0 x1 y1 u v t⟩ = (g2Point n).bind fun q =>
      rest c as ⟨vars, mem h I x0 y0 x1 y1 u (h.length + 11 + t.length + 2) (t ++ g2Objs (h.length + 11 + t.length) q)⟩ := by
  rw [rest_cons, Stmt.run, run_call0, hf]
  cases g2Point n with
  | none => rfl
  | some q =>
    simp only [Option.map_some, Option.bind_eq_bind, Option.bind_some, assignAll, assignTo, mem_app, mem_length]
    rw [run_var vx]
    simp only [Option.bind_some, run_num, oneV, V.toNat, writeAt, Option.bind_eq_bind, mem, get_app, set_app]
    rfl

/-- verifier.sol:378-387 and 389-397. -/
theorem check_text {e0 e1 e2 e3 : Exp} {w0 w1 w2 w3 : Word} {f f' : String} {s n : (ℕ × ℕ) × ℕ × ℕ} {b : Bool}
    (v1 : vars "g1_points" = some (.ref (h.length + 3))) (v2 : vars "g2_points" = some (.ref (h.length + 10))) (vc : vars "checked" = some (.bool b))
    (h0 : ∀ H, Exp.run c ⟨vars, H⟩ e0 = some (⟨vars, H⟩, [.word w0])) (h1 : ∀ H, Exp.run c ⟨vars, H⟩ e1 = some (⟨vars, H⟩, [.word w1]))
    (h2 : ∀ H, Exp.run c ⟨vars, H⟩ e2 = some (⟨vars, H⟩, [.word w2])) (h3 : ∀ H, Exp.run c ⟨vars, H⟩ e3 = some (⟨vars, H⟩, [.word w3]))
    (hf : G2Text c f s) (hf' : G2Text c f' n) (hp : PairingText c) :
    ∃ u' v' t', rest c (.assign [.field (.index (.var "g1_points") (.num 0)) "x"] e0 :: .assign [.field (.index (.var "g1_points") (.num 0)) "y"] e1 ::
      .assign [.field (.index (.var "g1_points") (.num 1)) "x"] e2 :: .assign [.field (.index (.var "g1_points") (.num 1)) "y"] e3 ::
      .assign [.index (.var "g2_points") (.num 0)] (.call f []) :: .assign [.index (.var "g2_points") (.num 1)] (.call f' []) ::
      .assign [.var "checked"] (.call "pairing" [.var "g1_points", .var "g2_points"]) :: .exp (.call "require" [.var "checked"]) :: as)
      ⟨vars, mem h I x0 y0 x1 y1 u v t⟩ = (pairingWith c.p s n w0 w1 w2 w3).bind fun r => if r then
        rest c as ⟨Function.update vars "checked" (some (.bool true)), mem h I w0 w1 w2 w3 u' v' t'⟩ else none := by
  have hs : ∀ (P : Option Out → Prop), P (rest c (.assign [.index (.var "g2_points") (.num 0)] (.call f []) ::
      .assign [.index (.var "g2_points") (.num 1)] (.call f' []) :: .assign [.var "checked"] (.call "pairing" [.var "g1_points", .var "g2_points"]) ::
      .exp (.call "require" [.var "checked"]) :: as) ⟨vars, mem h I w0 w1 w2 w3 u v t⟩) → P (rest c (.assign [.field (.index (.var "g1_points") (.num 0)) "x"] e0 ::
      .assign [.field (.index (.var "g1_points") (.num 0)) "y"] e1 ::
      .assign [.field (.index (.var "g1_points") (.num 1)) "x"] e2 :: .assign [.field (.index (.var "g1_points") (.num 1)) "y"] e3 ::
      .assign [.index (.var "g2_points") (.num 0)] (.call f []) :: .assign [.index (.var "g2_points") (.num 1)] (.call f' []) ::
      .assign [.var "checked"] (.call "pairing" [.var "g1_points", .var "g2_points"]) :: .exp (.call "require" [.var "checked"]) :: as)
      ⟨vars, mem h I x0 y0 x1 y1 u v t⟩) := by
    intro P hP
    rw [mem, step_point_set (k := 1) (f := "x") (j := 0) (z := x0) (rs := [h.length + 1, h.length + 2]) (cells := [.w x0, .w y0]) v1 (h0 _) rfl rfl rfl rfl rfl]
    rw [step_point_set (k := 1) (f := "y") (j := 1) (z := y0) (rs := [h.length + 1, h.length + 2]) (cells := [.w w0, .w y0]) v1 (h1 _) rfl rfl rfl rfl rfl]
    rw [step_point_set (k := 2) (f := "x") (j := 0) (z := x1) (rs := [h.length + 1, h.length + 2]) (cells := [.w x1, .w y1]) v1 (h2 _) rfl rfl rfl rfl rfl]
    rw [step_point_set (k := 2) (f := "y") (j := 1) (z := y1) (rs := [h.length + 1, h.length + 2]) (cells := [.w w2, .w y1]) v1 (h3 _) rfl rfl rfl rfl rfl]
    exact hP
  rw [pairingWith]
  cases e1 : g2Point s with
  | none =>
    refine ⟨0, 0, [], hs (· = _) ?_⟩
    rw [step_g2_0 hf v2, e1]
    rfl
  | some q =>
  cases e2 : g2Point n with
  | none =>
    refine ⟨0, 0, [], hs (· = _) ?_⟩
    rw [step_g2_0 hf v2, e1, Option.bind_some, step_g2_1 hf' v2, e2]
    rfl
  | some q' =>
  simp only [Option.bind_eq_bind, Option.bind_some]
  generalize hM : mem h I w0 w1 w2 w3 (h.length + 11 + t.length + 2) (h.length + 11 + (t ++ g2Objs (h.length + 11 + t.length) q).length + 2)
    (t ++ g2Objs (h.length + 11 + t.length) q ++ g2Objs (h.length + 11 + (t ++ g2Objs (h.length + 11 + t.length) q).length) q') = M
  have a1 : IsArr IsG1 M (h.length + 3) [(w0, w1), (w2, w3)] := by
    subst hM
    refine ⟨[h.length + 1, h.length + 2], by rw [mem, get_app]; rfl, .cons ?_ (.cons ?_ .nil)⟩ <;> rw [IsG1, mem, get_app] <;> rfl
  have a2 : IsArr IsG2 M (h.length + 10) [q, q'] := by
    subst hM
    refine ⟨[h.length + 11 + t.length + 2, h.length + 11 + (t ++ g2Objs (h.length + 11 + t.length) q).length + 2], by rw [mem, get_app]; rfl, .cons ?_ (.cons ?_ .nil)⟩
    · exact mem_is q _
    · have := mem_is (h := h) (I := I) (x0 := w0) (y0 := w1) (x1 := w2) (y1 := w3) (u := h.length + 11 + t.length + 2)
        (v := h.length + 11 + (t ++ g2Objs (h.length + 11 + t.length) q).length + 2) (t := t ++ g2Objs (h.length + 11 + t.length) q) q' []
      rwa [List.append_nil] at this
  obtain ⟨g, hg⟩ := hp M _ _ _ _ a1 a2 rfl rfl
  have hc : Exp.run c ⟨vars, M⟩ (.call "pairing" [.var "g1_points", .var "g2_points"]) =
      (pairing c.p [(w0, w1), (w2, w3)] [q, q']).map fun b => (⟨vars, M ++ g⟩, [.bool b]) := by
    rw [Exp.run, runAll, run_var v1]
    simp only [Option.bind_eq_bind, Option.bind_some]
    rw [runAll, run_var v2]
    simp only [Option.bind_eq_bind, Option.bind_some, runAll, oneV, Option.pure_def, hg]
    cases pairing c.p [(w0, w1), (w2, w3)] [q, q'] <;> rfl
  cases hr : pairing c.p [(w0, w1), (w2, w3)] [q, q'] with
  | none =>
    refine ⟨0, 0, [], hs (· = _) ?_⟩
    rw [step_g2_0 hf v2, e1, Option.bind_some, step_g2_1 hf' v2, e2, Option.bind_some, hM]
    rw [step_assign_none (by rw [hc, hr]; rfl)]
    rfl
  | some r =>
    refine ⟨h.length + 11 + t.length + 2, h.length + 11 + (t ++ g2Objs (h.length + 11 + t.length) q).length + 2,
      t ++ g2Objs (h.length + 11 + t.length) q ++ g2Objs (h.length + 11 + (t ++ g2Objs (h.length + 11 + t.length) q).length) q' ++ g, hs (· = _) ?_⟩
    rw [step_g2_0 hf v2, e1, Option.bind_some, step_g2_1 hf' v2, e2, Option.bind_some, hM]
    rw [step_assign (u := .bool b) (v := .bool r) (w := .bool r) (by rw [hc, hr]; rfl) vc rfl]
    cases r with
    | false =>
      rw [step_require_not (by simp)]
      rfl
    | true =>
      rw [step_require (by simp), Option.bind_some, if_pos rfl, ← mem_app, hM]

/-! ### The function -/

/-- `verify` returns: verifier.sol:356-398. -/
def Accepted (p : Pairing) (size : ℕ) (W : List Word → Option (Word × Word × Word × Word)) (vs vn ts tn : (ℕ × ℕ) × ℕ × ℕ) (target : List Word) : Prop :=
  ∃ inst x0 y0 x1 y1, contractInstances size target = some inst ∧ W inst = some (x0, y0, x1, y1) ∧ pairingWith p vs vn x0 y0 x1 y1 = some true ∧
    ∃ a b x y rest, target = a :: b :: x :: y :: rest ∧ pairingWith p ts tn a b x y = some true

theorem instances_some {size : ℕ} {target inst : List Word} (hi : contractInstances size target = some inst) : ∃ a b x y rest, target = a :: b :: x :: y :: rest := by
  unfold contractInstances at hi
  split at hi
  · cases hi
  · split at hi
    · exact ⟨_, _, _, _, _, rfl⟩
    · cases hi

theorem tail_text {a0 b0 a1 b1 : Word} {proof inst rs : List Word} {o : Option (Word × Word × Word × Word)} {vs vn ts tn : (ℕ × ℕ) × ℕ × ℕ}
    {z0 z1 z2 z3 : Word} (vp : vars "proof" = some (.data proof)) (vi : vars "instances" = some (.ref h.length))
    (vt : vars "target_circuit_final_pair" = some (.data (a0 :: b0 :: a1 :: b1 :: rs))) (vx0 : vars "x0" = some (.word z0)) (vy0 : vars "y0" = some (.word z1))
    (vx1 : vars "x1" = some (.word z2)) (vy1 : vars "y1" = some (.word z3)) (v1 : vars "g1_points" = some (.ref (h.length + 3)))
    (v2 : vars "g2_points" = some (.ref (h.length + 10))) (vc : vars "checked" = some (.bool false))
    (hw : ∀ (h : Heap) k, h[k]? = some (arrObj inst) → ∃ g, applyFn c "get_wx_wg" [.data proof, .ref k] h =
      o.map fun r => ([.word r.1, .word r.2.1, .word r.2.2.1, .word r.2.2.2], h ++ g))
    (h1 : G2Text c "get_verify_circuit_g2_s" vs) (h2 : G2Text c "get_verify_circuit_g2_n" vn) (h3 : G2Text c "get_target_circuit_g2_s" ts)
    (h4 : G2Text c "get_target_circuit_g2_n" tn) (hp : PairingText c) :
    ∃ vars' g, rest c (verifyFn.body.drop 13) ⟨vars, mem h (arrObj inst) x0 y0 x1 y1 u v t⟩ = o.bind fun r =>
      (pairingWith c.p vs vn r.1 r.2.1 r.2.2.1 r.2.2.2).bind fun b => if b then
        (pairingWith c.p ts tn a0 b0 a1 b1).bind fun b => if b then some (.next ⟨vars', h ++ g⟩) else none else none := by
  obtain ⟨g, hg⟩ := hw (mem h (arrObj inst) x0 y0 x1 y1 u v t) h.length (by rw [mem, get_app0]; rfl)
  have hc : Exp.run c ⟨vars, mem h (arrObj inst) x0 y0 x1 y1 u v t⟩ (.call "get_wx_wg" [.var "proof", .var "instances"]) =
      o.map fun r => (⟨vars, mem h (arrObj inst) x0 y0 x1 y1 u v t ++ g⟩, [.word r.1, .word r.2.1, .word r.2.2.1, .word r.2.2.2]) := by
    rw [Exp.run, runAll, run_var vp]
    simp only [Option.bind_eq_bind, Option.bind_some]
    rw [runAll, run_var vi]
    simp only [Option.bind_eq_bind, Option.bind_some, runAll, oneV, Option.pure_def, hg]
    cases o <;> rfl
  dsimp only [verifyFn, List.drop]
  cases o with
  | none =>
    refine ⟨vars, [], ?_⟩
    rw [step_assign_none hc]
    rfl
  | some r =>
    obtain ⟨r0, r1, r2, r3⟩ := r
    generalize hv : Function.update (Function.update (Function.update (Function.update vars "y1" (some (.word r3))) "x1" (some (.word r2))) "y0"
      (some (.word r1))) "x0" (some (.word r0)) = vars'
    have e1 : vars' "x0" = some (.word r0) := by rw [← hv]; look
    have e2 : vars' "y0" = some (.word r1) := by rw [← hv]; look
    have e3 : vars' "x1" = some (.word r2) := by rw [← hv]; look
    have e4 : vars' "y1" = some (.word r3) := by rw [← hv]; look
    have e5 : vars' "g1_points" = some (.ref (h.length + 3)) := by rw [← hv]; look
    have e6 : vars' "g2_points" = some (.ref (h.length + 10)) := by rw [← hv]; look
    have e7 : vars' "checked" = some (.bool false) := by rw [← hv]; look
    have e8 : vars' "target_circuit_final_pair" = some (.data (a0 :: b0 :: a1 :: b1 :: rs)) := by rw [← hv]; look
    have hs : ∀ as, rest c (.assign [.var "x0", .var "y0", .var "x1", .var "y1"] (.call "get_wx_wg" [.var "proof", .var "instances"]) :: as)
        ⟨vars, mem h (arrObj inst) x0 y0 x1 y1 u v t⟩ = rest c as ⟨vars', mem h (arrObj inst) x0 y0 x1 y1 u v (t ++ g)⟩ := by
      intro as
      rw [rest_cons, Stmt.run, hc, mem_app]
      simp [assignAll, assignTo, Function.update_apply, vx0, vy0, vx1, vy1, V.like, V.toWord, S.put, andThen_next, hv]
    generalize hu : Function.update vars' "checked" (some (.bool true)) = vars''
    have d1 : vars'' "g1_points" = some (.ref (h.length + 3)) := by rw [← hu]; look
    have d2 : vars'' "g2_points" = some (.ref (h.length + 10)) := by rw [← hu]; look
    have d3 : vars'' "checked" = some (.bool true) := by rw [← hu]; look
    have d4 : vars'' "target_circuit_final_pair" = some (.data (a0 :: b0 :: a1 :: b1 :: rs)) := by rw [← hu]; look
    obtain ⟨u', v', t', hk⟩ := check_text (h := h) (I := arrObj inst) (x0 := x0) (y0 := y0) (x1 := x1) (y1 := y1) (u := u) (v := v) (t := t ++ g)
      (as := verifyFn.body.drop 22) e5 e6 e7 (fun H => run_var e1) (fun H => run_var e2) (fun H => run_var e3) (fun H => run_var e4) h1 h2 hp
    obtain ⟨u'', v'', t'', hk'⟩ := check_text (h := h) (I := arrObj inst) (x0 := r0) (y0 := r1) (x1 := r2) (y1 := r3) (u := u') (v := v') (t := t')
      (as := []) (w0 := a0) (w1 := b0) (w2 := a1) (w3 := b1) d1 d2 d3 (fun H => by rw [run_data_num 0 d4]; rfl) (fun H => by rw [run_data_num 1 d4]; rfl)
      (fun H => by rw [run_data_num 2 d4]; rfl) (fun H => by rw [run_data_num 3 d4]; rfl) h3 h4 hp
    obtain ⟨g', hg'⟩ : ∃ g', mem h (arrObj inst) a0 b0 a1 b1 u'' v'' t'' = h ++ g' := ⟨_, rfl⟩
    refine ⟨Function.update vars'' "checked" (some (.bool true)), g', ?_⟩
    rw [hs]
    refine hk.trans ?_
    rw [Option.bind_some]
    cases pairingWith c.p vs vn r0 r1 r2 r3 with
    | none => rfl
    | some b =>
      cases b with
      | false => rfl
      | true =>
        simp only [Option.bind_some, if_true, hu]
        refine hk'.trans ?_
        simp only [rest_nil, hg']

/-- `verify`: verifier.sol:356-398. -/
theorem verify_text {proof target : List Word} {size : ℕ} {W : List Word → Option (Word × Word × Word × Word)} {vs vn ts tn : (ℕ × ℕ) × ℕ × ℕ}
    (hz : 4 ≤ size) (hf : c.fill "instance_size" = some size)
    (hs : ∀ s, c.splice "instance_assign" s = (rest c (instanceAssign size) s).bind Out.state)
    (hw : ∀ inst, contractInstances size target = some inst → ∀ (h : Heap) k, h[k]? = some (arrObj inst) → ∃ g, applyFn c "get_wx_wg" [.data proof, .ref k] h =
      (W inst).map fun r => ([.word r.1, .word r.2.1, .word r.2.2.1, .word r.2.2.2], h ++ g))
    (h1 : G2Text c "get_verify_circuit_g2_s" vs) (h2 : G2Text c "get_verify_circuit_g2_n" vn) (h3 : G2Text c "get_target_circuit_g2_s" ts)
    (h4 : G2Text c "get_target_circuit_g2_n" tn) (hp : PairingText c) (h : Heap) :
    (Accepted c.p size W vs vn ts tn target → ∃ g, verifyFn.run c [.data proof, .data target] h = some ([], h ++ g)) ∧
      (¬ Accepted c.p size W vs vn ts tn target → verifyFn.run c [.data proof, .data target] h = none) := by
  generalize hv : Function.update (Function.update (fun _ => none) "proof" (some (V.data proof))) "target_circuit_final_pair" (some (V.data target)) = vars
  have vp : vars "proof" = some (.data proof) := by rw [← hv]; look
  have vt : vars "target_circuit_final_pair" = some (.data target) := by rw [← hv]; look
  have vf : vars "false" = none := by rw [← hv]; look
  have hb : bind verifyFn.params [.data proof, .data target] ⟨fun _ => none, h⟩ = some ⟨vars, h⟩ := by rw [← hv]; rfl
  have hbody : rest c verifyFn.body ⟨vars, h⟩ = _ := instances_text (as := verifyFn.body.drop 6) (h := h) hz hf hs vt
  cases hi : contractInstances size target with
  | none =>
    rw [hi] at hbody
    refine ⟨?_, fun _ => run_none hb rfl hbody⟩
    rintro ⟨inst, _, _, _, _, h, -⟩
    rw [hi] at h
    cases h
  | some inst =>
    obtain ⟨a0, b0, a1, b1, rs, rfl⟩ := instances_some hi
    rw [hi, Option.bind_some] at hbody
    have h0 : V.coerce (.plain "uint256") (.num 0) = some (.word 0#256) := by
      simp [V.coerce, V.toWord, lit_small (n := 0) (by norm_num)]
    generalize hv' : Function.update (Function.update (Function.update (Function.update (Function.update (Function.update (Function.update
      (Function.update vars "instances" (some (.ref h.length))) "x0" (some (.word 0#256))) "x1" (some (.word 0#256))) "y0" (some (.word 0#256))) "y1"
      (some (.word 0#256))) "g1_points" (some (.ref (h.length + 3)))) "g2_points" (some (.ref (h.length + 10)))) "checked" (some (.bool false)) = vars'
    have hd : rest c (verifyFn.body.drop 6) ⟨Function.update vars "instances" (some (.ref h.length)), h ++ [arrObj inst]⟩ =
        rest c (verifyFn.body.drop 13) ⟨vars', mem h (arrObj inst) 0 0 0 0 (h.length + 6) (h.length + 9) []⟩ := by
      dsimp only [verifyFn, List.drop]
      rw [step_init (run_num _ _) h0, step_init (run_num _ _) h0, step_init (run_num _ _) h0, step_init (run_num _ _) h0]
      rw [step_init run_g1s rfl, step_init run_g2s rfl]
      rw [step_init (run_const (v := .bool false) (by look) rfl) rfl]
      rw [← hv']
      simp [mem, zeros]
    obtain ⟨vars'', g, hr⟩ := tail_text (vars := vars') (h := h) (proof := proof) (inst := inst) (x0 := 0) (y0 := 0) (x1 := 0) (y1 := 0) (u := h.length + 6)
      (v := h.length + 9) (t := []) (o := W inst) (by rw [← hv']; look) (by rw [← hv']; look) (a0 := a0) (b0 := b0) (a1 := a1) (b1 := b1) (rs := rs)
      (by rw [← hv']; look) (z0 := 0) (by rw [← hv']; look) (z1 := 0) (by rw [← hv']; look) (z2 := 0) (by rw [← hv']; look) (z3 := 0) (by rw [← hv']; look)
      (by rw [← hv']; look) (by rw [← hv']; look) (by rw [← hv']; look) (hw inst hi) h1 h2 h3 h4 hp
    rw [hd, hr] at hbody
    constructor
    · rintro ⟨inst', w0, w1, w2, w3, e1, e2, e3, _, _, _, _, _, e4, e5⟩
      rw [hi] at e1
      cases e1
      cases e4
      rw [e2] at hbody
      simp only [Option.bind_some, e3, e5, if_true] at hbody
      exact ⟨g, run_next hb rfl hbody rfl⟩
    · intro hn
      refine run_none hb rfl (hbody.trans ?_)
      cases e2 : W inst with
      | none => rfl
      | some r =>
        obtain ⟨w0, w1, w2, w3⟩ := r
        rw [Option.bind_some]
        cases e3 : pairingWith c.p vs vn w0 w1 w2 w3 with
        | none => rfl
        | some b =>
          cases b with
          | false => rfl
          | true =>
            simp only [Option.bind_some, if_true]
            cases e4 : pairingWith c.p ts tn a0 b0 a1 b1 with
            | none => rfl
            | some b =>
              cases b with
              | false => rfl
              | true => exact absurd ⟨inst, w0, w1, w2, w3, hi, e2, e3, _, _, _, _, _, rfl, e4⟩ hn

/-! ### The contract -/

/-- **C99**, `pairing`. -/
theorem C99_pairing (B : Base) (d : ℕ) {h : Heap} {o₁ o₂ : ℕ} {l₁ : List (Word × Word)} {l₂ : List G2Point} (h1 : IsArr IsG1 h o₁ l₁) (h2 : IsArr IsG2 h o₂ l₂)
    (hs : l₁.length < 2 ^ 64) (hs' : l₂.length < 2 ^ 64) (hf : l₁.length < B.fuel) :
    ∃ g, B.call (d + 1) "pairing" [.ref o₁, .ref o₂] h = (pairing B.p l₁ l₂).map fun b => ([.bool b], h ++ g) := by
  rw [call_find (by decide) (by find_fn)]
  exact pairing_text (c := B.cx (B.call d)) h1 h2 hs hs' hf

/-- The numbers that are filled in: lib.rs:54-121. -/
def fillOf (F : Filled) : String → Option ℕ
  | "instance_size" => some F.instanceSize
  | "verify_circuit_s_g2_x0" => some F.verifyS.1.1
  | "verify_circuit_s_g2_x1" => some F.verifyS.1.2
  | "verify_circuit_s_g2_y0" => some F.verifyS.2.1
  | "verify_circuit_s_g2_y1" => some F.verifyS.2.2
  | "verify_circuit_n_g2_x0" => some F.verifyN.1.1
  | "verify_circuit_n_g2_x1" => some F.verifyN.1.2
  | "verify_circuit_n_g2_y0" => some F.verifyN.2.1
  | "verify_circuit_n_g2_y1" => some F.verifyN.2.2
  | "target_circuit_s_g2_x0" => some F.targetS.1.1
  | "target_circuit_s_g2_x1" => some F.targetS.1.2
  | "target_circuit_s_g2_y0" => some F.targetS.2.1
  | "target_circuit_s_g2_y1" => some F.targetS.2.2
  | "target_circuit_n_g2_x0" => some F.targetN.1.1
  | "target_circuit_n_g2_x1" => some F.targetN.1.2
  | "target_circuit_n_g2_y0" => some F.targetN.2.1
  | "target_circuit_n_g2_y1" => some F.targetN.2.2
  | _ => none

/-- **C99**, the functions for points of `G2`: the names in the text and what is filled in belong together. -/
theorem C99_g2 {B : Base} {F : Filled} (hb : B.fill = fillOf F) (d : ℕ) (h : Heap) :
    (B.call (d + 1) "get_verify_circuit_g2_s" [] h = (g2Point F.verifyS).map fun q => ([.ref (h.length + 2)], h ++ g2Objs h.length q)) ∧
    (B.call (d + 1) "get_verify_circuit_g2_n" [] h = (g2Point F.verifyN).map fun q => ([.ref (h.length + 2)], h ++ g2Objs h.length q)) ∧
    (B.call (d + 1) "get_target_circuit_g2_s" [] h = (g2Point F.targetS).map fun q => ([.ref (h.length + 2)], h ++ g2Objs h.length q)) ∧
    (B.call (d + 1) "get_target_circuit_g2_n" [] h = (g2Point F.targetN).map fun q => ([.ref (h.length + 2)], h ++ g2Objs h.length q)) := by
  have hc : (B.cx (B.call d)).fill = fillOf F := hb
  refine ⟨?_, ?_, ?_, ?_⟩ <;> rw [call_find (by decide) (by find_fn)] <;> refine g2_text (c := B.cx (B.call d)) ?_ ?_ ?_ ?_ h <;> rw [hc] <;> rfl

open Classical in
/-- The result of a call of `get_wx_wg` with the given text: `Text.Returns`. -/
noncomputable def textResult (t : String) (c : Call) : Option (Word × Word × Word × Word) := if hr : ∃ r, Text.Returns t c r then hr.choose else none

theorem textResult_eq {t : String} {c : Call} {r : Option (Word × Word × Word × Word)} (hr : Text.Returns t c r) : textResult t c = r := by
  have : ∃ r, Text.Returns t c r := ⟨r, hr⟩
  rw [textResult, dif_pos this]
  exact this.choose_spec.unique hr

theorem textResult_some {t : String} {c : Call} {r : Word × Word × Word × Word} : textResult t c = some r ↔ Text.Returns t c (some r) := by
  refine ⟨fun hr => ?_, textResult_eq⟩
  unfold textResult at hr
  split at hr
  · next hx => rw [← hr]; exact hx.choose_spec
  · cases hr

/-- The template filled with `F`: the numbers, the statements of lib.rs:46-52, and `get_wx_wg` with the text of C93, which leaves the memory of `verify` as it is. -/
structure Deployed (F : Filled) (B : Base) : Prop where
  fill : B.fill = fillOf F
  splice : ∀ c s, B.splice "instance_assign" s = (parseStmts (instancesText F.instanceSize)).bind fun cs => (rest c cs s).bind Out.state
  wxwg : ∀ proof inst (h : Heap) k, h[k]? = some (arrObj inst) → ∃ g, B.wxwg [.data proof, .ref k] h =
    (textResult F.text ⟨B.D, proof, inst⟩).map fun r => ([.word r.1, .word r.2.1, .word r.2.2.1, .word r.2.2.2], h ++ g)

/-- A call of `verify` of the text. -/
noncomputable def Base.verify (B : Base) (d : ℕ) (proof target : List Word) (h : Heap) : Option (List V × Heap) :=
  ((parseItem verifyFnText).bind Item.fn?).bind fun f => f.run (B.cx (B.call d)) [.data proof, .data target] h

/-- **C99.** A call of the text of `verify` returns, without a result, if `Filled.Accepts`; otherwise it reverts. -/
theorem C99_verify {F : Filled} {B : Base} (hB : Deployed F B) (hz : 4 ≤ F.instanceSize) (hf : 2 < B.fuel) (d : ℕ) (proof target : List Word) (h : Heap) :
    (F.Accepts B.p B.D proof target → ∃ g, B.verify (d + 1) proof target h = some ([], h ++ g)) ∧
      (¬ F.Accepts B.p B.D proof target → B.verify (d + 1) proof target h = none) := by
  have hv : B.verify (d + 1) proof target h = verifyFn.run (B.cx (B.call (d + 1))) [.data proof, .data target] h := by
    rw [Base.verify, parse_verifyFn]
    rfl
  have ha : F.Accepts B.p B.D proof target ↔ Accepted B.p F.instanceSize (fun inst => textResult F.text ⟨B.D, proof, inst⟩) F.verifyS F.verifyN F.targetS F.targetN target := by
    unfold Filled.Accepts Accepted
    simp only [textResult_some]
  have hg : ∀ h, _ := fun h => C99_g2 hB.fill d h
  rw [ha, hv]
  refine verify_text (c := B.cx (B.call (d + 1))) hz ?_ (fun s => by rw [← Option.bind_some (instanceAssign F.instanceSize) fun cs => (rest _ cs s).bind Out.state, ← C99_instances]; exact hB.splice _ s) ?_ (fun h => ?_) (fun h => ?_) (fun h => ?_) (fun h => ?_) ?_ h
  · exact (congrFun hB.fill _).trans rfl
  · intro inst _ h k hk
    obtain ⟨g, hw⟩ := hB.wxwg proof inst h k hk
    refine ⟨g, ?_⟩
    rw [← hw]
    simp [applyFn, Base.cx, Base.call]
  · rw [← (hg h).1]
    simp [applyFn, Base.cx]
  · rw [← (hg h).2.1]
    simp [applyFn, Base.cx]
  · rw [← (hg h).2.2.1]
    simp [applyFn, Base.cx]
  · rw [← (hg h).2.2.2]
    simp [applyFn, Base.cx]
  · intro h o₁ o₂ l₁ l₂ i1 i2 n1 n2
    obtain ⟨g, hp⟩ := C99_pairing B d i1 i2 (by omega) (by omega) (by omega)
    refine ⟨g, ?_⟩
    rw [show (B.cx (B.call (d + 1))).p = B.p from rfl, ← hp]
    simp [applyFn, Base.cx]

/-- **C99** for `verify_solidity`: the text of the contract accepts what `Verifier.verify` accepts. -/
theorem C99_contract {S : System} {rate : ℕ} {ps : PoseidonSpec N rate} {K : Digest} {ord : List Interval → List Interval} {checks : Bool}
    {ts : List (TargetCircuit S)} {f : Folder} {V : Verifier} (h : dispatchVerifySolidity S ps K ord checks ts f = some V)
    (hs : ∀ V', recordSolidity S ps K ts f = some V' → Sized V'.prog) {params : S.Params} (hl : loadVerifyParams S f = some params)
    {p : Pairing} {sg g : Sol.G2} (hp : ∀ l r, S.pairing params l r ↔ Pairing.Holds p sg g l r) (hz : 4 ≤ V.instanceSize) :
    ∃ F, fillTemplate sg g V = some F ∧ ∀ B, Deployed F B → B.p = p → 2 < B.fuel → ∀ d proof target H, proof.length ≤ 2 ^ 256 → target.length ≤ 2 ^ 256 →
      ((∃ H', B.verify (d + 1) proof target H = some ([], H ++ H')) ↔ V.verify B.D proof target = some ()) := by
  obtain ⟨F, h1, h2⟩ := C95_contract h hs hl hp
  refine ⟨F, h1, fun B hB hBp hf d proof target H a b => ?_⟩
  have hz' : F.instanceSize = V.instanceSize := by
    unfold fillTemplate at h1
    obtain ⟨t, -, h1⟩ := Option.bind_eq_some_iff.1 h1
    cases h1
    rfl
  obtain ⟨h3, h4⟩ := C99_verify hB (hz'.symm ▸ hz) hf d proof target H
  rw [hBp] at h3 h4
  rw [← h2 B.D proof target a b]
  refine ⟨fun hx => by_contra fun hn => ?_, h3⟩
  obtain ⟨H', hx⟩ := hx
  rw [h4 hn] at hx
  cases hx

/-! ### A contract -/

theorem assign_indep (c c' : Cx) : ∀ (is : List ℕ) (s : S),
    rest c (is.map fun i => .assign [.index (.var "instances") (.num i)] (.index (.var "target_circuit_final_pair") (.num i))) s =
      rest c' (is.map fun i => .assign [.index (.var "instances") (.num i)] (.index (.var "target_circuit_final_pair") (.num i))) s
  | [], s => by rw [List.map_nil, rest_nil, rest_nil]
  | i :: is, s => by
    have e : ∀ s, Stmt.run c s (.assign [.index (.var "instances") (.num i)] (.index (.var "target_circuit_final_pair") (.num i))) =
        Stmt.run c' s (.assign [.index (.var "instances") (.num i)] (.index (.var "target_circuit_final_pair") (.num i))) := fun s => by
      have ha : ∀ s vs, assignAll c s [.index (.var "instances") (.num i)] vs = assignAll c' s [.index (.var "instances") (.num i)] vs := by
        rintro s (_ | ⟨v, _ | ⟨w, vs⟩⟩)
        · simp only [assignAll]
        · simp only [assignAll, assignTo, Exp.run]
        · simp only [assignAll]
          rfl
      simp only [Stmt.run, Exp.run, ha]
    rw [List.map_cons, rest_cons, rest_cons, e, funext (assign_indep c c' is)]

/-- The template filled with `F`. -/
noncomputable def baseOf (F : Filled) (p : Pairing) (D : Digest) (fuel : ℕ) : Base where
  fill := fillOf F
  D := D
  p := p
  splice := fun x s => if x = "instance_assign" then
    (parseStmts (instancesText F.instanceSize)).bind fun cs => (rest ⟨fillOf F, D, p, fun _ _ => none, fuel, fun _ _ _ => none⟩ cs s).bind Out.state
    else none
  fuel := fuel
  wxwg := fun args h => match args with
    | [.data proof, .ref k] => (h[k]?.bind Obj.words).bind fun inst =>
      (textResult F.text ⟨D, proof, inst⟩).map fun r => ([.word r.1, .word r.2.1, .word r.2.2.1, .word r.2.2.2], h)
    | _ => none

theorem baseOf_deployed (F : Filled) (p : Pairing) (D : Digest) (fuel : ℕ) : Deployed F (baseOf F p D fuel) where
  fill := rfl
  splice := fun c s => by
    simp only [baseOf, if_true, C99_instances, Option.bind_some]
    exact congrArg (·.bind Out.state) (assign_indep _ c _ s)
  wxwg := fun proof inst h k hk => ⟨[], by
    simp only [baseOf, hk, Option.bind_some, arr_words, List.append_nil]⟩

/-- The first word of the caller is missing. -/
example (F : Filled) (p : Pairing) (D : Digest) (proof : List Word) (hz : 4 ≤ F.instanceSize) : (baseOf F p D 3).verify 1 proof [] [] = none := by
  refine (C99_verify (baseOf_deployed F p D 3) hz (by simp [baseOf]) 0 proof [] []).2 ?_
  rintro ⟨_, _, _, _, _, -, -, -, _, _, _, _, _, e, -⟩
  cases e

/-- The files of `PairedRun` are accepted by the text of the contract made of them. -/
example (checks : Bool) : ∃ F H, (baseOf F logPairing TinyContract.digest 3).verify 1 (bufferToUint256LE OptimisedRun.pf)
    (bufferToUint256LE (finalPairBytes TinyRun.created.finalPair)) [] = some ([], H) := by
  obtain ⟨V, F, h1, h2, h3⟩ := PairedRun.accepted checks
  have hz : 4 ≤ F.instanceSize := by
    obtain ⟨V', q, g1, -, -, g2, -⟩ := solidity_recorded.1 h1
    have := (recorded_after (TinyRun.filesOf PairedRun.key OptimisedRun.pf PairedRun.holds) g1).2.1
    unfold fillTemplate at h2
    obtain ⟨t, -, h2⟩ := Option.bind_eq_some_iff.1 h2
    cases h2
    show 4 ≤ V.instanceSize
    omega
  obtain ⟨H, hH⟩ := (C99_verify (baseOf_deployed F logPairing TinyContract.digest 3) hz (by simp [baseOf]) 0 _ _ []).1 h3
  exact ⟨F, _, hH⟩

end Verif.Sol.Template
