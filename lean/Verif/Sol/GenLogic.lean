import Verif.Sol.Gen

/-!
# What the recorded statements mean

For a fixed call and fixed values of the variables in which all recorded assignments hold, the expression of every assigned value has the
value it stands for. This is an instance of `Api.Logic`, so that everything proved about the generic verifier applies to the contract.
-/

namespace Verif.Sol
open Verif.Circuit Verif.Ecc

/-! ### Values of expressions -/

section
variable (χ : Word → Word → Pt) (E : Env) (s : St)

/-- The point two words stand for. The contract has to revert when it computes with words that do not describe a point; so whatever `χ`
puts in their place does not matter. -/
def ptOf (x y : Word) : Pt := (g1 x y).getD (χ x y)

/-- The scalar an expression of a scalar stands for. -/
def sval : Expr → N
  | .memory o _ => frOf (s.m o)
  | .transcript o _ => frOf (E.proof.getD o 0)
  | .inst o _ => frOf (E.inst.getD o 0)
  | .scalar n => n
  | .mulAdd l r c _ => sval l * sval r + sval c
  | _ => 0

/-- The point an expression of a point stands for. -/
def pval : Expr → Pt
  | .memory o _ => ptOf χ (s.m o) (s.m (o + 1))
  | .transcript o _ => ptOf χ (E.proof.getD o 0) (E.proof.getD (o + 1) 0)
  | .inst o _ => ptOf χ (E.inst.getD o 0) (E.inst.getD (o + 1) 0)
  | .point x y => ptOf χ (BitVec.ofNat 256 x) (BitVec.ofNat 256 y)
  | _ => 0

/-- An assignment of the program holds; challenges are treated separately. -/
def Stmt.HoldsAt : Stmt → Prop
  | .assign l r => (∃ o, r = .hash o) ∨ ∃ v, eval E s l = some v ∧ eval E s r = some v
  | _ => True

end

variable {χ : Word → Word → Pt} {E : Env} {s : St}

theorem ptOf_eq {x y : Word} {P : Pt} (h : g1 x y = some P) : ptOf χ x y = P := by
  unfold ptOf
  rw [h, Option.getD_some]

theorem lit_eq {n : ℕ} {w : Word} (h : lit n = some w) : w = BitVec.ofNat 256 n ∧ w.toNat = n := by
  unfold lit at h
  split at h
  · next hn =>
    cases h
    exact ⟨rfl, by rw [BitVec.toNat_ofNat, Nat.mod_eq_of_lt hn]⟩
  · cases h

theorem readArr_scalar {a : List Word} {o : ℕ} {v : Val} (h : readArr a o .scalar = some v) : v = .s (a.getD o 0) := by
  obtain ⟨w, h1, rfl⟩ := Option.map_eq_some_iff.1 h
  rw [List.getD_eq_getElem?_getD, h1, Option.getD_some]

theorem readArr_point {a : List Word} {o : ℕ} {v : Val} (h : readArr a o .point = some v) : v = .p (a.getD o 0) (a.getD (o + 1) 0) := by
  obtain ⟨x, h1, h2⟩ := Option.bind_eq_some_iff.1 h
  obtain ⟨y, h3, h4⟩ := Option.bind_eq_some_iff.1 h2
  cases h4
  rw [List.getD_eq_getElem?_getD, List.getD_eq_getElem?_getD, h1, h3, Option.getD_some, Option.getD_some]

theorem load_eq {o : ℕ} {w : Word} (h : E.load s o = some w) : w = s.m o := by
  unfold Env.load at h
  split at h
  · exact (Option.some.inj h).symm
  · cases h

theorem readMem_scalar {o : ℕ} {v : Val} (h : E.readMem s o .scalar = some v) : v = .s (s.m o) := by
  obtain ⟨w, h1, rfl⟩ := Option.map_eq_some_iff.1 h
  rw [load_eq h1]

theorem readMem_point {o : ℕ} {v : Val} (h : E.readMem s o .point = some v) : v = .p (s.m o) (s.m (o + 1)) := by
  obtain ⟨x, h1, h2⟩ := Option.bind_eq_some_iff.1 h
  obtain ⟨y, h3, h4⟩ := Option.bind_eq_some_iff.1 h2
  cases h4
  rw [load_eq h1, load_eq h3]

theorem opMulAdd_scalar {a b c v : Val} (h : opMulAdd .scalar a b c = some v) :
    ∃ x y z, a = .s x ∧ b = .s y ∧ c = .s z ∧ v = .s (frMulAdd x y z) := by
  cases a <;> cases b <;> cases c <;> simp only [opMulAdd, reduceCtorEq] at h
  cases h
  exact ⟨_, _, _, rfl, rfl, rfl, rfl⟩

theorem eval_sform : ∀ {e : Expr}, e.SForm → ∀ {v : Val}, eval E s e = some v → ∃ w, v = .s w ∧ frOf w = sval E s e
  | .memory o t, hf, v, h => by
    obtain rfl : t = .scalar := hf
    exact ⟨_, readMem_scalar h, rfl⟩
  | .transcript o t, hf, v, h => by
    obtain rfl : t = .scalar := hf
    exact ⟨_, readArr_scalar h, rfl⟩
  | .inst o t, hf, v, h => by
    obtain rfl : t = .scalar := hf
    exact ⟨_, readArr_scalar h, rfl⟩
  | .tmpBuf o t, _, v, h => by cases h
  | .scalar n, _, v, h => by
    obtain ⟨w, h1, rfl⟩ := Option.map_eq_some_iff.1 (show (lit n).map Val.s = some v from h)
    exact ⟨w, rfl, congrArg Nat.cast (lit_eq h1).2⟩
  | .mulAdd l r c t, hf, v, h => by
    obtain ⟨hl, hr, hc, rfl⟩ : l.SForm ∧ r.SForm ∧ c.SForm ∧ t = .scalar := hf
    obtain ⟨a, h1, h2⟩ := Option.bind_eq_some_iff.1 h
    obtain ⟨b, h3, h4⟩ := Option.bind_eq_some_iff.1 h2
    obtain ⟨d, h5, h6⟩ := Option.bind_eq_some_iff.1 h4
    obtain ⟨x, y, z, rfl, rfl, rfl, rfl⟩ := opMulAdd_scalar h6
    obtain ⟨x', ex, hx⟩ := eval_sform hl h1
    obtain ⟨y', ey, hy⟩ := eval_sform hr h3
    obtain ⟨z', ez, hz⟩ := eval_sform hc h5
    cases ex; cases ey; cases ez
    exact ⟨_, rfl, by rw [C50_mul_add, frOf_wordOf, hx, hy, hz]; rfl⟩
  | .point .., hf, _, _ | .add .., hf, _, _ | .sub .., hf, _, _ | .mul .., hf, _, _ | .div .., hf, _, _ | .mulAddPM .., hf, _, _
  | .mulAddMT .., hf, _, _ | .pow .., hf, _, _ | .hash _, hf, _, _ | .temp _, hf, _, _ => hf.elim

theorem eval_pform {e : Expr} (hf : e.PForm) {v : Val} (h : eval E s e = some v) : ∃ x y, v = .p x y ∧ ptOf χ x y = pval χ E s e := by
  cases e with
  | memory o t =>
    obtain rfl : t = .point := hf
    exact ⟨_, _, readMem_point h, rfl⟩
  | transcript o t =>
    obtain rfl : t = .point := hf
    exact ⟨_, _, readArr_point h, rfl⟩
  | inst o t =>
    obtain rfl : t = .point := hf
    exact ⟨_, _, readArr_point h, rfl⟩
  | point x y =>
    obtain ⟨a, h1, h2⟩ := Option.bind_eq_some_iff.1 h
    obtain ⟨b, h3, h4⟩ := Option.bind_eq_some_iff.1 h2
    cases h4
    exact ⟨_, _, rfl, by rw [(lit_eq h1).1, (lit_eq h3).1]; rfl⟩
  | _ => exact hf.elim

theorem sval_const (k : N) : sval E s (SVal.const k).expr = k := by
  show ((k.val : ℕ) : N) = k
  exact ZMod.natCast_rightInverse k

theorem SVal.sval_lit {a : SVal} (h : a.isConst = true) : sval E s a.expr = a.v := by
  rw [a.lit h]
  exact sval_const a.v

theorem pval_pointExpr (P : Pt) : pval χ E s (pointExpr P) = P := ptOf_eq (g1_g1Words P)

theorem PVal.pval_lit {a : PVal} (h : a.isConst = true) : pval χ E s a.expr = a.v := by
  rw [a.lit h]
  exact pval_pointExpr a.v

/-! ### Guarantees -/

variable (E s) in
/-- When the recorded assignments hold, so does `Q` of the result. -/
def GEns {α : Type} (x : Gen α) (Q : α → Prop) : Prop :=
  ∀ k a k', x.1 k = some (a, k') → k.mock = false → k.Cached → (∀ c ∈ k'.stmts, c.HoldsAt E s) → Q a

namespace GEns

theorem pure {α : Type} {a : α} {Q : α → Prop} (h : Q a) : GEns E s (Pure.pure a : Gen α) Q := by
  rintro k b k' hk - - -
  cases hk
  exact h

theorem bind {α β : Type} {x : Gen α} {f : α → Gen β} {Q : α → Prop} {R : β → Prop} (hx : GEns E s x Q) (hf : ∀ a, Q a → GEns E s (f a) R) :
    GEns E s (x >>= f) R := by
  intro k b k' hk hm hc hh
  obtain ⟨r, h1, h2⟩ := Option.bind_eq_some_iff.1 (show (x.1 k).bind (fun r => (f r.1).1 r.2) = some (b, k') from hk)
  have g1 := x.2 _ _ _ h1
  have g2 := (f r.1).2 _ _ _ h2
  exact hf r.1 (hx k r.1 r.2 h1 hm hc fun c hcm => hh c (g2.stmts.subset hcm)) r.2 b k' h2 (g1.mock.trans hm) (g1.cached hc) hh

theorem mono {α : Type} {x : Gen α} {Q R : α → Prop} (hx : GEns E s x Q) (h : ∀ a, Q a → R a) : GEns E s x R :=
  fun k a k' hk hm hc hh => h a (hx k a k' hk hm hc hh)

theorem triv {α : Type} (x : Gen α) : GEns E s x fun _ => True := fun _ _ _ _ _ _ _ => trivial

theorem fail {α : Type} {Q : α → Prop} : GEns E s (Gen.fail : Gen α) Q := fun _ _ _ h => by cases h

/-- The location returned for an expression holds its value. -/
theorem assignMemory {e : Expr} (he : ∀ o, e ≠ .hash o) : GEns E s (Gen.assignMemory e) fun o =>
    ∃ v, eval E s (.memory o e.type) = some v ∧ eval E s e = some v := by
  intro k o k' hk hm hc hh
  have hk' : k.assignMemory e = (o, k') := Option.some.inj hk
  have hmem : .assign (.memory o e.type) e ∈ k'.stmts := by
    unfold Ctx.assignMemory at hk'
    split at hk'
    · next x hx =>
      cases hk'
      have h1 : x.1 = e := by simpa using List.find?_some hx
      have h2 := hc x (List.mem_of_find?_eq_some hx)
      rwa [h1] at h2
    · rw [hm] at hk'
      cases hk'
      exact List.mem_append_right _ (List.mem_singleton.2 rfl)
  rcases hh _ hmem with ⟨o', ho⟩ | h
  · exact absurd ho (he o')
  · exact h

theorem scalar {e : Expr} {v : N} (he : ∀ o, e ≠ .hash o) (ht : e.type = .scalar) : GEns E s (Gen.scalar e v) fun r =>
    ∃ w, eval E s e = some (.s w) ∧ sval E s r.expr = frOf w := by
  refine bind (assignMemory he) fun o ho => pure ?_
  obtain ⟨v, h1, h2⟩ := ho
  rw [ht] at h1
  exact ⟨s.m o, by rw [h2, readMem_scalar h1], rfl⟩

theorem point {e : Expr} {v : Pt} (he : ∀ o, e ≠ .hash o) (ht : e.type = .point) : GEns E s (Gen.point e v) fun r =>
    ∃ x y, eval E s e = some (.p x y) ∧ pval χ E s r.expr = ptOf χ x y := by
  unfold Gen.point
  split
  · exact fail
  · refine bind (assignMemory he) fun o ho => pure ?_
    obtain ⟨v, h1, h2⟩ := ho
    rw [ht] at h1
    exact ⟨s.m o, s.m (o + 1), by rw [h2, readMem_point h1], rfl⟩

end GEns

/-! ### The operations -/

theorem opAdd_scalar {a b : Val} {w : Word} (h : opAdd .scalar a b = some (.s w)) : ∃ x y, a = .s x ∧ b = .s y ∧ frOf w = frOf x + frOf y := by
  cases a <;> cases b <;> simp only [opAdd, reduceCtorEq] at h
  cases h
  exact ⟨_, _, rfl, rfl, by rw [C50_add, frOf_wordOf]⟩

theorem opSub_scalar {a b : Val} {w : Word} (h : opSub .scalar a b = some (.s w)) : ∃ x y, a = .s x ∧ b = .s y ∧ frOf w = frOf x - frOf y := by
  cases a <;> cases b <;> simp only [opSub, reduceCtorEq] at h
  next x y =>
    obtain ⟨u, h1, h2⟩ := Option.map_eq_some_iff.1 h
    cases h2
    refine ⟨x, y, rfl, rfl, ?_⟩
    by_cases hy : y.toNat ≤ frMod
    · rw [C50_sub hy] at h1
      cases h1
      rw [frOf_wordOf]
    · rw [C50_sub_reverts (by omega)] at h1
      cases h1

theorem opMul_scalar {a b : Val} {w : Word} (h : opMul .scalar a b = some (.s w)) : ∃ x y, a = .s x ∧ b = .s y ∧ frOf w = frOf x * frOf y := by
  cases a <;> cases b <;> simp only [opMul, reduceCtorEq] at h
  cases h
  exact ⟨_, _, rfl, rfl, by rw [C50_mul, frOf_wordOf]⟩

theorem opDiv_scalar {a b : Val} {w : Word} (h : opDiv .scalar a b = some (.s w)) : ∃ x y, a = .s x ∧ b = .s y ∧ frOf w = frOf x / frOf y := by
  cases a <;> cases b <;> simp only [opDiv, reduceCtorEq] at h
  next x y =>
    obtain ⟨u, h1, h2⟩ := Option.map_eq_some_iff.1 h
    cases h2
    refine ⟨x, y, rfl, rfl, ?_⟩
    rw [C50_div] at h1
    split at h1
    · cases h1
    · cases h1
      rw [frOf_wordOf]

theorem opAdd_point {a b : Val} {x y : Word} (h : opAdd .point a b = some (.p x y)) :
    ∃ ax ay bx by', a = .p ax ay ∧ b = .p bx by' ∧ eccAdd ax ay bx by' = some (x, y) := by
  cases a <;> cases b <;> simp only [opAdd, reduceCtorEq] at h
  obtain ⟨u, h1, h2⟩ := Option.map_eq_some_iff.1 h
  cases h2
  exact ⟨_, _, _, _, rfl, rfl, h1⟩

theorem opSub_point {a b : Val} {x y : Word} (h : opSub .point a b = some (.p x y)) :
    ∃ ax ay bx by', a = .p ax ay ∧ b = .p bx by' ∧ eccSub ax ay bx by' = some (x, y) := by
  cases a <;> cases b <;> simp only [opSub, reduceCtorEq] at h
  obtain ⟨u, h1, h2⟩ := Option.map_eq_some_iff.1 h
  cases h2
  exact ⟨_, _, _, _, rfl, rfl, h1⟩

theorem opMul_point {a b : Val} {x y : Word} (h : opMul .point a b = some (.p x y)) :
    ∃ w px py, a = .s w ∧ b = .p px py ∧ eccMul px py w = some (x, y) := by
  cases a <;> cases b <;> simp only [opMul, reduceCtorEq] at h
  obtain ⟨u, h1, h2⟩ := Option.map_eq_some_iff.1 h
  cases h2
  exact ⟨_, _, _, rfl, rfl, h1⟩

theorem smul_word (w : Word) (P : Pt) : frOf w • P = w.toNat • P := Nat.cast_smul_eq_nsmul N w.toNat P

theorem eval_bin {op : Val → Val → Option Val} {l r : Expr} {v : Val}
    (h : ((eval E s l).bind fun a => (eval E s r).bind fun b => op a b) = some v) : ∃ a b, eval E s l = some a ∧ eval E s r = some b ∧ op a b = some v := by
  obtain ⟨a, h1, h2⟩ := Option.bind_eq_some_iff.1 h
  obtain ⟨b, h3, h4⟩ := Option.bind_eq_some_iff.1 h2
  exact ⟨a, b, h1, h3, h4⟩

theorem SVal.eval_s (a : SVal) {w : Word} (h : eval E s a.expr = some (.s w)) : frOf w = sval E s a.expr := by
  obtain ⟨w', h1, h2⟩ := eval_sform a.form h
  cases h1
  exact h2

theorem PVal.eval_p (a : PVal) {x y : Word} (h : eval E s a.expr = some (.p x y)) : ptOf χ x y = pval χ E s a.expr := by
  obtain ⟨x', y', h1, h2⟩ := eval_pform a.form h
  cases h1
  exact h2

namespace SVal

theorem add_ens (a b : SVal) : GEns E s (a.add b) fun r => sval E s r.expr = sval E s a.expr + sval E s b.expr := by
  unfold add
  split
  · next h => exact .pure (by rw [sval_const, sval_lit h.1, sval_lit h.2])
  split
  · next h => exact .pure (by rw [sval_lit h.1, h.2, zero_add])
  split
  · next h => exact .pure (by rw [sval_lit (a := b) h.1, h.2, add_zero])
  refine .mono (.scalar nofun rfl) fun r ⟨w, h1, h2⟩ => ?_
  obtain ⟨x, y, g1, g2, g3⟩ := eval_bin h1
  obtain ⟨x, y, rfl, rfl, h3⟩ := opAdd_scalar g3
  rw [h2, h3, a.eval_s g1, b.eval_s g2]

theorem sub_ens (a b : SVal) : GEns E s (a.sub b) fun r => sval E s r.expr = sval E s a.expr - sval E s b.expr := by
  unfold sub
  split
  · next h => exact .pure (by rw [sval_const, sval_lit h.1, sval_lit h.2])
  split
  · next h => exact .pure (by rw [sval_lit (a := b) h.1, h.2, sub_zero])
  refine .mono (.scalar nofun rfl) fun r ⟨w, h1, h2⟩ => ?_
  obtain ⟨x, y, g1, g2, g3⟩ := eval_bin h1
  obtain ⟨x, y, rfl, rfl, h3⟩ := opSub_scalar g3
  rw [h2, h3, a.eval_s g1, b.eval_s g2]

theorem mul_ens (a b : SVal) : GEns E s (a.mul b) fun r => sval E s r.expr = sval E s a.expr * sval E s b.expr := by
  unfold mul
  split
  · next h => exact .pure (by rw [sval_const, sval_lit h.1, sval_lit h.2])
  split
  · next h => exact .pure (by rw [sval_lit h.1, h.2, one_mul])
  split
  · next h => exact .pure (by rw [sval_lit (a := b) h.1, h.2, mul_one])
  refine .mono (.scalar nofun rfl) fun r ⟨w, h1, h2⟩ => ?_
  obtain ⟨x, y, g1, g2, g3⟩ := eval_bin h1
  obtain ⟨x, y, rfl, rfl, h3⟩ := opMul_scalar g3
  rw [h2, h3, a.eval_s g1, b.eval_s g2]

theorem div_ens (a b : SVal) : GEns E s (a.div b) fun r => sval E s r.expr = sval E s a.expr / sval E s b.expr := by
  unfold div
  split
  · exact .fail
  split
  · next h => exact .pure (by rw [sval_const, sval_lit h.1, sval_lit h.2, div_eq_mul_inv])
  split
  · next h => exact .pure (by rw [sval_lit (a := b) h.1, h.2, div_one])
  refine .mono (.scalar nofun rfl) fun r ⟨w, h1, h2⟩ => ?_
  obtain ⟨x, y, g1, g2, g3⟩ := eval_bin h1
  obtain ⟨x, y, rfl, rfl, h3⟩ := opDiv_scalar g3
  rw [h2, h3, a.eval_s g1, b.eval_s g2]

theorem square_ens (a : SVal) : GEns E s a.square fun r => sval E s r.expr = sval E s a.expr * sval E s a.expr := by
  unfold square
  split
  · next h => exact .pure (by rw [sval_const, sval_lit h])
  refine .mono (.scalar nofun rfl) fun r ⟨w, h1, h2⟩ => ?_
  obtain ⟨x, y, g1, g2, g3⟩ := eval_bin h1
  obtain ⟨x, y, rfl, rfl, h3⟩ := opMul_scalar g3
  rw [h2, h3, a.eval_s g1, a.eval_s g2]

theorem sumLoop_ens : ∀ (l : List (SVal × N)) (acc : SVal), GEns E s (sumLoop l acc) fun r =>
    sval E s r.expr = sval E s acc.expr + (l.map fun p => p.2 * sval E s p.1.expr).sum
  | [], acc => .pure (by simp)
  | (x, k) :: l, acc => by
    refine .bind (mul_ens x (const k)) fun m hm => .bind (add_ens acc m) fun a ha => .mono (sumLoop_ens l a) fun r hr => ?_
    rw [hr, ha, hm, sval_const, List.map_cons, List.sum_cons]
    ring

end SVal

namespace PVal

theorem add_ens (a b : PVal) : GEns E s (a.add b) fun r => pval χ E s r.expr = pval χ E s a.expr + pval χ E s b.expr := by
  unfold add
  split
  · next h =>
    rw [pval_lit h.1, pval_lit h.2]
    exact .pure (pval_pointExpr _)
  refine .mono (.point (χ := χ) nofun rfl) fun r ⟨x, y, h1, h2⟩ => ?_
  obtain ⟨u, v, e1, e2, e3⟩ := eval_bin h1
  obtain ⟨ax, ay, bx, by', rfl, rfl, h3⟩ := opAdd_point e3
  obtain ⟨P, k1, h4⟩ := Option.bind_eq_some_iff.1 h3
  obtain ⟨Q, k2, h5⟩ := Option.bind_eq_some_iff.1 h4
  rw [h2, ← a.eval_p e1, ← b.eval_p e2, ptOf_eq k1, ptOf_eq k2]
  exact ptOf_eq (g1_iff.2 (Option.some.inj h5).symm)

theorem sub_ens (hχ : χ 0 pMod = 0) (a b : PVal) : GEns E s (a.sub b) fun r => pval χ E s r.expr = pval χ E s a.expr - pval χ E s b.expr := by
  unfold sub
  split
  · next h =>
    rw [pval_lit h.1, pval_lit h.2]
    exact .pure (pval_pointExpr _)
  refine .mono (.point (χ := χ) nofun rfl) fun r ⟨x, y, h1, h2⟩ => ?_
  obtain ⟨u, v, e1, e2, e3⟩ := eval_bin h1
  obtain ⟨ax, ay, bx, by', rfl, rfl, h3⟩ := opSub_point e3
  rw [h2, ← a.eval_p e1, ← b.eval_p e2]
  obtain ⟨P, k1, ⟨Q, k2, k3⟩ | ⟨rfl, rfl, k3⟩⟩ := eccSub_some h3
  · rw [ptOf_eq k1, ptOf_eq k2, ptOf_eq k3]
  · have : ptOf χ 0 pMod = 0 := by
      unfold ptOf
      rw [(C71_sub_other_identity 0).1]
      exact hχ
    rw [ptOf_eq k1, ptOf_eq k3, this, sub_zero]

theorem eccMul_eq {px py w x y : Word} (h : eccMul px py w = some (x, y)) : ptOf χ x y = frOf w • ptOf χ px py := by
  obtain ⟨P, h1, h2⟩ := Option.bind_eq_some_iff.1 h
  rw [ptOf_eq h1, smul_word]
  exact ptOf_eq (g1_iff.2 (Option.some.inj h2).symm)

theorem mul_ens (k : SVal) (a : PVal) : GEns E s (mul k a) fun r => pval χ E s r.expr = sval E s k.expr • pval χ E s a.expr := by
  unfold mul
  split
  · next h =>
    rw [SVal.sval_lit h.1, pval_lit h.2]
    exact .pure (pval_pointExpr _)
  refine .mono (.point (χ := χ) nofun rfl) fun r ⟨x, y, h1, h2⟩ => ?_
  obtain ⟨u, v, e1, e2, e3⟩ := eval_bin h1
  obtain ⟨w, px, py, rfl, rfl, h3⟩ := opMul_point e3
  rw [h2, ← k.eval_s e1, ← a.eval_p e2]
  exact eccMul_eq h3

theorem mulConstant_ens (k : SVal) (P : Pt) : GEns E s (mulConstant k P) fun r => pval χ E s r.expr = sval E s k.expr • P := by
  unfold mulConstant
  split
  · next h =>
    rw [SVal.sval_lit h]
    exact .pure (pval_pointExpr _)
  refine .mono (.point (χ := χ) nofun rfl) fun r ⟨x, y, h1, h2⟩ => ?_
  obtain ⟨u, v, e1, e2, e3⟩ := eval_bin h1
  obtain ⟨w, px, py, rfl, rfl, h3⟩ := opMul_point e3
  have := (PVal.eval_p (χ := χ) (PVal.const P) e2).trans (pval_pointExpr P)
  rw [h2, ← k.eval_s e1, eccMul_eq h3, this]

theorem multiExp_ens : ∀ {ps : List PVal} {ss : List SVal} {Ps : List Pt} {acc : Option PVal} {A : Option Pt},
    List.Forall₂ (fun p P => pval χ E s p.expr = P) ps Ps → ps.length = ss.length →
    (acc = none ∧ A = none ∨ ∃ a P, acc = some a ∧ A = some P ∧ pval χ E s a.expr = P) →
    GEns E s (multiExp acc ps ss) fun r => pval χ E s r.expr = A.getD 0 + Api.dot (ss.map fun x => sval E s x.expr) Ps
  | [], ss, _, acc, A, .nil, hl, h => by
    obtain rfl : ss = [] := List.length_eq_zero_iff.1 hl.symm
    rcases h with ⟨rfl, rfl⟩ | ⟨a, P, rfl, rfl, ha⟩
    · exact .fail
    · exact .pure (by simpa [Api.dot] using ha)
  | p :: ps, k :: ss, _, acc, A, .cons (b := P) (l₂ := Ps) hp hps, hl, h => by
    have hl' : ps.length = ss.length := by simpa using hl
    have hd : Api.dot ((k :: ss).map fun x => sval E s x.expr) (P :: Ps) = sval E s k.expr • P + Api.dot (ss.map fun x => sval E s x.expr) Ps := by
      rw [List.map_cons, Api.Logic.dot_cons]
    rw [hd]
    refine .bind (mul_ens (χ := χ) k p) fun cur hc => ?_
    rw [hp] at hc
    rcases h with ⟨rfl, rfl⟩ | ⟨a, Q, rfl, rfl, ha⟩
    · refine .mono (multiExp_ens (A := some (sval E s k.expr • P)) hps hl' (.inr ⟨cur, _, rfl, rfl, hc⟩)) fun r hr => ?_
      rw [hr, Option.getD_some, Option.getD_none, zero_add]
    · refine .bind (add_ens (χ := χ) a cur) fun a' ha' => ?_
      rw [ha, hc] at ha'
      refine .mono (multiExp_ens (A := some (Q + sval E s k.expr • P)) hps hl' (.inr ⟨a', _, rfl, rfl, ha'⟩)) fun r hr => ?_
      rw [hr, Option.getD_some, Option.getD_some, add_assoc]

end PVal

variable (E s) in
/-- The contract as an instance of what the generic verifier needs. Assigned variables carry the sample value as a witness; their value in
the contract comes from the call. -/
noncomputable def contractLogic (hχ : χ 0 pMod = 0) : Api.Logic genChip gen where
  Ens := GEns E s
  sv a := sval E s (SVal.expr a)
  pv p P := pval χ E s (PVal.expr p) = P
  known a k := SVal.isConst a = true ∧ SVal.v a = k
  wit a k := SVal.v a = k
  pwit p P := PVal.v p = P
  pure := .pure
  bind := .bind
  mono := .mono
  all h k a k' hk hm hc hh i := h i k a k' hk hm hc hh
  add := SVal.add_ens
  sub := SVal.sub_ens
  mul := SVal.mul_ens
  div a b _ := SVal.div_ens a b
  square := SVal.square_ens
  sumWithCoeff l k := .mono (SVal.sumLoop_ens l (.const k)) fun r hr => hr.trans (congrArg (· + _) (sval_const k))
  mulAddConstant a b k := .pure (by
    show sval E s a.expr * sval E s b.expr + sval E s (SVal.const k).expr = _
    rw [sval_const])
  assignZero := .pure (sval_const 0)
  assignOne := .pure (sval_const 1)
  assignConst k := .pure ⟨rfl, rfl⟩
  known_sv h := by rw [SVal.sval_lit h.1, h.2]
  toValue h := .pure h.2
  assignVar k := by
    intro c a c' hk _ _ _
    obtain ⟨r, _, h2⟩ := Option.map_eq_some_iff.1 hk
    cases h2
    rfl
  pAdd := by
    rintro a b _ _ rfl rfl
    exact PVal.add_ens a b
  pSub := by
    rintro a b _ _ rfl rfl
    exact PVal.sub_ens hχ a b
  pAssignZero := .pure (pval_pointExpr 0)
  pAssignOne := .pure (pval_pointExpr gen)
  pAssignConst P := .pure (pval_pointExpr P)
  pAssignVar P := by
    intro c a c' hk _ _ _
    obtain ⟨r, _, h2⟩ := Option.map_eq_some_iff.1 hk
    cases h2
    rfl
  normalize h := .pure h
  scalarMul := by
    rintro k a _ rfl
    exact PVal.mul_ens k a
  scalarMulConstant := PVal.mulConstant_ens
  multiExp h hl _ := .mono (PVal.multiExp_ens (A := none) h hl (.inl ⟨rfl, rfl⟩)) fun r hr => by rwa [Option.getD_none, zero_add] at hr

variable {hχ : χ 0 pMod = 0}

theorem contract_partial : (contractLogic E s hχ).Partial where
  triv := .triv
  panic _ := .fail

theorem contract_safe (T : Api.Transcript genChip) : (contractLogic E s hχ).Safe T where
  commonPoint _ _ := .triv _
  commonScalar _ _ := .triv _
  squeeze _ := .triv _

end Verif.Sol
