import Verif.Api.Chip
import Mathlib.Algebra.BigOperators.Fin
import Mathlib.Tactic.LinearCombination

/-!
# Generic scalar code: provided trait methods, arithmetic expressions, gate expressions

`halo2-snark-aggregator-api/src/arith/field.rs`, `arith/ast.rs`, `systems/halo2/expression.rs`.
-/

namespace Verif.Api

variable {F G : Type} (c : Chip F G)

/-! ### Model -/

/-- arith/field.rs lines 37-48. -/
def sumWithConstant [One F] (l : List c.S) (b : F) : c.m c.S := c.sumWithCoeff (l.map fun x => (x, 1)) b

/-- arith/field.rs lines 57-66. -/
def mulAdd (a b d : c.S) : c.m c.S := do
  let t ← c.mul a b
  c.add t d

/-- arith/field.rs lines 76-78: `for v in a { acc = mul_add(acc, b, v) }`. -/
def accLoop (b : c.S) : List c.S → c.S → c.m c.S
  | [], acc => return acc
  | v :: l, acc => do
    let acc ← mulAdd c acc b v
    accLoop b l acc

/-- arith/field.rs lines 68-81. -/
def mulAddAccumulate (a : List c.S) (b : c.S) : c.m c.S := do
  let acc ← c.assignZero
  accLoop c b a acc

/-- `u32` shift left by one: the top bit is lost. -/
def shl1 (b : ℕ) : ℕ := 2 * b % 2 ^ 32

/-- arith/field.rs lines 92-94: `while second_bit <= exponent { second_bit <<= 1 }`, `fuel` iterations at most; `none` when the
loop is still running then. -/
def findTop (exponent : ℕ) : ℕ → ℕ → Option ℕ
  | 0, _ => none
  | fuel + 1, b => if b ≤ exponent then findTop exponent fuel (shl1 b) else some b

/-- arith/field.rs lines 96-102: the square-and-multiply loop. It halts because `b` is halved. -/
def powLoop (base : c.S) (exponent : ℕ) (b : ℕ) (acc : c.S) : c.m c.S :=
  if h : 0 < b then do
    let acc ← c.square acc
    if exponent / b % 2 ≠ 0 then do
      let acc ← c.mul acc base
      powLoop base exponent (b / 2) acc
    else powLoop base exponent (b / 2) acc
  else return acc
termination_by b
decreasing_by all_goals omega

/-- arith/field.rs lines 83-104. `none` means that the first loop does not end within `fuel` iterations. `exponent & second_bit`
is tested as the bit of `exponent` at the power of two `second_bit`. -/
def powConstant (fuel : ℕ) (base : c.S) (exponent : ℕ) : Option (c.m c.S) :=
  if 1 ≤ exponent then (findTop exponent fuel 1).map fun b => powLoop c base exponent (b / 4) base
  else some c.panic

/-- arith/ast.rs lines 4-10, `FieldArithHelper`. -/
inductive Ast (S : Type) where
  | value (v : S)
  | add (a b : Ast S)
  | sub (a b : Ast S)
  | mul (a b : Ast S)
  | div (a b : Ast S)

instance {S : Type} : Coe S (Ast S) := ⟨.value⟩
instance {S : Type} : Add (Ast S) := ⟨.add⟩
instance {S : Type} : Sub (Ast S) := ⟨.sub⟩
instance {S : Type} : Mul (Ast S) := ⟨.mul⟩
instance {S : Type} : Div (Ast S) := ⟨.div⟩

/-- arith/ast.rs lines 13-37. -/
def Ast.eval : Ast c.S → c.m c.S
  | .value v => return v
  | .add a b => do
    let a ← a.eval
    let b ← b.eval
    c.add a b
  | .sub a b => do
    let a ← a.eval
    let b ← b.eval
    c.sub a b
  | .mul a b => do
    let a ← a.eval
    let b ← b.eval
    c.mul a b
  | .div a b => do
    let a ← a.eval
    let b ← b.eval
    c.div a b

/-- `halo2_proofs::plonk::Expression`: constants, virtual selectors, column queries (by query index), challenges (by index),
and the operations. -/
inductive Expr (S : Type) where
  | constant (s : S)
  | selector (i : ℕ)
  | fixed (i : ℕ)
  | advice (i : ℕ)
  | «instance» (i : ℕ)
  | challenge (i : ℕ)
  | negated (a : Expr S)
  | sum (a b : Expr S)
  | product (a b : Expr S)
  | scaled (a : Expr S) (f : S)

/-- Indexing a vector: out of range panics. -/
def index {α : Type} (l : List α) (i : ℕ) : c.m α := match l[i]? with | some a => return a | none => c.panic

/-- The four vectors a gate expression is evaluated at. -/
structure QueryEvals (S : Type) where
  fixed : List S
  advice : List S
  «instance» : List S
  challenges : List S

/-- systems/halo2/expression.rs lines 18-113, with the accessors its callers pass (params.rs lines 111-114, lookup.rs lines 68-72). -/
def chipEvaluate (q : QueryEvals c.S) (zero : c.S) : Expr c.S → c.m c.S
  | .constant s => return s
  | .selector _ => c.panic
  | .fixed i => index c q.fixed i
  | .advice i => index c q.advice i
  | .instance i => index c q.instance i
  | .challenge i => index c q.challenges i
  | .negated a => do
    let a ← chipEvaluate q zero a
    Ast.eval c (zero - a)
  | .sum a b => do
    let a ← chipEvaluate q zero a
    let b ← chipEvaluate q zero b
    Ast.eval c (a + b)
  | .product a b => do
    let a ← chipEvaluate q zero a
    let b ← chipEvaluate q zero b
    Ast.eval c (a * b)
  | .scaled a f => do
    let a ← chipEvaluate q zero a
    Ast.eval c (f * a)

/-- systems/halo2/verify.rs lines 169-196: constants of a gate become assigned constants. -/
def convertExpression : Expr F → c.m (Expr c.S)
  | .constant k => do return .constant (← c.assignConst k)
  | .selector i => return .selector i
  | .fixed i => return .fixed i
  | .advice i => return .advice i
  | .instance i => return .instance i
  | .challenge i => return .challenge i
  | .negated a => do return .negated (← convertExpression a)
  | .sum a b => do
    let a ← convertExpression a
    let b ← convertExpression b
    return .sum a b
  | .product a b => do
    let a ← convertExpression a
    let b ← convertExpression b
    return .product a b
  | .scaled a f => do
    let a ← convertExpression a
    return .scaled a (← c.assignConst f)

/-! ### Specification -/

variable {c} [Field F] [AddCommGroup G] [Module F G] {gen : G}

/-- `a₀ b^(k-1) + a₁ b^(k-2) + .. + a_{k-1}`. -/
def combine (b : F) (l : List F) : F := (l.mapIdx fun i a => a * b ^ (l.length - 1 - i)).sum

/-- The value of a gate expression at given query values. -/
def Expr.value (fixed advice inst chal : ℕ → F) : Expr F → F
  | .constant k => k
  | .selector _ => 0
  | .fixed i => fixed i
  | .advice i => advice i
  | .instance i => inst i
  | .challenge i => chal i
  | .negated a => -(a.value fixed advice inst chal)
  | .sum a b => a.value fixed advice inst chal + b.value fixed advice inst chal
  | .product a b => a.value fixed advice inst chal * b.value fixed advice inst chal
  | .scaled a f => a.value fixed advice inst chal * f

/-- No virtual selectors, and every query has an evaluation. -/
def Expr.Closed {S T : Type} (q : QueryEvals T) : Expr S → Prop
  | .constant _ => True
  | .selector _ => False
  | .fixed i => i < q.fixed.length
  | .advice i => i < q.advice.length
  | .instance i => i < q.instance.length
  | .challenge i => i < q.challenges.length
  | .negated a => a.Closed q
  | .sum a b => a.Closed q ∧ b.Closed q
  | .product a b => a.Closed q ∧ b.Closed q
  | .scaled a _ => a.Closed q

/-- The same expression over other constants. -/
def Expr.map {S T : Type} (f : S → T) : Expr S → Expr T
  | .constant k => .constant (f k)
  | .selector i => .selector i
  | .fixed i => .fixed i
  | .advice i => .advice i
  | .instance i => .instance i
  | .challenge i => .challenge i
  | .negated a => .negated (a.map f)
  | .sum a b => .sum (a.map f) (b.map f)
  | .product a b => .product (a.map f) (b.map f)
  | .scaled a k => .scaled (a.map f) (f k)

/-! ### Proofs -/

/-- The value of an arithmetic expression tree. -/
def Ast.val (v : c.S → F) : Ast c.S → F
  | .value s => v s
  | .add a b => a.val v + b.val v
  | .sub a b => a.val v - b.val v
  | .mul a b => a.val v * b.val v
  | .div a b => a.val v / b.val v

/-- No division by zero. -/
def Ast.Safe (v : c.S → F) : Ast c.S → Prop
  | .value _ => True
  | .add a b => a.Safe v ∧ b.Safe v
  | .sub a b => a.Safe v ∧ b.Safe v
  | .mul a b => a.Safe v ∧ b.Safe v
  | .div a b => a.Safe v ∧ b.Safe v ∧ b.val v ≠ 0

section
variable (v : c.S → F) (a b : Ast c.S) (s : c.S)
@[simp] theorem Ast.val_value : Ast.val v (.value s) = v s := rfl
@[simp] theorem Ast.val_add : Ast.val v (a + b) = a.val v + b.val v := rfl
@[simp] theorem Ast.val_sub : Ast.val v (a - b) = a.val v - b.val v := rfl
@[simp] theorem Ast.val_mul : Ast.val v (a * b) = a.val v * b.val v := rfl
@[simp] theorem Ast.val_div : Ast.val v (a / b) = a.val v / b.val v := rfl
@[simp] theorem Ast.safe_value : Ast.Safe v (.value s) = True := rfl
@[simp] theorem Ast.safe_add : Ast.Safe v (a + b) = (a.Safe v ∧ b.Safe v) := rfl
@[simp] theorem Ast.safe_sub : Ast.Safe v (a - b) = (a.Safe v ∧ b.Safe v) := rfl
@[simp] theorem Ast.safe_mul : Ast.Safe v (a * b) = (a.Safe v ∧ b.Safe v) := rfl
@[simp] theorem Ast.safe_div : Ast.Safe v (a / b) = (a.Safe v ∧ b.Safe v ∧ b.val v ≠ 0) := rfl
end

namespace Logic
variable (L : Logic c gen)

theorem ast : ∀ e : Ast c.S, e.Safe L.sv → L.Ens (e.eval c) fun r => L.sv r = e.val L.sv
  | .value _, _ => L.pure rfl
  | .add a b, h => L.bind (ast a h.1) fun x hx => L.bind (ast b h.2) fun y hy =>
      L.mono (L.add x y) fun r hr => by rw [hr, hx, hy]; rfl
  | .sub a b, h => L.bind (ast a h.1) fun x hx => L.bind (ast b h.2) fun y hy =>
      L.mono (L.sub x y) fun r hr => by rw [hr, hx, hy]; rfl
  | .mul a b, h => L.bind (ast a h.1) fun x hx => L.bind (ast b h.2) fun y hy =>
      L.mono (L.mul x y) fun r hr => by rw [hr, hx, hy]; rfl
  | .div a b, h => L.bind (ast a h.1) fun x hx => L.bind (ast b h.2.1) fun y hy =>
      L.mono (L.div x y (by rw [hy]; exact h.2.2)) fun r hr => by rw [hr, hx, hy]; rfl

theorem sumWithConstant (l : List c.S) (b : F) :
    L.Ens (Api.sumWithConstant c l b) fun r => L.sv r = b + (l.map L.sv).sum :=
  L.mono (L.sumWithCoeff _ _) fun r hr => by
    rw [hr, List.map_map]
    congr 2
    exact List.map_congr_left fun x _ => by simp

theorem mulAdd (a b d : c.S) : L.Ens (Api.mulAdd c a b d) fun r => L.sv r = L.sv a * L.sv b + L.sv d :=
  L.bind (L.mul a b) fun t ht => L.mono (L.add t d) fun r hr => by rw [hr, ht]

theorem combine_cons (b : F) (a : F) (l : List F) : combine b (a :: l) = a * b ^ l.length + combine b l := by
  unfold combine
  rw [List.mapIdx_cons, List.sum_cons]
  congr 1
  congr 1
  apply List.ext_getElem
  · simp
  intro i h1 h2
  simp only [List.getElem_mapIdx, List.length_cons]
  congr 2
  omega

theorem accLoop (b : c.S) : ∀ (l : List c.S) (acc : c.S), L.Ens (Api.accLoop c b l acc)
    fun r => L.sv r = L.sv acc * L.sv b ^ l.length + combine (L.sv b) (l.map L.sv)
  | [], acc => L.pure (by simp [combine])
  | v :: l, acc => L.bind (L.mulAdd acc b v) fun a ha => L.mono (accLoop b l a) fun r hr => by
      rw [hr, ha, List.map_cons, combine_cons, List.length_cons, List.length_map, pow_succ]
      ring

theorem mulAddAccumulate (l : List c.S) (b : c.S) : L.Ens (Api.mulAddAccumulate c l b)
    fun r => L.sv r = combine (L.sv b) (l.map L.sv) :=
  L.bind L.assignZero fun z hz => L.mono (L.accLoop b l z) fun r hr => by rw [hr, hz, zero_mul, zero_add]

theorem index {α : Type} {l : List α} {i : ℕ} (h : i < l.length) : L.Ens (Api.index c l i) fun r => r = l[i] := by
  unfold Api.index
  rw [List.getElem?_eq_getElem h]
  exact L.pure rfl

/-- The value of the `i`-th entry. -/
def at' (l : List c.S) (i : ℕ) : F := (l[i]?.map L.sv).getD 0

theorem index_sv {l : List c.S} {i : ℕ} (h : i < l.length) : L.Ens (Api.index c l i) fun r => L.sv r = L.at' l i :=
  L.mono (L.index h) fun r hr => by rw [hr]; simp [at', List.getElem?_eq_getElem h]

theorem chipEvaluate (q : QueryEvals c.S) (zero : c.S) (hz : L.sv zero = 0) : ∀ e : Expr c.S, e.Closed q →
    L.Ens (Api.chipEvaluate c q zero e) fun r =>
      L.sv r = (e.map L.sv).value (L.at' q.fixed) (L.at' q.advice) (L.at' q.instance) (L.at' q.challenges)
  | .constant _, _ => L.pure rfl
  | .selector _, h => h.elim
  | .fixed _, h => L.index_sv h
  | .advice _, h => L.index_sv h
  | .instance _, h => L.index_sv h
  | .challenge _, h => L.index_sv h
  | .negated a, h => L.bind (chipEvaluate q zero hz a h) fun x hx => L.mono (L.ast _ (by simp)) fun r hr => by
      rw [hr]; simp only [Ast.val_sub, Ast.val_value, hx, hz, zero_sub]; rfl
  | .sum a b, h => L.bind (chipEvaluate q zero hz a h.1) fun x hx => L.bind (chipEvaluate q zero hz b h.2) fun y hy =>
      L.mono (L.ast _ (by simp)) fun r hr => by
        rw [hr]; simp only [Ast.val_add, Ast.val_value, hx, hy]; rfl
  | .product a b, h => L.bind (chipEvaluate q zero hz a h.1) fun x hx => L.bind (chipEvaluate q zero hz b h.2) fun y hy =>
      L.mono (L.ast _ (by simp)) fun r hr => by
        rw [hr]; simp only [Ast.val_mul, Ast.val_value, hx, hy]; rfl
  | .scaled a f, h => L.bind (chipEvaluate q zero hz a h) fun x hx => L.mono (L.ast _ (by simp)) fun r hr => by
      rw [hr]; simp only [Ast.val_mul, Ast.val_value, hx]; exact mul_comm _ _

theorem convertExpression : ∀ e : Expr F, L.Ens (Api.convertExpression c e) fun r => r.map L.sv = e
  | .constant k => L.bind (L.assignConst k) fun s hs => L.pure (by simp [Expr.map, L.known_sv hs])
  | .selector _ => L.pure rfl
  | .fixed _ => L.pure rfl
  | .advice _ => L.pure rfl
  | .instance _ => L.pure rfl
  | .challenge _ => L.pure rfl
  | .negated a => L.bind (convertExpression a) fun x hx => L.pure (by simp [Expr.map, hx])
  | .sum a b => L.bind (convertExpression a) fun x hx => L.bind (convertExpression b) fun y hy =>
      L.pure (by simp [Expr.map, hx, hy])
  | .product a b => L.bind (convertExpression a) fun x hx => L.bind (convertExpression b) fun y hy =>
      L.pure (by simp [Expr.map, hx, hy])
  | .scaled a f => L.bind (convertExpression a) fun x hx => L.bind (L.assignConst f) fun s hs =>
      L.pure (by simp [Expr.map, hx, L.known_sv hs])

end Logic

theorem Expr.closed_map {S T U : Type} (q : QueryEvals U) (f : S → T) : ∀ e : Expr S, (e.map f).Closed q ↔ e.Closed q
  | .constant _ => Iff.rfl
  | .selector _ => Iff.rfl
  | .fixed _ => Iff.rfl
  | .advice _ => Iff.rfl
  | .instance _ => Iff.rfl
  | .challenge _ => Iff.rfl
  | .negated a => closed_map q f a
  | .sum a b => and_congr (closed_map q f a) (closed_map q f b)
  | .product a b => and_congr (closed_map q f a) (closed_map q f b)
  | .scaled a _ => closed_map q f a

/-! ### `pow_constant` -/

theorem findTop_pow {e k : ℕ} (hk : k < 32) (hle : 2 ^ k ≤ e) : ∀ fuel,
    findTop e (fuel + 1) (2 ^ k) = findTop e fuel (if k = 31 then 0 else 2 ^ (k + 1)) := by
  intro fuel
  rw [findTop, if_pos hle]
  congr 1
  unfold shl1
  split
  · next h => subst h; rfl
  · rw [← pow_succ', Nat.mod_eq_of_lt]
    exact Nat.pow_lt_pow_right (by omega) (by omega)

theorem findTop_zero (e : ℕ) : ∀ fuel, findTop e fuel 0 = none
  | 0 => rfl
  | fuel + 1 => by
    rw [findTop, if_pos (Nat.zero_le _)]
    exact findTop_zero e fuel

/-- From `2^31` on the shift overflows to zero and the loop never ends. -/
theorem findTop_diverges {e : ℕ} (h : 2 ^ 31 ≤ e) : ∀ fuel k, k < 32 → findTop e fuel (2 ^ k) = none := by
  intro fuel
  induction fuel with
  | zero => intros; rfl
  | succ fuel ih =>
    intro k hk
    have hle : 2 ^ k ≤ e := (Nat.pow_le_pow_right (by omega) (by omega : k ≤ 31)).trans h
    rw [findTop_pow hk hle]
    split
    · exact findTop_zero e fuel
    · exact ih _ (by omega)

theorem findTop_log {e n : ℕ} (he : 2 ^ n ≤ e) (he2 : e < 2 ^ (n + 1)) (hn : n < 31) : ∀ j k fuel, k + j = n + 1 → 
    j < fuel → findTop e fuel (2 ^ k) = some (2 ^ (n + 1)) := by
  intro j
  induction j with
  | zero =>
    intro k fuel hk hf
    obtain ⟨f, rfl⟩ := Nat.exists_eq_succ_of_ne_zero (by omega : fuel ≠ 0)
    have : k = n + 1 := by omega
    subst this
    rw [findTop, if_neg (by omega)]
  | succ j ih =>
    intro k fuel hk hf
    obtain ⟨f, rfl⟩ := Nat.exists_eq_succ_of_ne_zero (by omega : fuel ≠ 0)
    have hle : 2 ^ k ≤ e := (Nat.pow_le_pow_right (by omega) (by omega : k ≤ n)).trans he
    rw [findTop_pow (by omega) hle, if_neg (by omega)]
    exact ih (k + 1) f (by omega) (by omega)

theorem Logic.powLoop (L : Logic c gen) (base : c.S) (e : ℕ) : ∀ (k : ℕ) (acc : c.S),
    L.sv acc = L.sv base ^ (e / 2 ^ k) → L.Ens (Api.powLoop c base e (2 ^ k / 2) acc) fun r => L.sv r = L.sv base ^ e := by
  intro k
  induction k with
  | zero =>
    intro acc h
    unfold Api.powLoop
    rw [dif_neg (by simp)]
    exact L.pure (by simpa using h)
  | succ k ih =>
    intro acc h
    have hk : 2 ^ (k + 1) / 2 = 2 ^ k := by rw [pow_succ]; omega
    rw [hk]
    unfold Api.powLoop
    have hpos : 0 < 2 ^ k := Nat.pow_pos (by omega)
    rw [dif_pos hpos]
    have hdiv : e / 2 ^ (k + 1) = e / 2 ^ k / 2 := by rw [pow_succ, Nat.div_div_eq_div_mul]
    refine L.bind (L.square acc) fun a ha => ?_
    split
    · next hb =>
      refine L.bind (L.mul a base) fun a2 ha2 => ih a2 ?_
      rw [ha2, ha, h, hdiv, ← pow_add, ← pow_succ]
      congr 1
      omega
    · next hb =>
      refine ih a ?_
      rw [ha, h, hdiv, ← pow_add]
      congr 1
      omega

/-- For exponents below `2^31` the loop ends within 32 iterations and the result is the power. -/
theorem Logic.powConstant (L : Logic c gen) (base : c.S) {e : ℕ} (h1 : 1 ≤ e) (h2 : e < 2 ^ 31) {fuel : ℕ} (hf : 32 ≤ fuel) :
    ∃ x, Api.powConstant c fuel base e = some x ∧ L.Ens x fun r => L.sv r = L.sv base ^ e := by
  have hlog : 2 ^ Nat.log2 e ≤ e := Nat.log2_self_le (by omega)
  have hlog2 : e < 2 ^ (Nat.log2 e + 1) := Nat.lt_log2_self
  have hlt : Nat.log2 e < 31 := (Nat.log2_lt (by omega)).2 h2
  refine ⟨Api.powLoop c base e (2 ^ (Nat.log2 e + 1) / 4) base, ?_, ?_⟩
  · unfold Api.powConstant
    rw [if_pos h1, show (1 : ℕ) = 2 ^ 0 from rfl, findTop_log hlog hlog2 hlt (Nat.log2 e + 1) 0 fuel (by omega) (by omega)]
    rfl
  · have hb : 2 ^ (Nat.log2 e + 1) / 4 = 2 ^ Nat.log2 e / 2 := by rw [pow_succ]; omega
    rw [hb]
    refine L.powLoop base e _ base ?_
    rw [Nat.div_eq_of_lt_le (k := 1) (by omega) (by rw [pow_succ] at hlog2; omega), pow_one]

end Verif.Api
