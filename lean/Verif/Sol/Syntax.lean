import Verif.Sol.ShaProps

/-!
# The programs of the code generator and what the generated contract does with them

Sources: `halo2-snark-aggregator-solidity/src/code_generator/ctx.rs` (cited as `ctx.rs`), `src/lib.rs` and `templates/verifier.sol`.

`eval` and `exec` give the meaning of the rendered text. `none` is a revert; text that the compiler rejects (`ecc_div`,
`fr_from_bytes`, arguments of the wrong kind, literals that do not fit) is `none` too. Sample values only end up in comments and are left
out. `to_mem_code` always returns `None` (ctx.rs:118-119), so the `update(m, proof, absorbing, ...)` opcodes are never emitted. Gas and the
limit of the compiler on the number of stack variables are not modelled.
-/

namespace Verif.Sol
open Verif.Circuit Verif.Ecc

/-- ctx.rs:5-8. -/
inductive Ty where
  | scalar
  | point
  deriving DecidableEq

/-- ctx.rs:11-16. -/
def Ty.len : Ty → ℕ
  | .scalar => 1
  | .point => 2

/-- ctx.rs:27-45. -/
inductive Expr where
  | memory (o : ℕ) (t : Ty)
  | transcript (o : ℕ) (t : Ty)
  | inst (o : ℕ) (t : Ty)
  | tmpBuf (o : ℕ) (t : Ty)
  | point (x y : ℕ)
  | scalar (n : ℕ)
  | add (l r : Expr) (t : Ty)
  | sub (l r : Expr) (t : Ty)
  | mul (l r : Expr) (t : Ty)
  | div (l r : Expr) (t : Ty)
  | mulAdd (l r c : Expr) (t : Ty)
  | mulAddPM (target : Expr) (opcode : ℕ) (t : Ty)
  | mulAddMT (m opcode : ℕ)
  | pow (base : Expr) (exp : ℕ) (t : Ty)
  | hash (o : ℕ)
  | temp (t : Ty)
  deriving DecidableEq

namespace Expr

/-- ctx.rs:48-67. -/
def isMemory : Expr → Bool
  | .memory _ _ => true
  | _ => false

def isTranscript : Expr → Bool
  | .transcript _ _ => true
  | _ => false

def isTemp : Expr → Bool
  | .temp _ => true
  | _ => false

/-- ctx.rs:69-77. -/
def offset? : Expr → Option ℕ
  | .memory o _ | .transcript o _ | .inst o _ | .tmpBuf o _ => some o
  | _ => none

/-- `get_type`: ctx.rs:79-98. -/
def type : Expr → Ty
  | .memory _ t | .transcript _ t | .inst _ t | .tmpBuf _ t => t
  | .add _ _ t | .sub _ _ t | .mul _ _ t | .div _ _ t | .mulAdd _ _ _ t => t
  | .point _ _ => .point
  | .scalar _ => .scalar
  | .hash _ => .scalar
  | .pow _ _ t => t
  | .temp t => t
  | .mulAddPM _ _ t => t
  | .mulAddMT _ _ => .scalar

/-- `iter`, as the list of the expressions it visits: ctx.rs:256-275. -/
def leaves : Expr → List Expr
  | .add l r _ | .sub l r _ | .mul l r _ | .div l r _ => l.leaves ++ r.leaves
  | .mulAdd l r c _ => l.leaves ++ r.leaves ++ c.leaves
  | .pow b _ _ => b.leaves
  | e => [e]

/-- ctx.rs:277-300. -/
def map (f : Expr → Expr) : Expr → Expr
  | .add l r t => .add (l.map f) (r.map f) t
  | .sub l r t => .sub (l.map f) (r.map f) t
  | .mul l r t => .mul (l.map f) (r.map f) t
  | .div l r t => .div (l.map f) (r.map f) t
  | .mulAdd l r c t => .mulAdd (l.map f) (r.map f) (c.map f) t
  | .pow b e t => .pow (b.map f) e t
  | e => f e

/-- The position that stands for a temporary: ctx.rs:306. -/
def deadbeaf : ℕ := 0xdeadbeaf

/-- The replacement of a leaf: ctx.rs:303-315. -/
def substLeaf (lookup : ℕ → Option ℕ) : Expr → Expr
  | .memory o t =>
    match lookup o with
    | some v => if v = deadbeaf then .temp t else .memory v t
    | none => .memory o t
  | e => e

/-- ctx.rs:302-318. -/
def substitute (lookup : ℕ → Option ℕ) (e : Expr) : Expr := e.map (substLeaf lookup)

end Expr

/-- ctx.rs:322-339. -/
inductive Stmt where
  | assign (l r : Expr)
  | updateHash (e : Expr) (off : ℕ)
  | loop (memStart memEnd memStep absStart absStep : ℕ) (t : Ty)
  | mulLoop (start step : ℕ × ℕ × ℕ) (n : ℕ) (t : Ty)
  deriving DecidableEq

/-- ctx.rs:552-565. `none` is a panic. -/
def Stmt.substitute (lookup : ℕ → Option ℕ) : Stmt → Option Stmt
  | .assign l r => some (.assign (l.substitute lookup) (r.substitute lookup))
  | .updateHash e off => some (.updateHash (e.substitute lookup) off)
  | .loop a b c d e t => some (.loop a b c d e t)
  | .mulLoop _ _ _ _ => none

/-! ### Execution -/

/-- What an expression gives: one word or two. -/
inductive Val where
  | s (w : Word)
  | p (x y : Word)
  deriving DecidableEq

/-- What stays fixed during `get_wx_wg`: its arguments, contract 2 and the size of `m` (verifier.sol:340-346). -/
structure Env where
  D : Digest
  proof : List Word
  inst : List Word
  size : ℕ

/-- The variables of `get_wx_wg`: verifier.sol:345-348. Only the first `size` words of `m` can be used. -/
structure St where
  m : ℕ → Word
  abs : List Word
  t0 : Word
  t1 : Word

/-- `m[i]`. -/
def Env.load (E : Env) (s : St) (i : ℕ) : Option Word := if i < E.size then some (s.m i) else none

/-- `m[i] = v`. -/
def Env.save (E : Env) (s : St) (i : ℕ) (v : Word) : Option St :=
  if i < E.size then some { s with m := Function.update s.m i v } else none

/-- A literal. -/
def lit (n : ℕ) : Option Word := if n < 2 ^ 256 then some (BitVec.ofNat 256 n) else none

/-- `array[o]`, or `array[o], array[o + 1]`. -/
def readArr (a : List Word) (o : ℕ) : Ty → Option Val
  | .scalar => a[o]?.map .s
  | .point => do return .p (← a[o]?) (← a[o + 1]?)

/-- `m[o]`, or `m[o], m[o + 1]`. -/
def Env.readMem (E : Env) (s : St) (o : ℕ) : Ty → Option Val
  | .scalar => (E.load s o).map .s
  | .point => do return .p (← E.load s o) (← E.load s (o + 1))

/-- `t0`, or `t0, t1`. -/
def readTemp (s : St) : Ty → Val
  | .scalar => .s s.t0
  | .point => .p s.t0 s.t1

/-- ctx.rs:176-185. -/
noncomputable def opAdd : Ty → Val → Val → Option Val
  | .scalar, .s a, .s b => some (.s (addmod a b))
  | .point, .p ax ay, .p bx by' => (eccAdd ax ay bx by').map fun r => .p r.1 r.2
  | _, _, _ => none

/-- ctx.rs:186-195. -/
noncomputable def opSub : Ty → Val → Val → Option Val
  | .scalar, .s a, .s b => (subRendered a b).map .s
  | .point, .p ax ay, .p bx by' => (eccSub ax ay bx by').map fun r => .p r.1 r.2
  | _, _, _ => none

/-- ctx.rs:196-205. -/
noncomputable def opMul : Ty → Val → Val → Option Val
  | .scalar, .s a, .s b => some (.s (mulmod a b))
  | .point, .s a, .p x y => (eccMul x y a).map fun r => .p r.1 r.2
  | _, _, _ => none

/-- ctx.rs:206-211. There is no `ecc_div`. -/
def opDiv : Ty → Val → Val → Option Val
  | .scalar, .s a, .s b => (frDiv a b).map .s
  | _, _, _ => none

/-- ctx.rs:212-218. -/
noncomputable def opMulAdd : Ty → Val → Val → Val → Option Val
  | .scalar, .s a, .s b, .s c => some (.s (frMulAdd a b c))
  | .point, .p x y, .s a, .p cx cy => (eccMulAdd x y a cx cy).map fun r => .p r.1 r.2
  | _, _, _, _ => none

/-- ctx.rs:234-237. -/
def opPow : Ty → Val → ℕ → Option Val
  | .scalar, .s a, e => (lit e).map fun e => .s (frPow a e)
  | _, _, _ => none

/-- `fr_mul_add_pm`: verifier.sol:80-99, with the number of rounds left. -/
def frMulAddPM (E : Env) (s : St) : ℕ → Word → Word → Option Word
  | 0, _, t => some t
  | n + 1, opcode, t =>
    let a := opcode &&& 0xff#256
    if a ≠ 0xff#256 then do
      let opcode := opcode >>> 8
      let b := opcode &&& 0xff#256
      let opcode := opcode >>> 8
      let p ← E.proof[a.toNat]?
      let v ← E.load s b.toNat
      frMulAddPM E s n opcode (addmod (mulmod p v) t)
    else some t

/-- `ecc_mul_add_pm`: verifier.sol:250-276. -/
noncomputable def eccMulAddPM (E : Env) (s : St) : ℕ → Word → Word → Word → Option (Word × Word)
  | 0, _, x, y => some (x, y)
  | n + 1, opcode, x, y =>
    let a := opcode &&& 0xff#256
    if a ≠ 0xff#256 then do
      let opcode := opcode >>> 8
      let b := opcode &&& 0xff#256
      let opcode := opcode >>> 8
      let px ← E.proof[a.toNat]?
      let py ← E.proof[a.toNat + 1]?
      let v ← E.load s b.toNat
      let r ← eccMulAdd px py v x y
      eccMulAddPM E s n opcode r.1 r.2
    else some (x, y)

/-- `fr_mul_add_mt`: verifier.sol:101-118. -/
def frMulAddMT (E : Env) (s : St) (base : Word) : ℕ → Word → Word → Option Word
  | 0, _, t => some t
  | n + 1, opcode, t =>
    let a := opcode &&& 0xff#256
    if a ≠ 0xff#256 then do
      let opcode := opcode >>> 8
      let v ← E.load s a.toNat
      frMulAddMT E s base n opcode (addmod (mulmod base t) v)
    else some t

/-- ctx.rs:241-248. -/
noncomputable def opPM (E : Env) (s : St) (opcode : ℕ) : Ty → Val → Option Val
  | .scalar, .s t => do return .s (← frMulAddPM E s 16 (← lit opcode) t)
  | .point, .p x y => do
    let r ← eccMulAddPM E s 16 (← lit opcode) x y
    return .p r.1 r.2
  | _, _ => none

/-- `to_typed_string`: ctx.rs:167-254. `hash` is handled by the statement: it changes `absorbing`. -/
noncomputable def eval (E : Env) (s : St) : Expr → Option Val
  | .memory o t => E.readMem s o t
  | .transcript o t => readArr E.proof o t
  | .inst o t => readArr E.inst o t
  | .tmpBuf _ _ => none
  | .point x y => do return .p (← lit x) (← lit y)
  | .scalar n => (lit n).map .s
  | .add l r t => do opAdd t (← eval E s l) (← eval E s r)
  | .sub l r t => do opSub t (← eval E s l) (← eval E s r)
  | .mul l r t => do opMul t (← eval E s l) (← eval E s r)
  | .div l r t => do opDiv t (← eval E s l) (← eval E s r)
  | .mulAdd l r c t => do opMulAdd t (← eval E s l) (← eval E s r) (← eval E s c)
  | .mulAddPM target opcode t => do opPM E s opcode t (← eval E s target)
  | .mulAddMT m opcode => do
    let base ← E.load s m
    return .s (← frMulAddMT E s base 32 (← lit opcode) s.t0)
  | .pow b e t => do opPow t (← eval E s b) e
  | .hash _ => none
  | .temp t => some (readTemp s t)

/-- The left side of an assignment: `to_untyped_string`, ctx.rs:100-108. -/
def put (E : Env) (s : St) : Expr → Val → Option St
  | .memory o .scalar, .s w => E.save s o w
  | .memory o .point, .p x y => do E.save (← E.save s o x) (o + 1) y
  | .temp .scalar, .s w => some { s with t0 := w }
  | .temp .point, .p x y => some { s with t0 := x, t1 := y }
  | _, _ => none

/-- The right side of an assignment, which may be a challenge. -/
noncomputable def evalRhs (E : Env) (s : St) : Expr → Option (St × Val)
  | .hash o => do
    let r ← squeezeChallenge E.D s.abs o
    return ({ s with abs := r.1 }, .s r.2)
  | e => (eval E s e).map fun v => (s, v)

/-- `update_hash_scalar` or `update_hash_point`: ctx.rs:509-530. -/
def absorb (s : St) (off : ℕ) : Ty → Val → Option St
  | .scalar, .s w => (updateHashScalar w s.abs off).map fun a => { s with abs := a }
  | .point, .p x y => (updateHashPoint x y s.abs off).map fun a => { s with abs := a }
  | _, _ => none

/-- The rounds of the loop over `proof`: ctx.rs:414-446. -/
def hashRounds (E : Env) (memStart memStep absStart absStep : ℕ) (t : Ty) : List ℕ → St → Option St
  | [], s => some s
  | i :: is, s => do
    let v ← readArr E.proof (memStart + i * memStep) t
    let s ← absorb s (absStart + i * absStep) t v
    hashRounds E memStart memStep absStart absStep t is s

/-- The rounds of the loop over `m`: ctx.rs:447-464. -/
def mulRounds (E : Env) (start step : ℕ × ℕ × ℕ) : List ℕ → St → Option St
  | [], s => some s
  | i :: is, s => do
    let a ← E.load s (start.2.1 + i * step.2.1)
    let b ← E.load s (start.2.2 + i * step.2.2)
    let s ← E.save s (start.1 + i * step.1) (mulmod a b)
    mulRounds E start step is s

/-- A statement: ctx.rs:468-550. The loops count with `t0`. `memory_end - memory_start` and the division are made by the generator. -/
noncomputable def exec (E : Env) (s : St) : Stmt → Option St
  | .assign l r => do
    let (s, v) ← evalRhs E s r
    put E s l v
  | .updateHash e off => do
    let v ← eval E s e
    absorb s off e.type v
  | .loop memStart memEnd memStep absStart absStep t =>
    if memStart ≤ memEnd ∧ memStep ≠ 0 then do
      let n := (memEnd - memStart) / memStep + 1
      let s ← hashRounds E memStart memStep absStart absStep t (List.range n) s
      return { s with t0 := BitVec.ofNat 256 n }
    else none
  | .mulLoop start step n t =>
    match t with
    | .scalar => do
      let s ← mulRounds E start step (List.range n) s
      return { s with t0 := BitVec.ofNat 256 n }
    | .point => none

noncomputable def execAll (E : Env) (s : St) : List Stmt → Option St
  | [] => some s
  | c :: cs => do execAll E (← exec E s c) cs

/-- The variables at the start: verifier.sol:345-348. -/
def St.init (absorbingLength : ℕ) : St := ⟨fun _ => 0, List.replicate (absorbingLength + 1) 0, 0, 0⟩

/-- What the template is filled with, as far as `get_wx_wg` is concerned: ctx.rs:706-717. -/
structure Prog where
  stmts : List Stmt
  finals : List Expr
  size : ℕ
  absorbingLength : ℕ
  deriving DecidableEq

/-- The call of `get_wx_wg`. -/
structure Call where
  D : Digest
  proof : List Word
  inst : List Word

def Call.env (c : Call) (size : ℕ) : Env := ⟨c.D, c.proof, c.inst, size⟩

/-- The statements and the final expressions, from any variables. -/
noncomputable def Prog.runFrom (p : Prog) (c : Call) (s : St) : Option (List Val) := do
  let s ← execAll (c.env p.size) s p.stmts
  p.finals.mapM (eval (c.env p.size) s)

/-- `get_wx_wg`: verifier.sol:340-354. -/
noncomputable def Prog.run (p : Prog) (c : Call) : Option (List Val) := p.runFrom c (St.init p.absorbingLength)

end Verif.Sol
