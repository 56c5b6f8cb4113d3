import Verif.Sol.Pairing
import Verif.Sol.TemplateText

/-!
# What the functions of the template do

Execution of the syntax trees of `Template.lean`. Memory is a list of objects: arrays and structures, with words or references to other objects
as their elements; a new object is appended and none is removed. An address in assembly is an object and a number of bytes from its start, which
is the length for an array of variable length. `none` is a revert, or something outside of this model: text that the compiler rejects, an access
in assembly outside of its object, input of a precompiled contract of a different size. Arithmetic is checked, as from Solidity 0.8 on. Gas is
not modelled: the first argument of `staticcall` is not evaluated.
-/

namespace Verif.Sol.Template
open Verif.Sol

inductive V where
  | num (n : ℕ)
  | word (w : Word)
  | u32 (n : ℕ)
  | bool (b : Bool)
  | ref (o : ℕ)
  | data (l : List Word)

inductive Cell where
  | w (v : Word)
  | r (o : ℕ)

structure Obj where
  dyn : Bool
  cells : List Cell

abbrev Heap := List Obj

structure S where
  vars : String → Option V
  heap : Heap

def S.put (s : S) (x : String) (v : V) : S := ⟨Function.update s.vars x (some v), s.heap⟩

/-- What is fixed: the numbers filled in, contracts 2 and 8, the statements filled in, the other functions and a bound on the rounds. -/
structure Cx where
  fill : String → Option ℕ
  D : Digest
  p : Pairing
  splice : String → S → Option S
  fuel : ℕ
  fns : String → List V → Heap → Option (List V × Heap)

/-! ### Values -/

def Cell.val : Cell → V
  | .w v => .word v
  | .r o => .ref o

def V.toWord : V → Option Word
  | .num n => lit n
  | .word w => some w
  | _ => none

/-- The number of an element. -/
def V.toNat : V → Option ℕ
  | .num n => some n
  | .word w => some w.toNat
  | .u32 n => some n
  | _ => none

/-- Conversion to a type. -/
def V.coerce : TyExp → V → Option V
  | .plain "uint256", .u32 n => some (.word (BitVec.ofNat 256 n))
  | .plain "uint256", v => v.toWord.map .word
  | .plain "bytes32", .word w => some (.word w)
  | .plain "uint32", .num n => if n < 2 ^ 32 then some (.u32 n) else none
  | .plain "uint32", .u32 n => some (.u32 n)
  | .plain "bool", .bool b => some (.bool b)
  | .plain "G1Point", .ref o => some (.ref o)
  | .plain "G2Point", .ref o => some (.ref o)
  | .dyn _, .ref o => some (.ref o)
  | .dyn _, .data l => some (.data l)
  | .arr _ _, .ref o => some (.ref o)
  | _, _ => none

/-- Conversion to the type of the present value of a variable. -/
def V.like : V → V → Option V
  | .word _, v => v.toWord.map .word
  | .u32 _, .u32 n => some (.u32 n)
  | .u32 _, .num n => if n < 2 ^ 32 then some (.u32 n) else none
  | .bool _, .bool b => some (.bool b)
  | .ref _, .ref o => some (.ref o)
  | _, _ => none

/-- Operations on constants, which have no type yet. -/
def numOp : Op → ℕ → ℕ → Option V
  | .mul, a, b => some (.num (a * b))
  | .add, a, b => some (.num (a + b))
  | .sub, a, b => if b ≤ a then some (.num (a - b)) else none
  | .shl, a, b => some (.num (a * 2 ^ b))
  | _, _, _ => none

def u32Op : Op → ℕ → ℕ → Option V
  | .mul, a, b => if a * b < 2 ^ 32 then some (.u32 (a * b)) else none
  | .add, a, b => if a + b < 2 ^ 32 then some (.u32 (a + b)) else none
  | _, _, _ => none

def wordOp : Op → Word → Word → Option V
  | .mul, a, b => if a.toNat * b.toNat < 2 ^ 256 then some (.word (a * b)) else none
  | .add, a, b => if a.toNat + b.toNat < 2 ^ 256 then some (.word (a + b)) else none
  | .sub, a, b => (subChecked a b).map .word
  | .mod, a, b => if b = 0 then none else some (.word (a % b))
  | .shl, a, b => some (.word (a <<< b.toNat))
  | .shr, a, b => some (.word (a >>> b.toNat))
  | .and, a, b => some (.word (a &&& b))
  | .or, a, b => some (.word (a ||| b))
  | .lt, a, b => some (.bool (decide (a.toNat < b.toNat)))
  | .ne, a, b => some (.bool (decide (a ≠ b)))
  | .eq, a, b => some (.bool (decide (a = b)))

def binOp (op : Op) : V → V → Option V
  | .num a, .num b => numOp op a b
  | .u32 a, .num b => u32Op op a b
  | a, b => do wordOp op (← a.toWord) (← b.toWord)

/-! ### Memory -/

def Size.val (fill : String → Option ℕ) : Size → Option ℕ
  | .num n => some n
  | .hole x k => (fill x).map (· + k)

def Heap.new (h : Heap) (dyn : Bool) (cells : List Cell) : V × Heap := (.ref h.length, h ++ [⟨dyn, cells⟩])

/-- A structure or an array of two words with zeros. -/
def zeros (n : ℕ) : List Cell := List.replicate n (.w 0)

/-- The value of a variable that is declared without one. -/
def default (fill : String → Option ℕ) (h : Heap) : TyExp → Option (V × Heap)
  | .plain "uint256" => some (.word 0, h)
  | .plain "bytes32" => some (.word 0, h)
  | .plain "uint32" => some (.u32 0, h)
  | .plain "bool" => some (.bool false, h)
  | .plain "G1Point" => some (h.new false (zeros 2))
  | .plain "G2Point" => some (Heap.new (h ++ [⟨false, zeros 2⟩] ++ [⟨false, zeros 2⟩]) false [.r h.length, .r (h.length + 1)])
  | .arr "uint256" n | .arr "bytes32" n => (n.val fill).map fun n => h.new false (zeros n)
  | _ => none

/-- Objects for `n` elements of a type, and the references to them. -/
def elements (fill : String → Option ℕ) (t : TyExp) : ℕ → Heap → Option (List Cell × Heap)
  | 0, h => some ([], h)
  | n + 1, h =>
    match default fill h t with
    | some (.ref o, h) => (elements fill t n h).map fun r => (.r o :: r.1, r.2)
    | _ => none

/-- `new t[](n)`. -/
def newArray (fill : String → Option ℕ) (h : Heap) (t : String) (n : ℕ) : Option (V × Heap) :=
  match t with
  | "uint256" => some (h.new true (zeros n))
  | t => (elements fill (.plain t) n h).map fun r => r.2.new true r.1

/-- `a[i]`. -/
def readAt (h : Heap) : V → ℕ → Option V
  | .ref o, i => do return (← (← h[o]?).cells[i]?).val
  | .data l, i => l[i]?.map .word
  | _, _ => none

/-- The position of a field: verifier.sol:146-154. -/
def fieldPos : String → Option ℕ
  | "x" => some 0
  | "y" => some 1
  | _ => none

def readField (h : Heap) (v : V) (x : String) : Option V :=
  match x, v with
  | "length", .ref o => do return .word (BitVec.ofNat 256 (← h[o]?).cells.length)
  | "length", .data l => some (.word (BitVec.ofNat 256 l.length))
  | x, v => do readAt h v (← fieldPos x)

/-- What is stored in place of an element. -/
def Cell.like : Cell → V → Option Cell
  | .w _, v => v.toWord.map .w
  | .r _, .ref o => some (.r o)
  | _, _ => none

/-- `a[i] = v`. -/
def writeAt (h : Heap) (a : V) (i : ℕ) (v : V) : Option Heap :=
  match a with
  | .ref o => do
    let obj ← h[o]?
    let c ← (← obj.cells[i]?).like v
    return h.set o { obj with cells := obj.cells.set i c }
  | _ => none

/-! ### Precompiled contracts -/

def Cell.word? : Cell → Option Word
  | .w v => some v
  | .r _ => none

/-- The words of an object, from its start. -/
def Obj.words (o : Obj) : Option (List Word) := do
  let ws ← o.cells.mapM Cell.word?
  return if o.dyn then BitVec.ofNat 256 ws.length :: ws else ws

/-- EIP-198 for numbers of 32 bytes. -/
def modexp : List Word → Option Word
  | [a, b, c, base, e, m] =>
    if a = 32 ∧ b = 32 ∧ c = 32 then some (if m = 0 then 0 else BitVec.ofNat 256 (base.toNat ^ e.toNat % m.toNat)) else none
  | _ => none

/-- EIP-196: the words of a sum. -/
noncomputable def ecAdd : List Word → Option (List Word)
  | [ax, ay, bx, by'] => do
    let a ← g1 ax ay
    let b ← g1 bx by'
    return [(g1Words (a + b)).1, (g1Words (a + b)).2]
  | _ => none

/-- EIP-196: the words of a multiple. -/
noncomputable def ecMul : List Word → Option (List Word)
  | [x, y, k] => do
    let a ← g1 x y
    return [(g1Words (k.toNat • a)).1, (g1Words (k.toNat • a)).2]
  | _ => none

/-- Contract `k` with `len` bytes from the beginning of the words. The inner `none` is a call that fails. -/
noncomputable def precompiled (D : Digest) (p : Pairing) (k : ℕ) (ws : List Word) (len : ℕ) : Option (Option (List Word)) :=
  if len ≤ 32 * ws.length then
    match k with
    | 2 => some (some [hashMem D ws len])
    | 5 => if len = 192 then (modexp (ws.take 6)).map fun r => some [r] else none
    | 6 => if len = 128 then some (ecAdd (ws.take 4)) else none
    | 7 => if len = 96 then some (ecMul (ws.take 3)) else none
    | 8 => if len % 192 = 0 then some ((ecPairing p (ws.take (len / 32))).map fun r => [r]) else none
    | _ => none
  else none

/-- What an expression in assembly gives. -/
inductive Asm where
  | n (k : ℕ)
  | addr (o off : ℕ)

def asmVal : V → Option Asm
  | .num n => some (.n n)
  | .word w => some (.n w.toNat)
  | .ref o => some (.addr o 0)
  | _ => none

def asmExp (s : S) : Exp → Option Asm
  | .num n => some (.n n)
  | .var x => (s.vars x).bind asmVal
  | .call "add" [.var x, .num k] =>
    match (s.vars x).bind asmVal with
    | some (.addr o off) => some (.addr o (off + k))
    | _ => none
  | .call "mul" [.var x, .num k] =>
    match (s.vars x).bind asmVal with
    | some (.n a) => some (.n (a * k % 2 ^ 256))
    | _ => none
  | _ => none

/-- Words written one after the other. -/
def overwrite (cells : List Cell) : ℕ → List Word → Option (List Cell)
  | _, [] => some cells
  | i, w :: ws => if i < cells.length then overwrite (cells.set i (.w w)) (i + 1) ws else none

/-- `x := staticcall(gas, k, from, len, to, outLen)`. -/
noncomputable def staticcall (c : Cx) (s : S) (x : String) (k src len dst outLen : Asm) : Option S :=
  match k, src, len, dst, outLen with
  | .n k, .addr o off, .n len, .addr o' off', .n outLen => do
    let ws ← (← s.heap[o]?).words
    if off % 32 = 0 ∧ off' % 32 = 0 then
      match ← precompiled c.D c.p k (ws.drop (off / 32)) len with
      | none => return s.put x (.bool false)
      | some out => do
        let obj ← s.heap[o']?
        if obj.dyn = false ∧ outLen = 32 * out.length then
          let cells ← overwrite obj.cells (off' / 32) out
          return S.put { s with heap := s.heap.set o' { obj with cells := cells } } x (.bool true)
        else none
    else none
  | _, _, _, _, _ => none

/-! ### Expressions -/

/-- verifier.sol:40-41 and 143-144, and the constants of the language. -/
def constant : String → Option V
  | "q_mod" => some (.word qMod)
  | "p_mod" => some (.word pMod)
  | "false" => some (.bool false)
  | "true" => some (.bool true)
  | _ => none

def lookup (s : S) (x : String) : Option V :=
  match s.vars x with
  | some v => some v
  | none => constant x

def oneV : List V → Option V
  | [v] => some v
  | _ => none

/-- The functions of the language; the others are those of the contract. -/
def applyFn (c : Cx) (f : String) (args : List V) (h : Heap) : Option (List V × Heap) :=
  match f with
  | "addmod" =>
    match args with
    | [a, b, q] => do
      let a ← a.toWord
      let b ← b.toWord
      let q ← q.toWord
      if q = 0 then none else some ([.word (BitVec.ofNat 256 ((a.toNat + b.toNat) % q.toNat))], h)
    | _ => none
  | "mulmod" =>
    match args with
    | [a, b, q] => do
      let a ← a.toWord
      let b ← b.toWord
      let q ← q.toWord
      if q = 0 then none else some ([.word (BitVec.ofNat 256 (a.toNat * b.toNat % q.toNat))], h)
    | _ => none
  | "require" =>
    match args with
    | [.bool true] => some ([], h)
    | _ => none
  | "assert" =>
    match args with
    | [.bool true] => some ([], h)
    | _ => none
  | "uint256" =>
    match args with
    | [v] => v.toWord.map fun w => ([.word w], h)
    | _ => none
  | f => c.fns f args h

mutual

noncomputable def Exp.run (c : Cx) (s : S) : Exp → Option (S × List V)
  | .num n => some (s, [.num n])
  | .hole x => (c.fill x).map fun n => (s, [.num n])
  | .var x => (lookup s x).map fun v => (s, [v])
  | .index a i => do
    let (s, a) ← a.run c s
    let (s, i) ← i.run c s
    let v ← readAt s.heap (← oneV a) (← (← oneV i).toNat)
    return (s, [v])
  | .field a x => do
    let (s, a) ← a.run c s
    let v ← readField s.heap (← oneV a) x
    return (s, [v])
  | .call f args => do
    let (s, vs) ← runAll c s args
    let r ← applyFn c f vs s.heap
    return ({ s with heap := r.2 }, r.1)
  | .bin op l r => do
    let (s, a) ← l.run c s
    let (s, b) ← r.run c s
    let v ← binOp op (← oneV a) (← oneV b)
    return (s, [v])
  | .inc x => do
    let v ← lookup s x
    let w ← binOp .add v (.num 1)
    return (s.put x w, [v])
  | .newArr t n => do
    let (s, n) ← n.run c s
    let r ← newArray c.fill s.heap t (← (← oneV n).toNat)
    return ({ s with heap := r.2 }, [r.1])

/-- From left to right. Each has to be one value. -/
noncomputable def runAll (c : Cx) (s : S) : List Exp → Option (S × List V)
  | [] => some (s, [])
  | e :: es => do
    let (s, v) ← e.run c s
    let (s, vs) ← runAll c s es
    return (s, (← oneV v) :: vs)

end

/-- A tuple, or one expression that may give several values. -/
noncomputable def runTuple (c : Cx) (s : S) : List Exp → Option (S × List V)
  | [e] => e.run c s
  | es => runAll c s es

/-! ### Statements -/

/-- Assigning a value to a place. -/
noncomputable def assignTo (c : Cx) (s : S) (l : Exp) (v : V) : Option S :=
  match l with
  | .var x => do return s.put x (← (← s.vars x).like v)
  | .index a i => do
    let (s, a) ← a.run c s
    let (s, i) ← i.run c s
    return { s with heap := ← writeAt s.heap (← oneV a) (← (← oneV i).toNat) v }
  | .field a x => do
    let (s, a) ← a.run c s
    return { s with heap := ← writeAt s.heap (← oneV a) (← fieldPos x) v }
  | _ => none

/-- The components of a tuple, from right to left. -/
noncomputable def assignAll (c : Cx) (s : S) : List Exp → List V → Option S
  | [], [] => some s
  | l :: ls, v :: vs => do assignTo c (← assignAll c s ls vs) l v
  | _, _ => none

/-- How a statement ends. -/
inductive Out where
  | next (s : S)
  | brk (s : S)
  | ret (vs : List V) (h : Heap)

/-- The rounds of a loop. -/
def rounds (cond : S → Option (S × Bool)) (body : S → Option Out) (step : S → Option Out) : ℕ → S → Option Out
  | 0, _ => none
  | n + 1, s =>
    match cond s with
    | some (s, true) =>
      match body s with
      | some (.next s) =>
        match step s with
        | some (.next s) => rounds cond body step n s
        | _ => none
      | some (.brk s) => some (.next s)
      | some (.ret vs h) => some (.ret vs h)
      | none => none
    | some (s, false) => some (.next s)
    | none => none

/-- A condition. -/
noncomputable def Exp.test (c : Cx) (e : Exp) (s : S) : Option (S × Bool) := do
  let (s, v) ← e.run c s
  match v with
  | [.bool b] => return (s, b)
  | _ => none

/-- Continue with the next statement. -/
def Out.andThen (o : Option Out) (f : S → Option Out) : Option Out :=
  match o with
  | some (.next s) => f s
  | o => o

mutual

noncomputable def Stmt.run (c : Cx) (s : S) : Stmt → Option Out
  | .decl t x none => do
    let (v, h) ← default c.fill s.heap t
    return .next (S.put { s with heap := h } x v)
  | .decl t x (some e) => do
    let (s, v) ← e.run c s
    return .next (s.put x (← (← oneV v).coerce t))
  | .assign ls e => do
    let (s, vs) ← e.run c s
    return .next (← assignAll c s ls vs)
  | .assignOp op x e => do
    let (s, v) ← e.run c s
    let a ← s.vars x
    return .next (s.put x (← a.like (← binOp op a (← oneV v))))
  | .exp e => do
    let (s, _) ← e.run c s
    return .next s
  | .loop init e step body => Out.andThen (init.run c s) fun s => rounds (e.test c) (fun s => runBody c s body) (fun s => step.run c s) c.fuel s
  | .ite e t f => do
    let (s, b) ← e.test c s
    if b then runBody c s t else runBody c s f
  | .brk => some (.brk s)
  | .ret es => do
    let (s, vs) ← runTuple c s es
    return .ret vs s.heap
  | .staticcall x [_, k, src, len, dst, outLen] => do
    return .next (← staticcall c s x (← asmExp s k) (← asmExp s src) (← asmExp s len) (← asmExp s dst) (← asmExp s outLen))
  | .staticcall _ _ => none
  | .invalidIfZero x =>
    match s.vars x with
    | some (.bool true) => some (.next s)
    | _ => none
  | .splice x => (c.splice x s).map .next

noncomputable def runBody (c : Cx) (s : S) : List Stmt → Option Out
  | [] => some (.next s)
  | a :: as => Out.andThen (a.run c s) fun s => runBody c s as

end

/-! ### Functions -/

/-- The parameters. -/
def bind : List (TyExp × String) → List V → S → Option S
  | [], [], s => some s
  | (t, x) :: ps, v :: vs, s => do bind ps vs (s.put x (← v.coerce t))
  | _, _, _ => none

/-- The results that have a name. -/
def declare (fill : String → Option ℕ) : List (TyExp × Option String) → S → Option S
  | [], s => some s
  | (t, some x) :: rs, s => do
    let (v, h) ← default fill s.heap t
    declare fill rs (S.put { s with heap := h } x v)
  | (_, none) :: rs, s => declare fill rs s

/-- Values of the types that are returned. -/
def coerceAll : List (TyExp × Option String) → List V → Option (List V)
  | [], [] => some []
  | (t, _) :: rs, v :: vs => do return (← v.coerce t) :: (← coerceAll rs vs)
  | _, _ => none

/-- The values of the results when the end of the body is reached. -/
def named (s : S) : List (TyExp × Option String) → Option (List V)
  | [] => some []
  | (_, some x) :: rs => do return (← s.vars x) :: (← named s rs)
  | (_, none) :: _ => none

noncomputable def Fn.run (c : Cx) (f : Fn) (args : List V) (h : Heap) : Option (List V × Heap) := do
  let s ← bind f.params args ⟨fun _ => none, h⟩
  let s ← declare c.fill f.rets s
  match ← runBody c s f.body with
  | .ret vs h => return (← coerceAll f.rets vs, h)
  | .next s => return (← named s f.rets, s.heap)
  | .brk _ => none

end Verif.Sol.Template
