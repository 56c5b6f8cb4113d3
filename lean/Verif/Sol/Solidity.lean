import Verif.Sol.Syntax

/-!
# The part of Solidity in which `get_wx_wg` is written

Characters, tokens, syntax trees, and what a tree does. This is the language of the rendered text, independent of the code generator: names,
decimal numbers, sums, products, indexing, calls, assignments to one or two places, calls as statements, counting loops.

`none` is a revert, or text that the compiler rejects: a name that is not declared, an argument that is not exactly one value, a number that
does not fit. Arithmetic is checked, as from Solidity 0.8 on. `<=` and `++` are two tokens here. The functions of the template are those of
`Evm.lean`, `Sha.lean` and `Syntax.lean`.
-/

namespace Verif.Sol

/-! ### Tokens -/

inductive Tok where
  | id (x : String)
  | num (n : ℕ)
  | sym (c : Char)
  deriving DecidableEq

def wordChar (c : Char) : Bool := c.isAlphanum || c == '_'

/-- A word is a decimal number if it consists of digits. -/
def wordTok (w : List Char) : Tok := if w.all Char.isDigit then .num (Nat.ofDigitChars 10 w 0) else .id (String.ofList w)

/-- The tokens of a text, where `w` is the beginning of a word that was already seen. -/
def lexFrom (w : List Char) : List Char → List Tok
  | [] => if w = [] then [] else [wordTok w]
  | c :: cs =>
    if wordChar c then lexFrom (w ++ [c]) cs
    else (if w = [] then [] else [wordTok w]) ++ (if c.isWhitespace then [] else [.sym c]) ++ lexFrom [] cs

def lex (t : String) : List Tok := lexFrom [] t.toList

/-! ### Syntax trees -/

inductive SExp where
  | num (n : ℕ)
  | var (x : String)
  | index (a : String) (i : SExp)
  | call (f : String) (args : List SExp)
  | bin (op : Char) (l r : SExp)

inductive SStmt where
  | assign (lhs rhs : List SExp)
  | eval (e : SExp)
  | loop (v : String) (init : SExp) (orEqual : Bool) (bound : SExp) (body : List SStmt)

/-- The body of `get_wx_wg`: the sizes of `m` and `absorbing`, the statements and what is returned. -/
structure SFun where
  size : ℕ
  absorbing : ℕ
  body : List SStmt
  ret : List SExp

/-! ### Parser: recursive descent, with a bound on the depth -/

mutual

/-- `term ((+|-) term)*` -/
def pExpr : ℕ → List Tok → Option (SExp × List Tok)
  | 0, _ => none
  | n + 1, ts => do
    let (a, ts) ← pTerm n ts
    pSum n a ts

def pSum : ℕ → SExp → List Tok → Option (SExp × List Tok)
  | 0, _, _ => none
  | n + 1, a, .sym '+' :: ts => do
    let (b, ts) ← pTerm n ts
    pSum n (.bin '+' a b) ts
  | n + 1, a, .sym '-' :: ts => do
    let (b, ts) ← pTerm n ts
    pSum n (.bin '-' a b) ts
  | _ + 1, a, ts => some (a, ts)

/-- `atom (* atom)*` -/
def pTerm : ℕ → List Tok → Option (SExp × List Tok)
  | 0, _ => none
  | n + 1, ts => do
    let (a, ts) ← pAtom n ts
    pProd n a ts

def pProd : ℕ → SExp → List Tok → Option (SExp × List Tok)
  | 0, _, _ => none
  | n + 1, a, .sym '*' :: ts => do
    let (b, ts) ← pAtom n ts
    pProd n (.bin '*' a b) ts
  | _ + 1, a, ts => some (a, ts)

def pAtom : ℕ → List Tok → Option (SExp × List Tok)
  | 0, _ => none
  | _ + 1, .num k :: ts => some (.num k, ts)
  | n + 1, .id f :: .sym '(' :: ts => do
    let (as, ts) ← pArgs n ts
    return (.call f as, ts)
  | n + 1, .id a :: .sym '[' :: ts => do
    match ← pExpr n ts with
    | (i, .sym ']' :: ts) => return (.index a i, ts)
    | _ => none
  | _ + 1, .id x :: ts => some (.var x, ts)
  | _ + 1, _ => none

/-- Arguments up to the closing parenthesis. -/
def pArgs : ℕ → List Tok → Option (List SExp × List Tok)
  | 0, _ => none
  | n + 1, ts => do
    match ← pExpr n ts with
    | (a, .sym ')' :: ts) => return ([a], ts)
    | (a, .sym ',' :: ts) => do
      let (as, ts) ← pArgs n ts
      return (a :: as, ts)
    | _ => none

end

/-- The bound of a loop: `< e` or `<= e`. -/
def pBound (n : ℕ) : List Tok → Option (Bool × SExp × List Tok)
  | .sym '<' :: .sym '=' :: ts => do
    let (e, ts) ← pExpr n ts
    return (true, e, ts)
  | .sym '<' :: ts => do
    let (e, ts) ← pExpr n ts
    return (false, e, ts)
  | _ => none

/-- `= (values);` -/
def pRhs (n : ℕ) : List Tok → Option (List SExp × List Tok)
  | .sym '=' :: .sym '(' :: ts => do
    match ← pArgs n ts with
    | (as, .sym ';' :: ts) => return (as, ts)
    | _ => none
  | _ => none

mutual

def pStmt : ℕ → List Tok → Option (SStmt × List Tok)
  | 0, _ => none
  | n + 1, .id "for" :: .sym '(' :: .id v :: .sym '=' :: ts => do
    match ← pExpr n ts with
    | (init, .sym ';' :: .id v' :: ts) =>
      match ← pBound n ts with
      | (le, bound, .sym ';' :: .id v'' :: .sym '+' :: .sym '+' :: .sym ')' :: .sym '{' :: ts) =>
        if v' = v ∧ v'' = v then do
          match ← pBody n ts with
          | (body, .sym '}' :: ts) => return (.loop v init le bound body, ts)
          | _ => none
        else none
      | _ => none
    | _ => none
  | n + 1, .sym '(' :: ts => do
    let (lhs, ts) ← pArgs n ts
    let (rhs, ts) ← pRhs n ts
    return (.assign lhs rhs, ts)
  | n + 1, ts => do
    match ← pExpr n ts with
    | (e, .sym ';' :: ts) => return (.eval e, ts)
    | (e, ts) => do
      let (rhs, ts) ← pRhs n ts
      return (.assign [e] rhs, ts)

/-- Statements up to `}` or `return`. -/
def pBody : ℕ → List Tok → Option (List SStmt × List Tok)
  | 0, _ => none
  | _ + 1, .sym '}' :: ts => some ([], .sym '}' :: ts)
  | _ + 1, .id "return" :: ts => some ([], .id "return" :: ts)
  | n + 1, ts => do
    let (c, ts) ← pStmt n ts
    let (cs, ts) ← pBody n ts
    return (c :: cs, ts)

end

/-- `uint256[k] memory x;` -/
def pArray (x : String) : List Tok → Option (ℕ × List Tok)
  | .id "uint256" :: .sym '[' :: .num k :: .sym ']' :: .id "memory" :: .id y :: .sym ';' :: ts => if y = x then some (k, ts) else none
  | _ => none

/-- `uint256 x = 0;` -/
def pVar (x : String) : List Tok → Option (List Tok)
  | .id "uint256" :: .id y :: .sym '=' :: .num 0 :: .sym ';' :: ts => if y = x then some ts else none
  | _ => none

def pFun (n : ℕ) (ts : List Tok) : Option SFun := do
  let (size, ts) ← pArray "m" ts
  let (absorbing, ts) ← pArray "absorbing" ts
  let ts ← pVar "t0" ts
  let ts ← pVar "t1" ts
  match ← pBody n ts with
  | (body, .id "return" :: .sym '(' :: ts) =>
    match ← pArgs n ts with
    | (ret, [.sym ';']) => return ⟨size, absorbing, body, ret⟩
    | _ => none
  | _ => none

/-! ### Execution -/

/-- What can be passed to a function. -/
inductive Arg where
  | w (v : Word)
  | m
  | proof
  | absorbing

/-- Two coordinates. -/
def two (r : Word × Word) : List Arg := [.w r.1, .w r.2]

/-- The functions of the EVM and of the template (verifier.sol:40-310), by name. `addmod` and `mulmod` revert if the modulus is zero;
`squeeze_challenge` takes a `uint32`. -/
noncomputable def builtin (E : Env) (s : St) (f : String) (args : List Arg) : Option (St × List Arg) :=
  match f, args with
  | "addmod", [.w a, .w b, .w q] => if q = 0 then none else some (s, [.w (BitVec.ofNat 256 ((a.toNat + b.toNat) % q.toNat))])
  | "mulmod", [.w a, .w b, .w q] => if q = 0 then none else some (s, [.w (BitVec.ofNat 256 (a.toNat * b.toNat % q.toNat))])
  | "fr_div", [.w a, .w b] => (frDiv a b).map fun r => (s, [.w r])
  | "fr_mul_add", [.w a, .w b, .w c] => some (s, [.w (frMulAdd a b c)])
  | "fr_pow", [.w a, .w e] => some (s, [.w (frPow a e)])
  | "fr_mul_add_pm", [.m, .proof, .w op, .w t] => (frMulAddPM E s 16 op t).map fun r => (s, [.w r])
  | "fr_mul_add_mt", [.m, .w base, .w op, .w t] => (frMulAddMT E s base 32 op t).map fun r => (s, [.w r])
  | "ecc_add", [.w ax, .w ay, .w bx, .w by'] => (eccAdd ax ay bx by').map fun r => (s, two r)
  | "ecc_sub", [.w ax, .w ay, .w bx, .w by'] => (eccSub ax ay bx by').map fun r => (s, two r)
  | "ecc_mul", [.w px, .w py, .w k] => (eccMul px py k).map fun r => (s, two r)
  | "ecc_mul_add", [.w px, .w py, .w k, .w qx, .w qy] => (eccMulAdd px py k qx qy).map fun r => (s, two r)
  | "ecc_mul_add_pm", [.m, .proof, .w op, .w x, .w y] => (eccMulAddPM E s 16 op x y).map fun r => (s, two r)
  | "update_hash_scalar", [.w v, .absorbing, .w pos] => (updateHashScalar v s.abs pos.toNat).map fun a => ({ s with abs := a }, [])
  | "update_hash_point", [.w x, .w y, .absorbing, .w pos] => (updateHashPoint x y s.abs pos.toNat).map fun a => ({ s with abs := a }, [])
  | "squeeze_challenge", [.absorbing, .w len] =>
    if len.toNat < 2 ^ 32 then (squeezeChallenge E.D s.abs len.toNat).map fun r => ({ s with abs := r.1 }, [.w r.2]) else none
  | _, _ => none

/-- The names that are declared. -/
def varOf (s : St) : String → Option Arg
  | "t0" => some (.w s.t0)
  | "t1" => some (.w s.t1)
  | "q_mod" => some (.w qMod)
  | "m" => some .m
  | "proof" => some .proof
  | "absorbing" => some .absorbing
  | _ => none

/-- `a[i]`. -/
def element (E : Env) (s : St) : String → ℕ → Option Word
  | "m", i => E.load s i
  | "proof", i => E.proof[i]?
  | "instances", i => E.inst[i]?
  | _, _ => none

/-- Checked arithmetic. -/
def arith : Char → Word → Word → Option Word
  | '+', a, b => if a.toNat + b.toNat < 2 ^ 256 then some (a + b) else none
  | '*', a, b => if a.toNat * b.toNat < 2 ^ 256 then some (a * b) else none
  | '-', a, b => subChecked a b
  | _, _, _ => none

/-- Exactly one word. -/
def oneWord : List Arg → Option Word
  | [.w v] => some v
  | _ => none

/-- Exactly one value. -/
def oneArg : List Arg → Option Arg
  | [a] => some a
  | _ => none

mutual

/-- The values of an expression: one, or two for a function that returns a point. -/
noncomputable def SExp.run (E : Env) (s : St) : SExp → Option (St × List Arg)
  | .num n => (lit n).map fun v => (s, [.w v])
  | .var x => (varOf s x).map fun a => (s, [a])
  | .index a i => do
    let (s, v) ← i.run E s
    let i ← oneWord v
    let v ← element E s a i.toNat
    return (s, [.w v])
  | .call f args => do
    let (s, v) ← runArgs E s args
    builtin E s f v
  | .bin op l r => do
    let (s, a) ← l.run E s
    let (s, b) ← r.run E s
    let v ← arith op (← oneWord a) (← oneWord b)
    return (s, [.w v])

/-- Arguments and components of a tuple, from left to right. Each has to be one value. -/
noncomputable def runArgs (E : Env) (s : St) : List SExp → Option (St × List Arg)
  | [] => some (s, [])
  | e :: es => do
    let (s, v) ← e.run E s
    let a ← oneArg v
    let (s, as) ← runArgs E s es
    return (s, a :: as)

end

/-- `(e, ...)`: a tuple; parentheses around one expression change nothing. -/
noncomputable def runTuple (E : Env) (s : St) : List SExp → Option (St × List Arg)
  | [e] => e.run E s
  | es => runArgs E s es

/-- Assigning a value to a place. -/
noncomputable def assignTo (E : Env) (s : St) : SExp → Arg → Option St
  | .var "t0", .w v => some { s with t0 := v }
  | .var "t1", .w v => some { s with t1 := v }
  | .index "m" i, .w v => do
    let (s, j) ← i.run E s
    E.save s (← oneWord j).toNat v
  | _, _ => none

/-- Assigning to the components of a tuple, from right to left. -/
noncomputable def assignAll (E : Env) (s : St) : List SExp → List Arg → Option St
  | [], [] => some s
  | e :: es, a :: as => do assignTo E (← assignAll E s es as) e a
  | _, _ => none

mutual

/-- A statement, with a bound on the number of rounds. -/
noncomputable def SStmt.run : ℕ → Env → St → SStmt → Option St
  | 0, _, _, _ => none
  | _ + 1, E, s, .assign lhs rhs => do
    let (s, v) ← runTuple E s rhs
    assignAll E s lhs v
  | _ + 1, E, s, .eval e => (e.run E s).map (·.1)
  | n + 1, E, s, .loop v init le bound body => do
    let (s, a) ← init.run E s
    let s ← assignTo E s (.var v) (← oneArg a)
    runLoop n E s v le bound body

/-- The rounds of a loop that are left. -/
noncomputable def runLoop : ℕ → Env → St → String → Bool → SExp → List SStmt → Option St
  | 0, _, _, _, _, _, _ => none
  | n + 1, E, s, v, le, bound, body => do
    let (s, a) ← (SExp.var v).run E s
    let (s, b) ← bound.run E s
    let a ← oneWord a
    let b ← oneWord b
    if a.toNat < b.toNat ∨ (le = true ∧ a.toNat = b.toNat) then do
      let s ← runBody n E s body
      let (s, c) ← (SExp.var v).run E s
      let s ← assignTo E s (.var v) (.w (← arith '+' (← oneWord c) 1))
      runLoop n E s v le bound body
    else some s

noncomputable def runBody : ℕ → Env → St → List SStmt → Option St
  | 0, _, _, _ => none
  | _ + 1, _, s, [] => some s
  | n + 1, E, s, c :: cs => do runBody n E (← SStmt.run n E s c) cs

end

/-- A call of the function. It returns four words. -/
noncomputable def SFun.run (n : ℕ) (f : SFun) (c : Call) : Option (Word × Word × Word × Word) := do
  let E := c.env f.size
  let s ← runBody n E ⟨fun _ => 0, List.replicate f.absorbing 0, 0, 0⟩ f.body
  match ← runArgs E s f.ret with
  | (_, [.w a, .w b, .w c, .w d]) => return (a, b, c, d)
  | _ => none

/-- The text is the body of a function that returns `r` when it is called with `c`; `none` is a revert. -/
def Text.Returns (t : String) (c : Call) (r : Option (Word × Word × Word × Word)) : Prop :=
  ∃ f : SFun, ∃ n₀, ∀ n ≥ n₀, pFun n (lex t) = some f ∧ f.run n c = r

end Verif.Sol
