import Lean.Elab.Term
import Mathlib.Data.Nat.Notation

/-!
# The syntax of the template of the contract

Characters, tokens and syntax trees for the part of Solidity in which `halo2-snark-aggregator-solidity/templates/verifier.sol` is written,
with the tags of Tera. A tag `{{ x }}` is one symbol of the text, so the template is cut into tokens before it is filled in: the strings that
are filled in are decimal numbers and lists of statements, which begin and end with their own tokens. Operators of several characters are
several tokens. Visibility and mutability of functions have no effect on what they compute and are skipped.
-/

namespace Verif.Sol.Template

/-- The characters of a string literal. -/
elab "chars!" s:str : term => return Lean.toExpr s.getString.toList

/-! ### Tokens -/

inductive Kw where
  | function | returns | return_ | for_ | if_ | else_ | break_ | assembly | memory | calldata | new_ | struct | constant | switch
  | case
  deriving DecidableEq

inductive Tok where
  | id (w : List Char)
  | kw (k : Kw)
  | num (n : ℕ)
  | sym (c : Char)

def wordChar (c : Char) : Bool := c.isAlphanum || c == '_'

def keyword (w : List Char) : Option Kw :=
  if w = chars!"function" then some .function
  else if w = chars!"returns" then some .returns
  else if w = chars!"return" then some .return_
  else if w = chars!"for" then some .for_
  else if w = chars!"if" then some .if_
  else if w = chars!"else" then some .else_
  else if w = chars!"break" then some .break_
  else if w = chars!"assembly" then some .assembly
  else if w = chars!"memory" then some .memory
  else if w = chars!"calldata" then some .calldata
  else if w = chars!"new" then some .new_
  else if w = chars!"struct" then some .struct
  else if w = chars!"constant" then some .constant
  else if w = chars!"switch" then some .switch
  else if w = chars!"case" then some .case
  else none

/-- The value of a digit, in either case. -/
def hexDigit (c : Char) : Option ℕ :=
  if '0'.toNat ≤ c.toNat ∧ c.toNat ≤ '9'.toNat then some (c.toNat - '0'.toNat)
  else if 'a'.toNat ≤ c.toNat ∧ c.toNat ≤ 'f'.toNat then some (c.toNat - 'a'.toNat + 10)
  else if 'A'.toNat ≤ c.toNat ∧ c.toNat ≤ 'F'.toNat then some (c.toNat - 'A'.toNat + 10)
  else none

/-- A number in base `b` whose first digits have the value `a`. -/
def digits (b : ℕ) : ℕ → List Char → Option ℕ
  | a, [] => some a
  | a, c :: cs =>
    match hexDigit c with
    | some d => if d < b then digits b (b * a + d) cs else none
    | none => none

def wordTok (w : List Char) : Tok :=
  match w with
  | '0' :: 'x' :: ds =>
    match digits 16 0 ds with
    | some n => .num n
    | none => .id w
  | _ =>
    match digits 10 0 w with
    | some n => .num n
    | none =>
      match keyword w with
      | some k => .kw k
      | none => .id w

/-- The tokens of a text: the beginning of a word in reverse, and whether this is a comment. -/
def lexFrom : List Char → Bool → List Char → List Tok
  | [], _, [] => []
  | w, _, [] => [wordTok w.reverse]
  | w, true, c :: cs => if c = '\n' then lexFrom [] false cs else lexFrom w true cs
  | w, false, c :: cs =>
    if wordChar c then lexFrom (c :: w) false cs
    else
      let rest := if c = '/' ∧ cs.head? = some '/' then lexFrom [] true cs
        else if c.isWhitespace then lexFrom [] false cs else .sym c :: lexFrom [] false cs
      match w with
      | [] => rest
      | w => wordTok w.reverse :: rest

def lex (t : List Char) : List Tok := lexFrom [] false t

/-! ### Syntax trees -/

/-- The length of an array: a number, or what a tag is filled with plus a number. -/
inductive Size where
  | num (n : ℕ)
  | hole (x : String) (plus : ℕ)
  deriving Repr

/-- `t`, `t[]` or `t[n]`. -/
inductive TyExp where
  | plain (t : String)
  | dyn (t : String)
  | arr (t : String) (n : Size)
  deriving Repr

inductive Op where
  | mul | mod | add | sub | shl | shr | and | or | lt | ne | eq
  deriving Repr, DecidableEq

inductive Exp where
  | num (n : ℕ)
  | hole (x : String)
  | var (x : String)
  | index (a i : Exp)
  | field (a : Exp) (x : String)
  | call (f : String) (args : List Exp)
  | bin (op : Op) (l r : Exp)
  | inc (x : String)
  | newArr (t : String) (n : Exp)
  deriving Repr

/-- `x := staticcall(...)` and `switch x case 0 { invalid() }` are the two statements in assembly. `splice` stands for the loop of a tag. -/
inductive Stmt where
  | decl (t : TyExp) (x : String) (init : Option Exp)
  | assign (lhs : List Exp) (rhs : Exp)
  | assignOp (op : Op) (x : String) (e : Exp)
  | exp (e : Exp)
  | loop (init : Stmt) (cond : Exp) (step : Stmt) (body : List Stmt)
  | ite (c : Exp) (t e : List Stmt)
  | brk
  | ret (es : List Exp)
  | staticcall (x : String) (args : List Exp)
  | invalidIfZero (x : String)
  | splice (x : String)
  deriving Repr

structure Fn where
  name : String
  params : List (TyExp × String)
  rets : List (TyExp × Option String)
  body : List Stmt
  deriving Repr

inductive Item where
  | fn (f : Fn)
  | const (x : String) (n : ℕ)
  | struct (x : String) (fields : List (TyExp × String))
  deriving Repr

/-! ### Parser -/

def pSize : List Tok → Option (Size × List Tok)
  | .num n :: ts => some (.num n, ts)
  | .sym '{' :: .sym '{' :: .id x :: .sym '}' :: .sym '}' :: ts => some (.hole (.ofList x) 0, ts)
  | .sym '{' :: .sym '{' :: .id x :: .sym '+' :: .num n :: .sym '}' :: .sym '}' :: ts => some (.hole (.ofList x) n, ts)
  | _ => none

def pType : List Tok → Option (TyExp × List Tok)
  | .id t :: .sym '[' :: .sym ']' :: ts => some (.dyn (.ofList t), ts)
  | .id t :: .sym '[' :: ts =>
    match pSize ts with
    | some (n, .sym ']' :: ts) => some (.arr (.ofList t) n, ts)
    | _ => none
  | .id t :: ts => some (.plain (.ofList t), ts)
  | _ => none

/-- A type and a location, where the location is optional. -/
def pLocated (ts : List Tok) : Option (TyExp × List Tok) :=
  match pType ts with
  | some (t, .kw .memory :: ts) => some (t, ts)
  | some (t, .kw .calldata :: ts) => some (t, ts)
  | r => r

/-- A binary operator and how strongly it binds. -/
def pOp : List Tok → Option (Op × ℕ × List Tok)
  | .sym '*' :: ts => some (.mul, 8, ts)
  | .sym '%' :: ts => some (.mod, 8, ts)
  | .sym '+' :: .sym '+' :: _ => none
  | .sym '+' :: .sym '=' :: _ => none
  | .sym '+' :: ts => some (.add, 7, ts)
  | .sym '-' :: ts => some (.sub, 7, ts)
  | .sym '<' :: .sym '<' :: ts => some (.shl, 6, ts)
  | .sym '>' :: .sym '>' :: .sym '=' :: _ => none
  | .sym '>' :: .sym '>' :: ts => some (.shr, 6, ts)
  | .sym '&' :: ts => some (.and, 5, ts)
  | .sym '|' :: ts => some (.or, 4, ts)
  | .sym '<' :: ts => some (.lt, 3, ts)
  | .sym '!' :: .sym '=' :: ts => some (.ne, 2, ts)
  | .sym '=' :: .sym '=' :: ts => some (.eq, 2, ts)
  | _ => none

mutual

def pExp : ℕ → ℕ → List Tok → Option (Exp × List Tok)
  | 0, _, _ => none
  | n + 1, p, ts =>
    match pAtom n ts with
    | some (a, ts) => pRest n p a ts
    | none => none

/-- Operators that bind at least as strongly as `p`, from left to right. -/
def pRest : ℕ → ℕ → Exp → List Tok → Option (Exp × List Tok)
  | 0, _, _, _ => none
  | n + 1, p, a, ts =>
    match pOp ts with
    | some (op, q, ts') =>
      if p ≤ q then
        match pExp n (q + 1) ts' with
        | some (b, ts) => pRest n p (.bin op a b) ts
        | none => none
      else some (a, ts)
    | none => some (a, ts)

def pAtom : ℕ → List Tok → Option (Exp × List Tok)
  | 0, _ => none
  | n + 1, ts =>
    match ts with
    | .num k :: ts => some (.num k, ts)
    | .sym '{' :: .sym '{' :: .id x :: .sym '}' :: .sym '}' :: ts => some (.hole (.ofList x), ts)
    | .sym '(' :: ts =>
      match pExp n 0 ts with
      | some (a, .sym ')' :: ts) => pPost n a ts
      | _ => none
    | .kw .new_ :: .id t :: .sym '[' :: .sym ']' :: .sym '(' :: ts =>
      match pExp n 0 ts with
      | some (a, .sym ')' :: ts) => some (.newArr (.ofList t) a, ts)
      | _ => none
    | .id f :: .sym '(' :: ts =>
      match pArgs n ts with
      | some (as, ts) => pPost n (.call (.ofList f) as) ts
      | none => none
    | .id x :: .sym '+' :: .sym '+' :: ts => some (.inc (.ofList x), ts)
    | .id x :: ts => pPost n (.var (.ofList x)) ts
    | _ => none

/-- Indices and fields. -/
def pPost : ℕ → Exp → List Tok → Option (Exp × List Tok)
  | 0, _, _ => none
  | n + 1, a, ts =>
    match ts with
    | .sym '[' :: ts =>
      match pExp n 0 ts with
      | some (i, .sym ']' :: ts) => pPost n (.index a i) ts
      | _ => none
    | .sym '.' :: .id x :: ts => pPost n (.field a (.ofList x)) ts
    | ts => some (a, ts)

/-- Arguments up to the closing parenthesis. -/
def pArgs : ℕ → List Tok → Option (List Exp × List Tok)
  | 0, _ => none
  | _ + 1, .sym ')' :: ts => some ([], ts)
  | n + 1, ts =>
    match pExp n 0 ts with
    | some (a, .sym ')' :: ts) => some ([a], ts)
    | some (a, .sym ',' :: ts) =>
      match pArgs n ts with
      | some (as, ts) => some (a :: as, ts)
      | none => none
    | _ => none

end

/-- `t x` or `t x = e`, without the semicolon. -/
def pDecl (n : ℕ) (ts : List Tok) : Option (Stmt × List Tok) :=
  match pLocated ts with
  | some (t, .id x :: .sym '=' :: ts) =>
    match pExp n 0 ts with
    | some (e, ts) => some (.decl t (.ofList x) (some e), ts)
    | none => none
  | some (t, .id x :: ts) => some (.decl t (.ofList x) none, ts)
  | _ => none

/-- Assignments and expressions, without the semicolon. -/
def pSimple (n : ℕ) (ts : List Tok) : Option (Stmt × List Tok) :=
  match pExp n 0 ts with
  | some (.var x, .sym '+' :: .sym '=' :: ts) =>
    match pExp n 0 ts with
    | some (e, ts) => some (.assignOp .add x e, ts)
    | none => none
  | some (.var x, .sym '>' :: .sym '>' :: .sym '=' :: ts) =>
    match pExp n 0 ts with
    | some (e, ts) => some (.assignOp .shr x e, ts)
    | none => none
  | some (l, .sym '=' :: ts) =>
    match pExp n 0 ts with
    | some (e, ts) => some (.assign [l] e, ts)
    | none => none
  | some (e, ts) => some (.exp e, ts)
  | none => none

/-- `(a, ...) = e;` -/
def pTuple (n : ℕ) : List Tok → Option (Stmt × List Tok)
  | .sym '(' :: ts =>
    match pArgs n ts with
    | some (ls, .sym '=' :: ts) =>
      match pExp n 0 ts with
      | some (e, .sym ';' :: ts) => some (.assign ls e, ts)
      | _ => none
    | _ => none
  | _ => none

/-- `{% for statement in x %} {{statement}} {%- endfor %}` -/
def pSplice : List Tok → Option (Stmt × List Tok)
  | .sym '{' :: .sym '%' :: .kw .for_ :: .id s :: .id _ :: .id x :: .sym '%' :: .sym '}' :: .sym '{' :: .sym '{' :: .id s' :: .sym '}' ::
      .sym '}' :: .sym '{' :: .sym '%' :: .sym '-' :: .id _ :: .sym '%' :: .sym '}' :: ts => if s = s' then some (.splice (.ofList x), ts) else none
  | _ => none

/-- The statements of an assembly block up to the closing brace. -/
def pAsm : ℕ → List Tok → Option (List Stmt × List Tok)
  | 0, _ => none
  | _ + 1, .sym '}' :: ts => some ([], ts)
  | n + 1, .id x :: .sym ':' :: .sym '=' :: .id f :: .sym '(' :: ts =>
    if f = chars!"staticcall" then
      match pArgs n ts with
      | some (as, ts) =>
        match pAsm n ts with
        | some (cs, ts) => some (.staticcall (.ofList x) as :: cs, ts)
        | none => none
      | none => none
    else none
  | n + 1, .kw .switch :: .id x :: .kw .case :: .num 0 :: .sym '{' :: .id f :: .sym '(' :: .sym ')' :: .sym '}' :: ts =>
    if f = chars!"invalid" then
      match pAsm n ts with
      | some (cs, ts) => some (.invalidIfZero (.ofList x) :: cs, ts)
      | none => none
    else none
  | _ + 1, _ => none

mutual

/-- A statement; assembly is several. -/
def pStmt : ℕ → List Tok → Option (List Stmt × List Tok)
  | 0, _ => none
  | n + 1, .kw .for_ :: .sym '(' :: ts =>
    match pDecl n ts with
    | some (init, .sym ';' :: ts) =>
      match pExp n 0 ts with
      | some (c, .sym ';' :: ts) =>
        match pSimple n ts with
        | some (step, .sym ')' :: .sym '{' :: ts) =>
          match pBody n ts with
          | some (body, ts) => some ([.loop init c step body], ts)
          | none => none
        | _ => none
      | _ => none
    | _ => none
  | n + 1, .kw .if_ :: .sym '(' :: ts =>
    match pExp n 0 ts with
    | some (c, .sym ')' :: .sym '{' :: ts) =>
      match pBody n ts with
      | some (t, .kw .else_ :: .sym '{' :: ts) =>
        match pBody n ts with
        | some (e, ts) => some ([.ite c t e], ts)
        | none => none
      | _ => none
    | _ => none
  | _ + 1, .kw .break_ :: .sym ';' :: ts => some ([.brk], ts)
  | n + 1, .kw .assembly :: .sym '{' :: ts => pAsm n ts
  | n + 1, .kw .return_ :: ts =>
    match pExp n 0 ts with
    | some (e, .sym ';' :: ts) => some ([.ret [e]], ts)
    | _ =>
      match ts with
      | .sym '(' :: ts =>
        match pArgs n ts with
        | some (es, .sym ';' :: ts) => some ([.ret es], ts)
        | _ => none
      | _ => none
  | n + 1, ts =>
    match pSplice ts with
    | some (c, ts) => some ([c], ts)
    | none =>
      match pDecl n ts with
      | some (c, .sym ';' :: ts) => some ([c], ts)
      | _ =>
        match pSimple n ts with
        | some (c, .sym ';' :: ts) => some ([c], ts)
        | _ =>
          match pTuple n ts with
          | some (c, ts) => some ([c], ts)
          | none => none

/-- Statements up to the closing brace. -/
def pBody : ℕ → List Tok → Option (List Stmt × List Tok)
  | 0, _ => none
  | n + 1, ts =>
    match ts with
    | .sym '}' :: ts => some ([], ts)
    | ts =>
      match pStmt n ts with
      | some (c, ts) =>
        match pBody n ts with
        | some (cs, ts) => some (c ++ cs, ts)
        | none => none
      | none => none

end

/-- Parameters up to the closing parenthesis. -/
def pParams : ℕ → List Tok → Option (List (TyExp × String) × List Tok)
  | 0, _ => none
  | _ + 1, .sym ')' :: ts => some ([], ts)
  | n + 1, ts =>
    match pLocated ts with
    | some (t, .id x :: .sym ')' :: ts) => some ([(t, .ofList x)], ts)
    | some (t, .id x :: .sym ',' :: ts) =>
      match pParams n ts with
      | some (ps, ts) => some ((t, .ofList x) :: ps, ts)
      | none => none
    | _ => none

/-- The types of the results, some with names. -/
def pRets : ℕ → List Tok → Option (List (TyExp × Option String) × List Tok)
  | 0, _ => none
  | n + 1, ts =>
    match pLocated ts with
    | some (t, .id x :: .sym ')' :: ts) => some ([(t, some (.ofList x))], ts)
    | some (t, .sym ')' :: ts) => some ([(t, none)], ts)
    | some (t, .sym ',' :: ts) =>
      match pRets n ts with
      | some (ps, ts) => some ((t, none) :: ps, ts)
      | none => none
    | _ => none

/-- Visibility and mutability. -/
def skipIds : List Tok → List Tok
  | .id _ :: ts => skipIds ts
  | ts => ts

/-- Fields of a structure up to the closing brace. -/
def pFields : ℕ → List Tok → Option (List (TyExp × String) × List Tok)
  | 0, _ => none
  | _ + 1, .sym '}' :: ts => some ([], ts)
  | n + 1, ts =>
    match pType ts with
    | some (t, .id x :: .sym ';' :: ts) =>
      match pFields n ts with
      | some (fs, ts) => some ((t, .ofList x) :: fs, ts)
      | none => none
    | _ => none

/-- What follows the parameters of a function. -/
def pFn (n : ℕ) (f : List Char) (ps : List (TyExp × String)) (ts : List Tok) : Option (Fn × List Tok) :=
  match skipIds ts with
  | .kw .returns :: .sym '(' :: ts =>
    match pRets n ts with
    | some (rs, .sym '{' :: ts) =>
      match pBody n ts with
      | some (b, ts) => some (⟨.ofList f, ps, rs, b⟩, ts)
      | none => none
    | _ => none
  | .sym '{' :: ts =>
    match pBody n ts with
    | some (b, ts) => some (⟨.ofList f, ps, [], b⟩, ts)
    | none => none
  | _ => none

def pItem (n : ℕ) : List Tok → Option (Item × List Tok)
  | .kw .function :: .id f :: .sym '(' :: ts =>
    match pParams n ts with
    | some (ps, ts) =>
      match pFn n f ps ts with
      | some (f, ts) => some (.fn f, ts)
      | none => none
    | none => none
  | .id _ :: .kw .constant :: .id x :: .sym '=' :: .num k :: .sym ';' :: ts => some (.const (.ofList x) k, ts)
  | .kw .struct :: .id x :: .sym '{' :: ts =>
    match pFields n ts with
    | some (fs, ts) => some (.struct (.ofList x) fs, ts)
    | none => none
  | _ => none

/-- The syntax tree of the text of one item. -/
def parseItem (t : List Char) : Option Item :=
  match pItem 200 (lex t) with
  | some (i, []) => some i
  | _ => none

end Verif.Sol.Template
