import Verif.Sol.Syntax
import Mathlib.Data.Finset.Max

/-!
# Live intervals, the memory pool, fusing of products and sums, and register allocation

Sources: `halo2-snark-aggregator-solidity/src/code_generator/linear_scan/`: `live_interval.rs`, `memory_pool.rs`, `optimize.rs` and
`mod.rs`. `none` is a panic of the generator. `BTreeSet` is a `Finset`. `active` is a `HashSet`, whose order is not fixed: it is a list
here, and the order in which `expire_old_intervals` sees it is given by a parameter `ord`.
-/

namespace Verif.Sol

/-! ### Memory pool: memory_pool.rs -/

/-- memory_pool.rs:6-9. -/
structure Block where
  pos : ℕ
  t : Ty
  deriving DecidableEq

/-- memory_pool.rs:11-17. -/
structure Pool where
  free256 : Finset ℕ
  free512 : Finset ℕ
  capability : ℕ

namespace Pool

/-- memory_pool.rs:19-27. -/
def empty : Pool := ⟨∅, ∅, 0⟩

/-- `iter().next()`. -/
def first (s : Finset ℕ) : Option ℕ := if h : s.Nonempty then some (s.min' h) else none

/-- memory_pool.rs:30-39. -/
def allocScalar (p : Pool) : Option (Block × Pool) := do
  let pos ← first p.free256
  return (⟨pos, .scalar⟩, { p with free256 := p.free256.erase pos, free512 := p.free512.erase (pos - pos % 2) })

/-- memory_pool.rs:41-51. -/
def allocPoint (p : Pool) : Option (Block × Pool) := do
  let pos ← first p.free512
  return (⟨pos, .point⟩, { p with free256 := (p.free256.erase pos).erase (pos + 1), free512 := p.free512.erase pos })

/-- memory_pool.rs:53-70. -/
def free (p : Pool) (b : Block) : Pool :=
  match b.t with
  | .scalar =>
    let f := insert b.pos p.free256
    let base := b.pos - b.pos % 2
    { p with free256 := f, free512 := if base ∈ f ∧ base + 1 ∈ f then insert base p.free512 else p.free512 }
  | .point => { p with free256 := insert (b.pos + 1) (insert b.pos p.free256), free512 := insert b.pos p.free512 }

/-- memory_pool.rs:72-79. -/
def expand (p : Pool) : Pool :=
  { free256 := insert (p.capability + 1) (insert p.capability p.free256)
    free512 := insert p.capability p.free512
    capability := p.capability + 2 }

end Pool

/-! ### Live intervals: live_interval.rs -/

/-- live_interval.rs:6-13. `value` is never read. -/
structure Interval where
  expr : ℕ
  t : Ty
  block : Option Block
  start : ℕ
  finish : ℕ
  deriving DecidableEq

/-- The intervals so far and `lookup`, newest entry first. -/
structure Live where
  intervals : List Interval
  lookup : List (Expr × ℕ)

/-- `lookup.get`. -/
def Live.get (v : Live) (e : Expr) : Option ℕ := (v.lookup.find? fun x => x.1 = e).map (·.2)

/-- `intervals[k].end = at`. -/
def Live.setEnd (v : Live) (k «at» : ℕ) : Live := { v with intervals := v.intervals.modify k fun i => { i with finish := «at» } }

/-- live_interval.rs:45-50, 53-58 and 64-69. -/
def Live.touch (v : Live) («at» : ℕ) (e : Expr) : Live :=
  match v.get e with
  | some k => v.setEnd k «at»
  | none => v

def Live.touchAll (v : Live) («at» : ℕ) (l : List Expr) : Live := l.foldl (fun v e => v.touch «at» e) v

/-- live_interval.rs:26-61. -/
def Live.step (v : Live) (current : ℕ) : Stmt → Option Live
  | .assign (.memory o t) r =>
    let v : Live := ⟨v.intervals ++ [⟨o, t, none, current, current⟩], (.memory o t, v.intervals.length) :: v.lookup⟩
    some (v.touchAll current r.leaves)
  | .updateHash e _ => some (v.touchAll current e.leaves)
  | _ => none

def Live.steps (v : Live) (current : ℕ) : List Stmt → Option Live
  | [] => some v
  | c :: cs => do (← v.step current c).steps (current + 1) cs

/-- live_interval.rs:15-73. -/
def buildIntervals (stmts : List Stmt) (finals : List Expr) : Option Live := do
  let v ← Live.steps ⟨[], []⟩ 0 stmts
  return v.touchAll (stmts.length + 1) (finals.flatMap Expr.leaves)

/-! ### Fusing products and sums: optimize.rs -/

/-- optimize.rs:82-119. -/
def Stmt.combineMulAdd : Stmt → Stmt → Option Stmt
  | .assign assignee (.mul l r t), .assign l' (.add a b t') =>
    if a = assignee ∧ t = t' then some (.assign l' (.mulAdd r l b t))
    else if b = assignee ∧ t = t' then some (.assign l' (.mulAdd r l a t))
    else none
  | _, _ => none

/-- optimize.rs:61-73. `none` is a panic. -/
def Stmt.able (v : Live) (index : ℕ) : Stmt → Option Bool
  | .assign l _ => do
    let k ← v.get l
    let i ← v.intervals[k]?
    return i.finish = index + 1
  | _ => some false

/-- optimize.rs:21-57, with the candidate. -/
def combineGo (v : Live) : ℕ → Option Stmt → List Stmt → Option (List Stmt)
  | _, none, [] => some []
  | _, some c, [] => some [c]
  | i, none, s :: ss => do
    if ← s.able v i then combineGo v (i + 1) (some s) ss
    else return s :: (← combineGo v (i + 1) none ss)
  | i, some c, s :: ss => do
    let able ← s.able v i
    match c.combineMulAdd s with
    | some s' => return s' :: (← combineGo v (i + 1) none ss)
    | none =>
      if able then return c :: (← combineGo v (i + 1) (some s) ss)
      else return c :: s :: (← combineGo v (i + 1) none ss)

/-- optimize.rs:5-59. -/
def combineMulAdd (v : Live) (stmts : List Stmt) : Option (List Stmt) := combineGo v 0 none stmts

/-! ### Register allocation: mod.rs -/

/-- The state of the loop: mod.rs:13-21. -/
structure Scan where
  active : List Interval
  pool : Pool
  stmts : List Stmt
  finals : List Expr

/-- mod.rs:65-74. -/
def expire (ord : List Interval → List Interval) (start : ℕ) (active : List Interval) (pool : Pool) : Option (List Interval × Pool) := do
  let done := (ord active).filter fun j => j.finish ≤ start
  let pool ← done.foldlM (fun p j => j.block.map p.free) pool
  return (active.filter fun j => ¬ j.finish ≤ start, pool)

/-- mod.rs:24-43. -/
def choose (i : Interval) (pool : Pool) : Option (Block × Pool) :=
  if i.finish = i.start + 1 then some (⟨Expr.deadbeaf, .scalar⟩, pool)
  else
    match i.t with
    | .scalar => (if pool.free256 = ∅ then pool.expand else pool).allocScalar
    | .point => (if pool.free512 = ∅ then pool.expand else pool).allocPoint

/-- mod.rs:45-46. -/
def rename (o pos : ℕ) : ℕ → Option ℕ := fun x => if x = o then some pos else none

/-- mod.rs:48-50. -/
def substFrom (lookup : ℕ → Option ℕ) (start : ℕ) (stmts : List Stmt) : Option (List Stmt) := do
  return stmts.take start ++ (← (stmts.drop start).mapM (Stmt.substitute lookup))

/-- mod.rs:21-60. -/
def scanStep (ord : List Interval → List Interval) (s : Scan) (i : Interval) : Option Scan := do
  let (active, pool) ← expire ord i.start s.active s.pool
  let (block, pool) ← choose i pool
  let stmts ← substFrom (rename i.expr block.pos) i.start s.stmts
  let finals := s.finals.map (Expr.substitute (rename i.expr block.pos))
  let active := if block.pos ≠ Expr.deadbeaf then { i with block := some block } :: active else active
  return ⟨active, pool, stmts, finals⟩

/-- mod.rs:13-63. -/
def linearScan (ord : List Interval → List Interval) (intervals : List Interval) (stmts : List Stmt) (finals : List Expr) : Option Scan :=
  intervals.foldlM (scanStep ord) ⟨[], Pool.empty, stmts, finals⟩

/-- mod.rs:76-91. -/
def memoryOptimize (ord : List Interval → List Interval) (p : Prog) : Option Prog := do
  let v ← buildIntervals p.stmts p.finals
  let stmts ← combineMulAdd v p.stmts
  let v ← buildIntervals stmts p.finals
  let s ← linearScan ord v.intervals stmts p.finals
  return ⟨s.stmts, s.finals, s.pool.capability, p.absorbingLength⟩

end Verif.Sol
