import Verif.Sol.CombineProps

/-!
# The passes that merge runs of statements

Sources: `halo2-snark-aggregator-solidity/src/code_generator/aggregate.rs` and `aggregate/*.rs`. `none` is a panic. Arithmetic on `usize`
either panics on overflow (`checks = true`, as in debug builds) or wraps (`checks = false`, as in release builds). Samples are left out.
-/

namespace Verif.Sol

/-- The result of an operation on `usize`. -/
def usize (checks : Bool) (n : ℤ) : Option ℕ :=
  if 0 ≤ n ∧ n < 2 ^ 64 then some n.toNat else if checks then none else some (n % 2 ^ 64).toNat

/-! ### The driver -/

/-- What `try_merge` returns, with the new state: aggregate.rs:22-32. -/
inductive Action (σ : Type) where
  | proceed (s : σ)
  | abort
  | complete

/-- aggregate.rs:34-41. `start` is `none` for `Skip`; it makes a new state, so `reset` is not needed. -/
structure Optimizer (σ : Type) where
  start : Stmt → Option σ
  merge : σ → Stmt → Option (Action σ)
  toStatement : σ → Stmt
  unresolved : σ → Option (List Stmt)
  canComplete : σ → Bool

/-- The loop of `aggregate` for one optimizer: aggregate.rs:82-131. `some s` is `Active`, `none` is `Disabled`; `Terminated` processes the
same statement again as `Disabled`. -/
def drive {σ : Type} (O : Optimizer σ) : Option σ → List Stmt → Option (List Stmt)
  | none, [] => some []
  | some s, [] => if O.canComplete s then some [O.toStatement s] else O.unresolved s
  | none, c :: cs =>
    match O.start c with
    | some s => drive O (some s) cs
    | none => do return c :: (← drive O none cs)
  | some s, c :: cs => do
    match ← O.merge s c with
    | .proceed s => drive O (some s) cs
    | .abort =>
      let u ← O.unresolved s
      match O.start c with
      | some s => return u ++ (← drive O (some s) cs)
      | none => return u ++ c :: (← drive O none cs)
    | .complete =>
      match O.start c with
      | some s' => return O.toStatement s :: (← drive O (some s') cs)
      | none => return O.toStatement s :: c :: (← drive O none cs)

/-! ### Transcript updates: update_hash.rs -/

/-- update_hash.rs:7-16. -/
structure HashRun where
  memStart : ℕ
  memEnd : ℕ
  absStart : ℕ
  absEnd : ℕ
  t : Ty

/-- update_hash.rs:41-42. -/
def HashRun.memStep (r : HashRun) : ℕ := if r.t = .scalar then 1 else 2
def HashRun.absStep (r : HashRun) : ℕ := if r.t = .scalar then 2 else 3

/-- update_hash.rs:33-107. -/
def hashMerger (checks : Bool) : Optimizer HashRun where
  start
    | .updateHash (.transcript o t) off => some ⟨o, o, off, off, t⟩
    | _ => none
  merge r
    | .updateHash (.transcript o t) off => do
      let d ← usize checks (o - r.memEnd)
      if d = r.memStep then
        let e ← usize checks (off - r.absEnd)
        if e = r.absStep ∧ t = r.t then return .proceed { r with memEnd := o, absEnd := off }
        else return .complete
      else return .complete
    | _ => some .complete
  toStatement r :=
    if r.memStart = r.memEnd then .updateHash (.transcript r.memStart .scalar) r.absStart
    else .loop r.memStart r.memEnd r.memStep r.absStart r.absStep r.t
  unresolved _ := none
  canComplete _ := true

/-! ### Runs of `t = proof[p] * m[m] + t`: multi_mul_add_pm.rs -/

/-- multi_mul_add_pm.rs:8-16. -/
structure PMRun where
  stmts : List Stmt
  target : Expr
  pairs : List (ℕ × ℕ)
  t : Ty

/-- multi_mul_add_pm.rs:36-58. -/
def extractPM : Stmt → Option (ℕ × ℕ × Expr × Ty)
  | .assign l (.mulAdd a b c t) =>
    if a.isTranscript ∧ b.isMemory ∧ c.isTemp ∧ l.isTemp then do return (← a.offset?, ← b.offset?, c, t)
    else none
  | _ => none

/-- multi_mul_add_pm.rs:97-108. -/
def packPM (pairs : List (ℕ × ℕ)) : ℕ :=
  pairs.reverse.foldl (fun acc x => acc * 2 ^ 16 + x.2 * 2 ^ 8 + x.1) (if pairs.length = 16 then 0 else 0xffff)

/-- multi_mul_add_pm.rs:60-132. -/
def pmMerger : Optimizer PMRun where
  start c := (extractPM c).map fun x => ⟨[c], x.2.2.1, [(x.1, x.2.1)], x.2.2.2⟩
  merge r c :=
    if r.pairs.length = 16 then some .complete
    else
      match extractPM c with
      | some (p, m, target, t) =>
        if target = r.target ∧ t = r.t then some (.proceed { r with stmts := r.stmts ++ [c], pairs := r.pairs ++ [(p, m)] })
        else some .abort
      | none => if 1 < r.pairs.length then some .complete else some .abort
  toStatement r := .assign (.temp r.t) (.mulAddPM r.target (packPM r.pairs) r.t)
  unresolved r := some r.stmts
  canComplete r := 1 < r.pairs.length

/-! ### Runs of `t = m[a] * t + m[c]`: multi_mul_add_mt.rs -/

/-- multi_mul_add_mt.rs:8-15. -/
structure MTRun where
  stmts : List Stmt
  target : ℕ
  offsets : List ℕ

/-- multi_mul_add_mt.rs:36-54. -/
def extractMT : Stmt → Option (ℕ × ℕ)
  | .assign l (.mulAdd a b c .scalar) =>
    if a.isMemory ∧ b.isTemp ∧ c.isMemory ∧ l.isTemp then do return (← a.offset?, ← c.offset?)
    else none
  | _ => none

/-- multi_mul_add_mt.rs:91-102. -/
def packMT (offsets : List ℕ) : ℕ :=
  offsets.reverse.foldl (fun acc m => acc * 2 ^ 8 + m) (if offsets.length = 32 then 0 else 0xff)

/-- multi_mul_add_mt.rs:56-121. -/
def mtMerger : Optimizer MTRun where
  start c := (extractMT c).map fun x => ⟨[c], x.1, [x.2]⟩
  merge r c :=
    if r.offsets.length = 32 then some .complete
    else
      match extractMT c with
      | some (a, m) =>
        if a = r.target then some (.proceed { r with stmts := r.stmts ++ [c], offsets := r.offsets ++ [m] })
        else some .abort
      | none => if 1 < r.offsets.length then some .complete else some .abort
  toStatement r := .assign (.temp .scalar) (.mulAddMT r.target (packMT r.offsets))
  unresolved r := some r.stmts
  canComplete r := 1 < r.offsets.length

/-! ### Powers: aggregate_fr_pow.rs -/

/-- aggregate_fr_pow.rs:6-12. -/
structure PowRun where
  stmts : List Stmt
  target : Expr
  assignee : Option Expr
  exp : ℕ

/-- aggregate_fr_pow.rs:32-44. -/
def extractMul : Stmt → Option (Expr × Expr × Expr)
  | .assign l (.mul a b .scalar) => some (l, a, b)
  | _ => none

/-- aggregate_fr_pow.rs:46-120. -/
def powMerger (checks : Bool) : Optimizer PowRun where
  start c :=
    match extractMul c with
    | some (l, a, b) => if l.isTemp ∧ a = b then some ⟨[c], a, none, 2⟩ else none
    | none => none
  merge r c :=
    if r.assignee.isSome then some .complete
    else
      match extractMul c with
      | some (l, a, b) =>
        if a.isTemp ∧ b.isTemp then do
          return .proceed { r with exp := ← usize checks (r.exp * 2), assignee := if l.isTemp then none else some l }
        else if (a.isTemp ∧ b = r.target) ∨ (b.isTemp ∧ a = r.target) then do
          return .proceed { r with exp := ← usize checks (r.exp + 1), assignee := if l.isTemp then none else some l }
        else some .abort
      | none => if 2 < r.exp then some .complete else some .abort
  toStatement r := .assign (r.assignee.getD (.temp .scalar)) (.pow r.target r.exp .scalar)
  unresolved r := some r.stmts
  canComplete r := 2 < r.exp

/-! ### Runs of products: aggregate_mul_seq.rs -/

/-- aggregate_mul_seq.rs:5-14. The three steps are set together. -/
structure SeqRun where
  stmts : List Stmt
  step : Option (ℕ × ℕ × ℕ)
  start : ℕ × ℕ × ℕ
  n : ℕ

/-- aggregate_mul_seq.rs:36-56. -/
def extractMMM : Stmt → Option (ℕ × ℕ × ℕ)
  | .assign l (.mul a b .scalar) =>
    if a.isMemory ∧ b.isMemory ∧ l.isMemory then do return (← l.offset?, ← a.offset?, ← b.offset?)
    else none
  | _ => none

/-- aggregate_mul_seq.rs:85-88, one of the three tests. -/
def onCourse (checks : Bool) (o start n step : ℕ) : Option Bool := do
  return (← usize checks (o - start)) = (← usize checks (n * step))

/-- aggregate_mul_seq.rs:58-134. -/
def seqMerger (checks : Bool) : Optimizer SeqRun where
  start c := (extractMMM c).map fun x => ⟨[c], none, x, 1⟩
  merge r c := do
    let over : Action SeqRun := if 4 < r.n then .complete else .abort
    match extractMMM c with
    | some (l, a, b) =>
      match r.step with
      | none =>
        let x ← usize checks (l - r.start.1)
        let y ← usize checks (a - r.start.2.1)
        let z ← usize checks (b - r.start.2.2)
        return .proceed { r with step := some (x, y, z), n := r.n + 1, stmts := r.stmts ++ [c] }
      | some step =>
        if ← onCourse checks l r.start.1 r.n step.1 then
          if ← onCourse checks a r.start.2.1 r.n step.2.1 then
            if ← onCourse checks b r.start.2.2 r.n step.2.2 then
              return .proceed { r with n := r.n + 1, stmts := r.stmts ++ [c] }
            else return over
          else return over
        else return over
    | none => return over
  toStatement r := .mulLoop r.start (r.step.getD (0, 0, 0)) r.n .scalar
  unresolved r := some r.stmts
  canComplete r := 4 < r.n

/-! ### All passes -/

/-- aggregate.rs:43-135. -/
def aggregate (checks : Bool) (p : Prog) : Option Prog := do
  let s ← drive (hashMerger checks) none p.stmts
  let s ← drive pmMerger none s
  let s ← drive mtMerger none s
  let s ← drive (powMerger checks) none s
  let s ← drive (seqMerger checks) none s
  return { p with stmts := s }

end Verif.Sol
