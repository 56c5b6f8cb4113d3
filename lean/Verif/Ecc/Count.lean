import Verif.Ecc.Shape
import Verif.Top.Expose

/-!
# How many rows the ECC chip takes

The number of rows that an operation takes depends only on the overflow counters of its arguments and on what is cached in them. The
functions here follow `Verif.Integer.Model` and `Verif.Ecc.Model` and count rows; `Takes` says that an operation that returns takes that many.
-/

namespace Verif.Circuit
open Verif.Ecc

/-! ### Counting -/

/-- A result with a number of rows. -/
def Cnt (α : Type) : Type := α × ℕ

instance : Monad Cnt where
  pure a := (a, 0)
  bind x f := ((f x.1).1, x.2 + (f x.1).2)

/-- `k` rows. -/
def tick (k : ℕ) : Cnt Unit := ((), k)

/-- What matters of an integer: its counter, and whether its native value is cached. -/
structure ISh where
  o : ℕ
  n : Bool
  deriving DecidableEq

/-- What matters of a point. -/
structure PSh where
  x : ISh
  y : ISh
  c : Option ISh
  deriving DecidableEq

namespace Count

def native (a : ISh) : Cnt ISh := do
  tick (if a.n then 0 else 1)
  return ⟨a.o, true⟩

def reduce (a : ISh) : Cnt ISh :=
  if a.o = 0 then pure a
  else do
    tick 4
    tick 1
    let r ← native ⟨0, false⟩
    let _ ← native a
    tick 2
    return r

def conditionallyReduce (a : ISh) : Cnt ISh := if a.o ≥ overflowThreshold then reduce a else pure a

def iadd (a b : ISh) : Cnt ISh := do
  tick 4
  conditionallyReduce ⟨a.o + b.o + 1, false⟩

def isub (a b : ISh) : Cnt ISh := do
  tick 4
  conditionallyReduce ⟨a.o + (b.o + 1) + 1, false⟩

def ineg (a : ISh) : Cnt ISh := do
  tick 4
  conditionallyReduce ⟨a.o + 1, false⟩

def mulEqNative (a b rem : ISh) : Cnt (ISh × ISh × ISh) := do
  let a ← native a
  let b ← native b
  tick 1
  let rem ← native rem
  tick 1
  return (a, b, rem)

def imul (a b : ISh) : Cnt (ISh × ISh × ISh) := do
  tick 4
  tick 4
  tick 18
  let r ← mulEqNative a b ⟨0, false⟩
  return (r.2.2, r.1, r.2.1)

def isquare (a : ISh) : Cnt (ISh × ISh) := do
  tick 4
  tick 4
  tick 18
  let a ← native a
  tick 1
  let rem ← native ⟨0, false⟩
  tick 1
  return (rem, a)

def iisZero (a : ISh) : Cnt ISh := do
  let a ← reduce a
  tick 3
  let a ← native a
  tick 7
  tick 1
  return a

/-- The quotient and the updated arguments. -/
def idiv (a b : ISh) : Cnt (ISh × ISh × ISh) := do
  let b ← iisZero b
  tick 1
  let a ← reduce a
  tick 4
  tick 4
  tick 4
  tick 18
  let r ← mulEqNative b ⟨0, false⟩ ⟨a.o, false⟩
  return (r.2.1, a, r.1)

def imulSmallConstant (a : ISh) (b : ℕ) : Cnt (ISh × ISh) := do
  let a ← (if a.o * b ≥ overflowLimit then reduce a else pure a)
  tick 4
  let r ← conditionallyReduce ⟨a.o * b, false⟩
  return (r, a)

def ibisec (a b : ISh) : Cnt ISh := do
  tick 4
  return ⟨if a.o > b.o then a.o else b.o, false⟩

def iisEqual (a b : ISh) : Cnt Unit := do
  let d ← isub a b
  let _ ← iisZero d
  return ()

def curvature (a : PSh) : Cnt (ISh × PSh) :=
  match a.c with
  | some c => pure (c, a)
  | none => do
    let x2 ← isquare a.x
    let num ← imulSmallConstant x2.1 3
    let den ← imulSmallConstant a.y 2
    let v ← idiv num.1 den.1
    return (v.1, ⟨x2.2, den.2, some v.1⟩)

def bisecCurv (a b : ISh) : Cnt ISh := do
  let v ← ibisec a b
  tick 1
  return v

def bisecPoint (a b : PSh) : Cnt PSh := do
  let x ← ibisec a.x b.x
  let y ← ibisec a.y b.y
  tick 1
  return ⟨x, y, none⟩

def bisecPointCurv (a b : PSh) : Cnt PSh := do
  let x ← ibisec a.x b.x
  let y ← ibisec a.y b.y
  tick 1
  let ca ← curvature a
  let cb ← curvature b
  let c ← bisecCurv ca.1 cb.1
  return ⟨x, y, some c⟩

def lambdaToPoint (l : ISh) (a b : PSh) : Cnt PSh := do
  let l2 ← isquare l
  let t ← isub l2.1 a.x
  let cx ← isub t b.x
  let t ← isub a.x cx
  let t ← imul t l2.2
  let cy ← isub t.1 a.y
  return ⟨cx, cy, none⟩

def pAdd (a b : PSh) : Cnt (PSh × PSh) := do
  let dx ← isub a.x b.x
  let dy ← isub a.y b.y
  let q ← idiv dy dx
  let _ ← iisZero q.2.1
  tick 1
  let c ← curvature a
  let l ← bisecCurv c.1 q.1
  let p ← lambdaToPoint l c.2 b
  let p ← bisecPoint b p
  let p ← bisecPoint c.2 p
  return (p, c.2)

def pDouble (a : PSh) : Cnt (PSh × PSh) := do
  let c ← curvature a
  let p ← lambdaToPoint c.1 c.2 c.2
  tick 1
  return (p, c.2)

def assignConstantPoint : Cnt PSh := do
  tick 9
  return ⟨⟨0, false⟩, ⟨0, false⟩, none⟩

def assignConstantPointCurv : Cnt PSh := do
  tick 14
  return ⟨⟨0, false⟩, ⟨0, false⟩, some ⟨0, false⟩⟩

/-- Four limbs. -/
def fresh : Cnt ISh := do
  tick 4
  return ⟨0, false⟩

def assignPoint : Cnt PSh := do
  let x ← fresh
  let y ← fresh
  tick 1
  let b ← fresh
  let y ← isquare y
  let x ← isquare x
  let x3 ← imul x.1 x.2
  let r ← iadd x3.1 b
  let _ ← iisEqual y.1 r
  tick 2
  return ⟨x3.2.2, y.2, none⟩

def assignIdentity : Cnt PSh := do
  tick 5
  return ⟨⟨0, false⟩, ⟨0, false⟩, some ⟨0, false⟩⟩

def pAssertEqual (a b : PSh) : Cnt Unit := do
  let _ ← iisEqual a.x b.x
  let _ ← iisEqual a.y b.y
  tick 6

def pNeg (a : PSh) : Cnt PSh := do
  let y ← ineg a.y
  return ⟨a.x, y, none⟩

def pSub (a b : PSh) : Cnt (PSh × PSh) := do
  let nb ← pNeg b
  pAdd a nb

def pReduce (a : PSh) : Cnt (PSh × PSh) := do
  let x ← reduce a.x
  let y ← reduce a.y
  let i ← assignIdentity
  let p ← bisecPoint i ⟨x, y, a.c⟩
  return (p, ⟨x, y, a.c⟩)

def buildCands (a : PSh) : ℕ → PSh → Cnt (List PSh)
  | 0, last => pure [last]
  | n + 1, last => do
    let r ← pAdd last a
    let rest ← buildCands a n r.1
    return r.2 :: rest

def buildCandsCurv (a : PSh) : ℕ → PSh → Cnt (List PSh)
  | 0, last => pure [last]
  | n + 1, last => do
    let r ← pAdd last a
    let c ← curvature r.1
    let rest ← buildCandsCurv a n c.2
    return r.2 :: rest

def pickPairs : List PSh → Cnt (List PSh)
  | a0 :: a1 :: rest => do
    let c ← bisecPointCurv a1 a0
    let cs ← pickPairs rest
    return c :: cs
  | _ => pure []

/-- `n` rounds. -/
def pick : ℕ → List PSh → Cnt PSh
  | 0, cs => pure (cs.headD ⟨⟨0, false⟩, ⟨0, false⟩, none⟩)
  | n + 1, cs => do
    let cs ← pickPairs cs
    pick n cs

def doubles : ℕ → PSh → Cnt PSh
  | 0, a => pure a
  | n + 1, a => do
    let p ← pDouble a
    doubles n p.1

def mulLoop (cands : List PSh) : ℕ → PSh → Cnt PSh
  | 0, acc => pure acc
  | n + 1, acc => do
    let acc ← doubles 4 acc
    let curr ← pick 4 cands
    let r ← pAdd curr acc
    mulLoop cands n r.1

/-- `64` windows of four bits. -/
def pMul (a : PSh) : Cnt PSh := do
  tick 320
  let i ← assignIdentity
  let rest ← buildCands a 14 a
  let acc ← pick 4 (i :: rest)
  mulLoop (i :: rest) 63 acc

def constSlot (i : PSh) : Cnt PSh := do
  let c01 ← assignConstantPointCurv
  let c10 ← assignConstantPointCurv
  let c11 ← assignConstantPointCurv
  let c0 ← bisecPointCurv c10 i
  let c1 ← bisecPointCurv c11 c01
  bisecPointCurv c1 c0

def constLoop (i : PSh) : ℕ → PSh → Cnt PSh
  | 0, acc => pure acc
  | n + 1, acc => do
    let slot ← constSlot i
    let r ← pAdd slot acc
    constLoop i n r.1

/-- `127` windows of two bits. -/
def constantMul : Cnt PSh := do
  tick 381
  let i ← assignConstantPointCurv
  let slot ← constSlot i
  constLoop i 126 slot

def exposePair (p q : PSh) : Cnt Unit := do
  let _ ← reduce p.x
  let _ ← reduce p.y
  let _ ← reduce q.x
  let _ ← reduce q.y
  tick 3
  tick 3
  tick 2
  tick 2

end Count

/-! ### What an operation takes -/

/-- If the computation returns, it has taken this number of rows, and its result is related to the one that was computed with it. -/
structure Takes {α β : Type} (x : M N α) (y : Cnt β) (R : α → β → Prop) : Prop where
  run : ∀ c a c', x c = some (a, c') → c'.offset = c.offset + y.2 ∧ R a y.1

structure SI (a : AInt) (s : ISh) : Prop where
  o : a.overflows = s.o
  n : a.native.isSome = s.n

def SC (a : ACurv) (s : ISh) : Prop := SI a.v s

structure SP (a : APt) (s : PSh) : Prop where
  x : SI a.x s.x
  y : SI a.y s.y
  c : Option.Rel SC a.curv s.c

/-- Cells carry no such information. -/
def Any {α β : Type} (_ : α) (_ : β) : Prop := True

section
variable {α β γ δ : Type}

theorem Takes.pure {a : α} {b : β} {R : α → β → Prop} (h : R a b) : Takes (Pure.pure a) (Pure.pure b) R :=
  ⟨fun _ _ _ h1 => by cases h1; exact ⟨rfl, h⟩⟩

theorem Takes.bind {x : M N α} {y : Cnt β} {f : α → M N γ} {g : β → Cnt δ} {R : α → β → Prop} {S : γ → δ → Prop} (h : Takes x y R)
    (hf : ∀ a, R a y.1 → Takes (f a) (g y.1) S) : Takes (x >>= f) (y >>= g) S := by
  constructor
  intro c a c' h1
  simp only [Bind.bind, StateT.bind, Option.bind_eq_some_iff, Prod.exists] at h1
  obtain ⟨b, c1, h1, h2⟩ := h1
  obtain ⟨e1, r1⟩ := h.run _ _ _ h1
  obtain ⟨e2, r2⟩ := (hf b r1).run _ _ _ h2
  exact ⟨by rw [e2, e1, Nat.add_assoc]; rfl, r2⟩

/-- A computation that writes no rows. -/
theorem Takes.skip {x : M N α} {f : α → M N γ} {y : Cnt δ} {S : γ → δ → Prop} (h : ∀ c a c', x c = some (a, c') → c' = c)
    (hf : ∀ a, Takes (f a) y S) : Takes (x >>= f) y S := by
  constructor
  intro c a c' h1
  simp only [Bind.bind, StateT.bind, Option.bind_eq_some_iff, Prod.exists] at h1
  obtain ⟨b, c1, h1, h2⟩ := h1
  obtain rfl := h _ _ _ h1
  exact (hf b).run _ _ _ h2

theorem Takes.assertM {p : Prop} [Decidable p] {f : Unit → M N γ} {y : Cnt δ} {S : γ → δ → Prop} (hf : ∀ a, Takes (f a) y S) :
    Takes (Circuit.assertM p >>= f) y S := Takes.skip (fun c a c' h => by
  unfold Circuit.assertM at h
  split at h
  · cases h
    rfl
  · cases h) hf

theorem Takes.unwrapM {o : Option α} {f : α → M N γ} {y : Cnt δ} {S : γ → δ → Prop} (hf : ∀ a, Takes (f a) y S) :
    Takes (Circuit.unwrapM o >>= f) y S := Takes.skip (fun c a c' h => by
  unfold Circuit.unwrapM at h
  cases o <;> cases h
  rfl) hf

theorem Takes.mono {x : M N α} {y : Cnt β} {R S : α → β → Prop} (h : Takes x y R) (hi : ∀ a, R a y.1 → S a y.1) : Takes x y S :=
  ⟨fun c a c' h1 => ⟨(h.run c a c' h1).1, hi _ (h.run c a c' h1).2⟩⟩

/-- The number of rows, and what else is known of the result. -/
theorem Takes.cast {x : M N α} {y y' : Cnt β} {R : α → β → Prop} (h : Takes x y R) (e : y = y') : Takes x y' R := e ▸ h

end

/-! ### The base gate -/

theorem Takes.oneLineSel (sel : Sel) (ps : List (Schema N × N)) (const : N) (mul : List N) (next : N) :
    Takes (oneLineSel sel ps const mul next) (tick 1) Any := by
  constructor
  intro c a c' h
  unfold Circuit.oneLineSel at h
  split at h
  · cases h
    exact ⟨rfl, trivial⟩
  · cases h

theorem Takes.oneLine (ps : List (Schema N × N)) (const : N) (mul : List N) (next : N) : Takes (oneLine ps const mul next) (tick 1) Any :=
  Takes.oneLineSel _ _ _ _ _

theorem Takes.oneLineAdd (ps : List (Schema N × N)) (const : N) : Takes (oneLineAdd ps const) (tick 1) Any := Takes.oneLine _ _ _ _

/-- Cells are picked from what a computation returns. -/
theorem Takes.then {α γ : Type} {x : M N α} {k : ℕ} {f : α → γ} (h : Takes x (tick k) Any) : Takes (x >>= fun a => Pure.pure (f a)) (tick k) Any :=
  (h.bind (g := fun _ => (Pure.pure () : Cnt Unit)) fun _ _ => Takes.pure trivial).cast rfl

/-- Rows one after the other. -/
theorem Takes.seq {α γ : Type} {x : M N α} {k l : ℕ} {f : α → M N γ} (h : Takes x (tick k) Any) (hf : ∀ a, Takes (f a) (tick l) Any) :
    Takes (x >>= f) (tick (k + l)) Any :=
  (h.bind (g := fun _ => tick l) fun a _ => hf a).cast rfl

theorem Takes.oneLineWithLastBase (ps : List (Schema N × N)) (last : Schema N × N) (const : N) (mul : List N) (next : N) :
    Takes (oneLineWithLastBase ps last const mul next) (tick 1) Any := Takes.assertM fun _ => Takes.oneLine _ _ _ _

/-- The rows of a sum. -/
def sumLoopRows (n : ℕ) : ℕ := if n > 3 then 1 + sumLoopRows (n - 4) else 1
termination_by n

def sumRows (n : ℕ) : ℕ := if n > 4 then 1 + sumLoopRows (n - 5) else 1

theorem Takes.sumLoop (acc : N) (l : List (AV N × N)) (k : N) : Takes (sumLoop acc l k) (tick (sumLoopRows l.length)) Any := by
  induction hn : l.length using Nat.strong_induction_on generalizing l acc with
  | _ n ih =>
    unfold Circuit.sumLoop sumLoopRows
    by_cases hgt : n > 3
    · rw [if_pos (by omega), if_pos hgt]
      refine Takes.seq (Takes.oneLineWithLastBase _ _ _ _ _) fun _ => ?_
      have := ih (l.drop 4).length (by simp only [List.length_drop]; omega) (acc + honestSum 0 (l.take 4)) (l.drop 4) rfl
      rwa [List.length_drop, hn] at this
    · rw [if_neg (by omega), if_neg hgt]
      exact Takes.then (Takes.oneLineWithLastBase _ _ _ _ _)

theorem Takes.sumWithConstant (l : List (AV N × N)) (k : N) : Takes (sumWithConstant l k) (tick (sumRows l.length)) Any := by
  unfold Circuit.sumWithConstant sumRows
  by_cases hgt : l.length > 4
  · rw [if_pos (by omega), if_pos hgt]
    refine Takes.seq (Takes.oneLine _ _ _ _) fun _ => ?_
    have := Takes.sumLoop (0 + honestSum 0 (l.take 5)) (l.drop 5) k
    rwa [List.length_drop] at this
  · rw [if_neg (by omega), if_neg hgt]
    exact Takes.then (Takes.oneLine _ _ _ _)

section Base
variable (a b c d : AV N) (k l : N)

theorem Takes.add : Takes (add a b) (tick 1) Any := Takes.sumWithConstant _ _
theorem Takes.sub : Takes (sub a b) (tick 1) Any := Takes.sumWithConstant _ _
theorem Takes.not : Takes (not a) (tick 1) Any := Takes.sumWithConstant _ _
theorem Takes.mul : Takes (mul a b) (tick 1) Any := Takes.then (Takes.oneLine _ _ _ _)
theorem Takes.and : Takes (and a b) (tick 1) Any := Takes.mul a b
theorem Takes.mulAddConstant : Takes (mulAddConstant a b k) (tick 1) Any := Takes.then (Takes.oneLine _ _ _ _)
theorem Takes.mulAdd : Takes (mulAdd a b c k) (tick 1) Any := Takes.then (Takes.oneLine _ _ _ _)
theorem Takes.mulAdd2 : Takes (mulAdd2 a b c k d l) (tick 1) Any := Takes.then (Takes.oneLine _ _ _ _)
theorem Takes.isZero : Takes (isZero a) (tick 2) Any :=
  Takes.then (k := 2) (Takes.seq (k := 1) (Takes.oneLine _ _ _ _) fun _ => Takes.then (Takes.oneLine _ _ _ _))
theorem Takes.divUnsafe : Takes (divUnsafe a b) (tick 1) Any := Takes.assertM fun _ => Takes.then (Takes.oneLine _ _ _ _)
theorem Takes.assignConstant : Takes (assignConstant k) (tick 1) Any := Takes.then (Takes.oneLineAdd _ _)
theorem Takes.assign : Takes (assign k) (tick 1) Any := Takes.then (Takes.oneLineAdd _ _)
theorem Takes.assertConstant : Takes (assertConstant a k) (tick 1) Any := Takes.then (Takes.oneLineAdd _ _)
theorem Takes.assertBit : Takes (assertBit a) (tick 1) Any := Takes.then (Takes.oneLine _ _ _ _)
theorem Takes.or : Takes (or a b) (tick 1) Any := Takes.then (Takes.oneLine _ _ _ _)
theorem Takes.xnor : Takes (xnor a b) (tick 1) Any := Takes.then (Takes.oneLine _ _ _ _)
theorem Takes.bisec : Takes (bisec a b c) (tick 1) Any := Takes.then (Takes.oneLine _ _ _ _)

theorem Takes.mulAddFold : ∀ (l : List (MulTerm N)) (acc : AV N), Takes (mulAddFold acc l) (tick l.length) Any
  | [], _ => (Takes.pure (b := ()) trivial).cast rfl
  | _ :: l, _ => (Takes.seq (Takes.mulAdd2 _ _ _ _ _ _) fun _ => Takes.mulAddFold l _).cast (by rw [Nat.add_comm]; rfl)

theorem Takes.mulAddWithNextLine (l : List (MulTerm N)) : Takes (mulAddWithNextLine l) (tick l.length) Any := by
  cases l with
  | nil => exact ⟨fun _ _ _ h => by cases h⟩
  | cons t l => exact (Takes.seq (Takes.mulAdd _ _ _ _) fun _ => Takes.mulAddFold l _).cast (by rw [Nat.add_comm]; rfl)

end Base

/-! ### Integers -/

theorem Takes.assignNonleadingLimb (n : N) : Takes (assignNonleadingLimb n) (tick 1) Any := Takes.then (Takes.oneLineSel _ _ _ _ _)

theorem Takes.assignNFloorLeadingLimb (n : N) : Takes (assignNFloorLeadingLimb n) (tick 1) Any := by
  unfold Circuit.assignNFloorLeadingLimb
  dsimp only
  split
  · exact Takes.assignNonleadingLimb _
  · exact Takes.assertM fun _ => Takes.then (Takes.oneLineSel _ _ _ _ _)

theorem Takes.assignWCeilLeadingLimb (n : N) : Takes (assignWCeilLeadingLimb n) (tick 1) Any := by
  unfold Circuit.assignWCeilLeadingLimb
  dsimp only
  split
  · exact Takes.assignNonleadingLimb _
  · exact Takes.assertM fun _ => Takes.then (Takes.oneLineSel _ _ _ _ _)

theorem Takes.assignDLeadingLimb (n : N) : Takes (assignDLeadingLimb n) (tick 1) Any := by
  unfold Circuit.assignDLeadingLimb
  dsimp only
  generalize dBits % limbWidth = k
  split
  · exact Takes.assignNonleadingLimb _
  · exact Takes.then (Takes.oneLineSel _ _ _ _ _)

/-- Rows before other rows. -/
theorem Takes.rows {α γ δ : Type} {x : M N α} {f : α → M N γ} {j k : ℕ} {y : Cnt δ} {S : γ → δ → Prop} (h : Takes x (tick j) Any)
    (hf : ∀ a, Takes (f a) (tick k >>= fun _ => y) S) : Takes (x >>= f) (tick (j + k) >>= fun _ => y) S := by
  refine (h.bind (g := fun _ => tick k >>= fun _ => y) fun a _ => hf a).cast ?_
  refine Prod.ext rfl ?_
  show j + (k + y.2) = j + k + y.2
  omega

/-- Four rows, and then the result. -/
theorem Takes.four {α : Type} {x0 x1 x2 x3 : M N (AV N)} (h0 : Takes x0 (tick 1) Any) (h1 : Takes x1 (tick 1) Any) (h2 : Takes x2 (tick 1) Any)
    (h3 : Takes x3 (tick 1) Any) {f : AV N → AV N → AV N → AV N → M N α} {β : Type} {y : Cnt β} {R : α → β → Prop}
    (hf : ∀ a b c d, Takes (f a b c d) y R) :
    Takes (x0 >>= fun a => x1 >>= fun b => x2 >>= fun c => x3 >>= fun d => f a b c d) (tick 4 >>= fun _ => y) R := by
  have := h0.bind (g := fun _ => tick 1 >>= fun _ => tick 1 >>= fun _ => tick 1 >>= fun _ => y) fun a _ =>
    h1.bind (g := fun _ => tick 1 >>= fun _ => tick 1 >>= fun _ => y) fun b _ => h2.bind (g := fun _ => tick 1 >>= fun _ => y) fun c _ =>
    h3.bind (g := fun _ => y) fun d _ => hf a b c d
  refine this.cast ?_
  refine Prod.ext rfl ?_
  show 1 + (1 + (1 + (1 + y.2))) = 4 + y.2
  omega

theorem Takes.assignD (v : ℕ) : Takes (assignD v) (tick 4) Any :=
  (Takes.four (Takes.assignDLeadingLimb _) (Takes.assignNonleadingLimb _) (Takes.assignNonleadingLimb _) (Takes.assignNonleadingLimb _)
    (y := (Pure.pure () : Cnt Unit)) (R := Any) fun _ _ _ _ => Takes.pure trivial).cast rfl

/-- A new integer. -/
theorem SI.new (l : Fin 4 → AV N) (o : ℕ) : SI (AInt.new l o) ⟨o, false⟩ := ⟨rfl, rfl⟩

theorem Takes.assignW (v : W) : Takes (assignW v) (tick 4 >>= fun _ => Pure.pure ⟨0, false⟩) SI :=
  Takes.four (Takes.assignWCeilLeadingLimb _) (Takes.assignNonleadingLimb _) (Takes.assignNonleadingLimb _) (Takes.assignNonleadingLimb _)
    fun _ _ _ _ => Takes.pure (SI.new _ _)

variable {a b r : AInt} {s t u : ISh}

theorem Takes.native (ha : SI a s) : Takes (native a) (Count.native s) fun p q => SI p.2 q := by
  unfold Circuit.native Count.native
  cases h : a.native with
  | none =>
    have hn : s.n = false := by rw [← ha.n, h]; rfl
    rw [hn]
    exact Takes.bind (Takes.sumWithConstant _ _) fun _ _ => Takes.pure ⟨ha.o, rfl⟩
  | some n =>
    have hn : s.n = true := by rw [← ha.n, h]; rfl
    rw [hn]
    exact (Takes.pure (b := (⟨s.o, true⟩ : ISh)) ⟨ha.o, by rw [h]; rfl⟩).cast rfl

theorem Takes.reduce (ha : SI a s) : Takes (reduce a) (Count.reduce s) SI := by
  unfold Circuit.reduce Count.reduce
  rw [ha.o]
  split
  · exact Takes.pure ha
  · refine Takes.assertM fun _ => ?_
    dsimp only
    refine Takes.unwrapM fun _ => ?_
    refine (Takes.assignW _).bind (g := fun z => tick 1 >>= fun _ => Count.native z >>= fun r => Count.native s >>= fun _ => tick 2 >>= fun _ => Pure.pure r)
      fun _ hr => ?_
    refine (Takes.oneLineSel _ _ _ _ _).bind fun _ _ => (Takes.native hr).bind fun p hp => (Takes.native ha).bind fun _ _ => ?_
    exact Takes.rows (j := 1) (k := 1) (Takes.oneLineAdd _ _) fun _ => (Takes.oneLineAdd _ _).bind fun _ _ => Takes.pure ⟨hp.o, hp.n⟩

theorem Takes.conditionallyReduce (ha : SI a s) : Takes (conditionallyReduce a) (Count.conditionallyReduce s) SI := by
  unfold Circuit.conditionallyReduce Count.conditionallyReduce
  rw [ha.o]
  split
  · exact Takes.reduce ha
  · exact Takes.pure ha

theorem Takes.iadd (ha : SI a s) (hb : SI b t) : Takes (iadd a b) (Count.iadd s t) SI := by
  unfold Circuit.iadd Count.iadd
  rw [ha.o, hb.o]
  exact Takes.four (Takes.add _ _) (Takes.add _ _) (Takes.add _ _) (Takes.add _ _) fun _ _ _ _ => Takes.conditionallyReduce (SI.new _ _)

theorem Takes.subLimb (x y : AV N) (k : ℕ) : Takes (subLimb x y k) (tick 1) Any := Takes.sumWithConstant _ _

theorem Takes.isub (ha : SI a s) (hb : SI b t) : Takes (isub a b) (Count.isub s t) SI := by
  unfold Circuit.isub Count.isub
  rw [ha.o, hb.o]
  exact Takes.unwrapM fun _ => Takes.four (Takes.subLimb _ _ _) (Takes.subLimb _ _ _) (Takes.subLimb _ _ _) (Takes.subLimb _ _ _)
    fun _ _ _ _ => Takes.conditionallyReduce (SI.new _ _)

theorem Takes.negLimb (x : AV N) (k : ℕ) : Takes (negLimb x k) (tick 1) Any := Takes.sumWithConstant _ _

theorem Takes.ineg (ha : SI a s) : Takes (ineg a) (Count.ineg s) SI := by
  unfold Circuit.ineg Count.ineg
  rw [ha.o]
  exact Takes.unwrapM fun _ => Takes.four (Takes.negLimb _ _) (Takes.negLimb _ _) (Takes.negLimb _ _) (Takes.negLimb _ _)
    fun _ _ _ _ => Takes.conditionallyReduce (SI.new _ _)

theorem Takes.mulEqTail (l m : Fin 4 → AV N) : Takes (mulEqTail l m) (tick 8) Any := by
  unfold Circuit.mulEqTail
  dsimp only
  exact Takes.seq (k := 1) (l := 7) (Takes.assignNFloorLeadingLimb _) fun _ => Takes.seq (k := 1) (l := 6) (Takes.assignNonleadingLimb _) fun _ =>
    Takes.seq (k := 1) (l := 5) (Takes.assignNFloorLeadingLimb _) fun _ => Takes.seq (k := 1) (l := 4) (Takes.assignNonleadingLimb _) fun _ =>
    Takes.seq (k := 1) (l := 3) (Takes.sumWithConstant _ _) fun _ => Takes.seq (k := 1) (l := 2) (Takes.oneLineAdd _ _) fun _ =>
    Takes.seq (k := 1) (l := 1) (Takes.sumWithConstant _ _) fun _ => Takes.then (Takes.oneLineAdd _ _)

theorem Takes.mulEqLimbs (a b : AInt) (d : Fin 4 → AV N) (rem : AInt) : Takes (mulEqLimbs a b d rem) (tick 18) Any :=
  Takes.assertM fun _ => Takes.assertM fun _ => Takes.assertM fun _ =>
    Takes.seq (k := 1) (l := 17) (Takes.mulAddWithNextLine _) fun _ => Takes.seq (k := 2) (l := 15) (Takes.mulAddWithNextLine _) fun _ =>
    Takes.seq (k := 3) (l := 12) (Takes.mulAddWithNextLine _) fun _ => Takes.seq (k := 4) (l := 8) (Takes.mulAddWithNextLine _) fun _ =>
    Takes.mulEqTail _ _

theorem Takes.mulEqNative {d : Fin 4 → AV N} (ha : SI a s) (hb : SI b t) (hr : SI r u) : Takes (mulEqNative a b d r) (Count.mulEqNative s t u)
    fun p q => SI p.1 q.1 ∧ SI p.2.1 q.2.1 ∧ SI p.2.2 q.2.2 :=
  (Takes.native ha).bind fun _ q1 => (Takes.native hb).bind fun _ q2 => Takes.bind (Takes.sumWithConstant (nativeTerms d) 0) fun _ _ =>
    (Takes.native hr).bind fun _ q3 => (Takes.oneLine _ _ _ _).bind fun _ _ => Takes.pure ⟨q1, q2, q3⟩

theorem Takes.imul (ha : SI a s) (hb : SI b t) : Takes (imul a b) (Count.imul s t)
    fun p q => SI p.1 q.1 ∧ SI p.2.1 q.2.1 ∧ SI p.2.2 q.2.2 := by
  unfold Circuit.imul Count.imul
  dsimp only
  exact Takes.bind (g := fun z => tick 4 >>= fun _ => tick 18 >>= fun _ => Count.mulEqNative s t z >>= fun r => Pure.pure (r.2.2, r.1, r.2.1))
    (Takes.assignW _) fun _ q1 => (Takes.assignD _).bind fun _ _ => (Takes.mulEqLimbs _ _ _ _).bind fun _ _ =>
    (Takes.mulEqNative ha hb q1).bind fun _ q2 => Takes.pure ⟨q2.2.2, q2.1, q2.2.1⟩

theorem Takes.isquare (ha : SI a s) : Takes (isquare a) (Count.isquare s) fun p q => SI p.1 q.1 ∧ SI p.2 q.2 := by
  unfold Circuit.isquare Count.isquare Circuit.squareEqNative
  dsimp only
  refine Takes.bind (g := fun z => tick 4 >>= fun _ => tick 18 >>= fun _ => (Count.native s >>= fun a => tick 1 >>= fun _ => Count.native z >>= fun rem =>
      tick 1 >>= fun _ => Pure.pure (a, rem)) >>= fun r => Pure.pure (r.2, r.1)) (Takes.assignW _) fun _ q1 => (Takes.assignD _).bind fun _ _ =>
    (Takes.mulEqLimbs _ _ _ _).bind fun _ _ => Takes.bind (R := fun p q => SI p.1 q.1 ∧ SI p.2 q.2) ?_ fun _ q2 => Takes.pure ⟨q2.2, q2.1⟩
  exact (Takes.native ha).bind fun _ q2 => Takes.bind (Takes.sumWithConstant _ 0) fun _ _ =>
    (Takes.native q1).bind fun _ q3 => (Takes.oneLine _ _ _ _).bind fun _ _ => Takes.pure ⟨q2, q3⟩

theorem Takes.iisZero (ha : SI a s) : Takes (iisZero a) (Count.iisZero s) fun p q => SI p.2 q := by
  unfold Circuit.iisZero Count.iisZero Circuit.isPureWModulus
  refine (Takes.reduce ha).bind fun _ q1 => Takes.bind (Takes.seq (k := 1) (l := 2) (Takes.sumWithConstant _ _) fun _ => Takes.isZero _) fun _ _ => ?_
  refine Takes.bind (y := Count.native _ >>= fun z => tick 7 >>= fun _ => Pure.pure z) (g := fun z => tick 1 >>= fun _ => Pure.pure z)
    (R := fun p q => SI p.2 q) ?_ fun _ q2 => (Takes.or _ _).bind fun _ _ => Takes.pure q2
  exact (Takes.native q1).bind fun _ q2 => Takes.rows (j := 1) (k := 6) (Takes.sumWithConstant [_] _) fun _ =>
    Takes.rows (j := 2) (k := 4) (Takes.isZero _) fun _ => Takes.rows (j := 1) (k := 3) (Takes.sumWithConstant [_] _) fun _ =>
    Takes.rows (j := 2) (k := 1) (Takes.isZero _) fun _ => (Takes.and _ _).bind fun _ _ => Takes.pure q2

theorem Takes.iisEqual (ha : SI a s) (hb : SI b t) : Takes (iisEqual a b) (Count.iisEqual s t) Any :=
  (Takes.isub ha hb).bind fun _ q1 => (Takes.iisZero q1).bind fun _ _ => Takes.pure trivial

theorem Takes.idiv (ha : SI a s) (hb : SI b t) : Takes (idiv a b) (Count.idiv s t)
    fun p q => SI p.2.1 q.1 ∧ SI p.2.2.1 q.2.1 ∧ SI p.2.2.2 q.2.2 := by
  unfold Circuit.idiv Count.idiv
  refine (Takes.iisZero hb).bind fun _ q1 => (Takes.not _).bind fun _ _ => (Takes.reduce ha).bind fun a1 q2 => ?_
  refine Takes.four (Takes.mul _ _) (Takes.mul _ _) (Takes.mul _ _) (Takes.mul _ _) fun _ _ _ _ => ?_
  dsimp only
  rw [q2.o]
  refine Takes.unwrapM fun _ => ?_
  exact Takes.bind (g := fun z => tick 4 >>= fun _ => tick 18 >>= fun _ => Count.mulEqNative (Count.iisZero t).1 z ⟨(Count.reduce s).1.o, false⟩ >>=
      fun r => Pure.pure (r.2.1, (Count.reduce s).1, r.1))
    (Takes.assignW _) fun _ q3 => (Takes.assignD _).bind fun _ _ => (Takes.mulEqLimbs _ _ _ _).bind fun _ _ =>
    (Takes.mulEqNative q1 q3 (SI.new _ _)).bind fun _ q4 => Takes.pure ⟨q4.2.1, q2, q4.1⟩

theorem Takes.iassignConstant (w : W) : Takes (iassignConstant w) (tick 4 >>= fun _ => Pure.pure ⟨0, false⟩) SI :=
  Takes.four (Takes.assignConstant _) (Takes.assignConstant _) (Takes.assignConstant _) (Takes.assignConstant _) fun _ _ _ _ => Takes.pure (SI.new _ _)

theorem Takes.imulSmallConstant (ha : SI a s) (k : ℕ) : Takes (imulSmallConstant a k) (Count.imulSmallConstant s k)
    fun p q => SI p.1 q.1 ∧ SI p.2 q.2 := by
  unfold Circuit.imulSmallConstant Count.imulSmallConstant
  refine Takes.assertM fun _ => Takes.bind (R := SI) ?_ fun a1 q1 => ?_
  · rw [ha.o]
    split
    · exact Takes.reduce ha
    · exact Takes.pure ha
  · rw [q1.o]
    exact Takes.four (Takes.sumWithConstant [_] _) (Takes.sumWithConstant [_] _) (Takes.sumWithConstant [_] _) (Takes.sumWithConstant [_] _)
      fun _ _ _ _ => (Takes.conditionallyReduce (SI.new _ _)).bind fun _ q2 => Takes.pure ⟨q2, q1⟩

theorem Takes.ibisec (c : AV N) (ha : SI a s) (hb : SI b t) : Takes (ibisec c a b) (Count.ibisec s t) SI := by
  unfold Circuit.ibisec Count.ibisec
  rw [ha.o, hb.o]
  exact Takes.four (Takes.bisec _ _ _) (Takes.bisec _ _ _) (Takes.bisec _ _ _) (Takes.bisec _ _ _) fun _ _ _ _ => Takes.pure (SI.new _ _)

theorem Takes.getLastBit (a : AInt) : Takes (getLastBit a) (tick 3) Any :=
  Takes.seq (k := 1) (l := 2) (Takes.assignNonleadingLimb _) fun _ => Takes.seq (k := 1) (l := 1) (Takes.oneLine _ _ _ _) fun _ =>
    Takes.then (Takes.assertBit _)

/-! ### Points -/

variable {p q : APt} {v w : PSh}

theorem Takes.curvature (hp : SP p v) : Takes (curvature p) (Count.curvature v) fun a b => SC a.1 b.1 ∧ SP a.2 b.2 := by
  unfold Circuit.curvature Count.curvature
  have h := hp.c
  revert h
  cases h1 : p.curv <;> cases h2 : v.c <;> intro h
  · exact (Takes.isquare hp.x).bind fun _ q1 => (Takes.imulSmallConstant q1.1 3).bind fun _ q2 => (Takes.imulSmallConstant hp.y 2).bind fun _ q3 =>
      (Takes.idiv q2.1 q3.1).bind fun _ q4 => Takes.pure ⟨q4.1, q1.2, q3.2, .some q4.1⟩
  · cases h
  · cases h
  · cases h with
    | some h => exact Takes.pure ⟨h, hp⟩

theorem Takes.bisecCurv (c : AV N) {k l : ACurv} (hk : SC k s) (hl : SC l t) : Takes (bisecCurv c k l) (Count.bisecCurv s t) SC :=
  (Takes.ibisec c hk hl).bind fun _ q1 => (Takes.bisec _ _ _).bind fun _ _ => Takes.pure q1

theorem Takes.bisecPoint (c : AV N) (hp : SP p v) (hq : SP q w) : Takes (bisecPoint c p q) (Count.bisecPoint v w) SP :=
  (Takes.ibisec c hp.x hq.x).bind fun _ q1 => (Takes.ibisec c hp.y hq.y).bind fun _ q2 => (Takes.bisec _ _ _).bind fun _ _ =>
    Takes.pure ⟨q1, q2, .none⟩

theorem Takes.bisecPointCurv (c : AV N) (hp : SP p v) (hq : SP q w) : Takes (bisecPointCurv c p q) (Count.bisecPointCurv v w) SP :=
  (Takes.ibisec c hp.x hq.x).bind fun _ q1 => (Takes.ibisec c hp.y hq.y).bind fun _ q2 => (Takes.bisec _ _ _).bind fun _ _ =>
    (Takes.curvature hp).bind fun _ q3 => (Takes.curvature hq).bind fun _ q4 => (Takes.bisecCurv c q3.1 q4.1).bind fun _ q5 =>
    Takes.pure ⟨q1, q2, .some q5⟩

theorem Takes.lambdaToPoint {k : ACurv} (hk : SC k s) (hp : SP p v) (hq : SP q w) : Takes (lambdaToPoint k p q) (Count.lambdaToPoint s v w) SP :=
  (Takes.isquare hk).bind fun _ q1 => (Takes.isub q1.1 hp.x).bind fun _ q2 => (Takes.isub q2 hq.x).bind fun _ q3 =>
    (Takes.isub hp.x q3).bind fun _ q4 => (Takes.imul q4 q1.2).bind fun _ q5 => (Takes.isub q5.1 hp.y).bind fun _ q6 =>
    Takes.pure ⟨q3, q6, .none⟩

theorem Takes.pAdd (hp : SP p v) (hq : SP q w) : Takes (pAdd p q) (Count.pAdd v w) fun a b => SP a.1 b.1 ∧ SP a.2 b.2 :=
  (Takes.isub hp.x hq.x).bind fun _ q1 => (Takes.isub hp.y hq.y).bind fun _ q2 => (Takes.idiv q2 q1).bind fun _ q3 =>
    (Takes.iisZero q3.2.1).bind fun _ _ => (Takes.and _ _).bind fun _ _ => (Takes.curvature hp).bind fun _ q4 =>
    (Takes.bisecCurv _ q4.1 (l := ⟨_, _⟩) q3.1).bind fun _ q5 => (Takes.lambdaToPoint q5 q4.2 hq).bind fun _ q6 =>
    (Takes.bisecPoint _ hq q6).bind fun _ q7 => (Takes.bisecPoint _ q4.2 q7).bind fun _ q8 => Takes.pure ⟨q8, q4.2⟩

theorem Takes.pDouble (hp : SP p v) : Takes (pDouble p) (Count.pDouble v) fun a b => SP a.1 b.1 ∧ SP a.2 b.2 :=
  (Takes.curvature hp).bind fun _ q1 => (Takes.lambdaToPoint q1.1 q1.2 q1.2).bind fun _ q2 => (Takes.bisec _ _ _).bind fun _ _ =>
    Takes.pure ⟨⟨q2.x, q2.y, q2.c⟩, q1.2⟩

/-- Constants one after the other. -/
theorem Takes.constants {α β γ : Type} {x : M N α} {f : α → M N γ} {j k : ℕ} {b : β} {R : α → β → Prop} {δ : Type} {y : Cnt δ} {S : γ → δ → Prop}
    (h : Takes x (tick j >>= fun _ => Pure.pure b) R) (hf : ∀ a, R a b → Takes (f a) (tick k >>= fun _ => y) S) :
    Takes (x >>= f) (tick (j + k) >>= fun _ => y) S := by
  refine (h.bind (g := fun _ => tick k >>= fun _ => y) fun a ha => hf a ha).cast ?_
  refine Prod.ext rfl ?_
  show j + 0 + (k + y.2) = j + k + y.2
  omega

theorem Takes.assignConstantPoint (P : Pt) : Takes (assignConstantPoint P) Count.assignConstantPoint SP :=
  Takes.constants (j := 4) (k := 5) (Takes.iassignConstant _) fun _ q1 => Takes.constants (j := 4) (k := 1) (Takes.iassignConstant _) fun _ q2 =>
    (Takes.assignConstant _).bind fun _ _ => Takes.pure ⟨q1, q2, .none⟩

theorem Takes.assignConstantPointCurv (P : Pt) : Takes (assignConstantPointCurv P) Count.assignConstantPointCurv SP :=
  Takes.constants (j := 4) (k := 10) (Takes.iassignConstant _) fun _ q3 => Takes.rows (j := 1) (k := 9) (Takes.assignConstant _) fun _ =>
  Takes.constants (j := 4) (k := 5) (Takes.iassignConstant _) fun _ q1 => Takes.constants (j := 4) (k := 1) (Takes.iassignConstant _) fun _ q2 =>
    (Takes.assignConstant _).bind fun _ _ => Takes.pure ⟨q1, q2, .some q3⟩

theorem Takes.assignIdentity : Takes assignIdentity Count.assignIdentity SP :=
  Takes.constants (j := 4) (k := 1) (Takes.iassignConstant _) fun _ q1 => (Takes.assignConstant _).bind fun _ _ => Takes.pure ⟨q1, q1, .some q1⟩

theorem Takes.assignPoint (P : Pt) : Takes (assignPoint P) Count.assignPoint SP := by
  unfold Circuit.assignPoint Circuit.assignPointRaw Count.assignPoint
  refine Takes.bind (y := Count.fresh) (Takes.assignW _) fun _ q1 => Takes.bind (y := Count.fresh) (Takes.assignW _) fun _ q2 =>
    (Takes.assign _).bind fun _ _ => Takes.bind (y := Count.fresh) (Takes.iassignConstant _) fun _ q3 => ?_
  exact (Takes.isquare q2).bind fun _ q4 => (Takes.isquare q1).bind fun _ q5 => (Takes.imul q5.1 q5.2).bind fun _ q6 =>
    (Takes.iadd q6.1 q3).bind fun _ q7 => (Takes.iisEqual q4.1 q7).bind fun _ _ => Takes.rows (j := 1) (k := 1) (Takes.or _ _) fun _ =>
    (Takes.assertConstant _ _).bind fun _ _ => Takes.pure ⟨q6.2.2, q4.2, .none⟩

theorem Takes.pAssertEqual (hp : SP p v) (hq : SP q w) : Takes (pAssertEqual p q) (Count.pAssertEqual v w) Any :=
  (Takes.iisEqual hp.x hq.x).bind fun _ _ => (Takes.iisEqual hp.y hq.y).bind fun _ _ =>
    Takes.seq (k := 1) (l := 5) (Takes.xnor _ _) fun _ => Takes.seq (k := 1) (l := 4) (Takes.and _ _) fun _ =>
    Takes.seq (k := 1) (l := 3) (Takes.and _ _) fun _ => Takes.seq (k := 1) (l := 2) (Takes.and _ _) fun _ =>
    Takes.seq (k := 1) (l := 1) (Takes.or _ _) fun _ => Takes.assertConstant _ _

theorem Takes.pNeg (hp : SP p v) : Takes (pNeg p) (Count.pNeg v) SP := (Takes.ineg hp.y).bind fun _ q1 => Takes.pure ⟨hp.x, q1, .none⟩

theorem Takes.pSub (hp : SP p v) (hq : SP q w) : Takes (pSub p q) (Count.pSub v w) fun a b => SP a.1 b.1 ∧ SP a.2 b.2 :=
  (Takes.pNeg hq).bind fun _ q1 => Takes.pAdd hp q1

theorem Takes.pReduce (hp : SP p v) : Takes (pReduce p) (Count.pReduce v) fun a b => SP a.1 b.1 ∧ SP a.2 b.2 := by
  unfold Circuit.pReduce Count.pReduce
  refine (Takes.reduce hp.x).bind fun x q1 => (Takes.reduce hp.y).bind fun y q2 => ?_
  have h : SP { p with x := x, y := y } ⟨(Count.reduce v.x).1, (Count.reduce v.y).1, v.c⟩ := ⟨q1, q2, hp.c⟩
  revert h
  generalize ({ p with x := x, y := y } : APt) = a
  intro h
  exact Takes.assignIdentity.bind fun _ q3 => (Takes.bisecPoint _ q3 h).bind fun _ q4 => Takes.pure ⟨q4, h⟩

/-! ### Scalars -/

theorem Takes.windowRow (w s : ℕ) (l : Schema N) (next : N) : Takes (windowRow w s l next) (tick 1) fun r _ => r.length = min w 5 := by
  unfold Circuit.windowRow
  refine (Takes.bind (g := fun _ => (Pure.pure () : Cnt Unit)) (Takes.oneLineWithLastBase _ _ _ _ _) fun _ _ => Takes.pure ?_).cast rfl
  simp

theorem Takes.decomposeTail (w : ℕ) : ∀ k s : ℕ, Takes (decomposeTail w k s) (tick (k + 1)) fun r _ => r.length = k + 1 ∧ ∀ b ∈ r, b.length = min w 5
  | 0, _ => (Takes.bind (g := fun _ => (Pure.pure () : Cnt Unit)) (Takes.windowRow _ _ _ _) fun _ h => Takes.pure ⟨rfl, by simpa using h⟩).cast rfl
  | k + 1, _ => by
    refine (Takes.bind (g := fun _ => (tick (k + 1) >>= fun _ => Pure.pure () : Cnt Unit)) (Takes.windowRow _ _ _ _) fun _ h =>
      (Takes.decomposeTail w k _).bind fun _ h' => Takes.pure ⟨by rw [List.length_cons, h'.1], fun b hb => ?_⟩).cast ?_
    rotate_left
    · rcases List.mem_cons.1 hb with rfl | hb
      · exact h
      · exact h'.2 b hb
    · refine Prod.ext rfl ?_
      show 1 + (k + 1 + 0) = k + 1 + 1
      omega

theorem Takes.assertBits : ∀ l : List (AV N), Takes (assertBits l) (tick l.length) Any
  | [] => (Takes.pure (b := ()) trivial).cast rfl
  | _ :: l => (Takes.seq (Takes.assertBit _) fun _ => Takes.assertBits l).cast (by rw [Nat.add_comm]; rfl)

theorem length_flatten_of {l : List (List (AV N))} {k : ℕ} (h : ∀ b ∈ l, b.length = k) : l.flatten.length = l.length * k := by
  induction l with
  | nil => simp
  | cons b l ih =>
    rw [List.flatten_cons, List.length_append, h b (by simp), ih fun b hb => h b (by simp [hb]), List.length_cons]
    ring

/-- The windows of a scalar. -/
theorem Takes.decomposeScalar (w m : ℕ) (a : AV N) (hm : (scalarBits - 1 + w) / w - 2 = m) : Takes (decomposeScalar w a) (tick ((m + 2) * (1 + min w 5)))
    fun r _ => r.length = m + 2 ∧ ∀ b ∈ r, b.length = min w 5 := by
  unfold Circuit.decomposeScalar
  dsimp only
  rw [hm]
  constructor
  intro c r c' h
  simp only [Bind.bind, StateT.bind, Option.bind_eq_some_iff, Prod.exists] at h
  obtain ⟨b0, c1, h0, bs, c2, h1, u, c3, h2, h3⟩ := h
  obtain ⟨e0, l0⟩ := (Takes.windowRow w _ _ _).run _ _ _ h0
  obtain ⟨e1, l1, l2⟩ := (Takes.decomposeTail w m _).run _ _ _ h1
  obtain ⟨e2, -⟩ := (Takes.assertBits _).run _ _ _ h2
  cases h3
  have hb : ∀ b ∈ (b0 :: bs).reverse, b.length = min w 5 := by
    intro b hb
    rcases List.mem_cons.1 (List.mem_reverse.1 hb) with rfl | hb
    · exact l0
    · exact l2 b hb
  have hl : (b0 :: bs).reverse.length = m + 2 := by rw [List.length_reverse, List.length_cons, l1]
  refine ⟨?_, hl, hb⟩
  rw [length_flatten_of hb, hl] at e2
  rw [e2, e1, e0]
  show c.offset + 1 + (m + 1) + (m + 2) * min w 5 = c.offset + (m + 2) * (1 + min w 5)
  ring

/-! ### Multiplication -/

theorem Takes.fail {α β : Type} {y : Cnt β} {R : α → β → Prop} : Takes (Circuit.unwrapM (.none : Option α)) y R :=
  ⟨fun _ _ _ h => absurd h (by simp [Circuit.unwrapM])⟩

theorem Takes.buildCands (hp : SP p v) : ∀ (n : ℕ) {l : APt} {m : PSh}, SP l m → Takes (buildCands p n l) (Count.buildCands v n m) (List.Forall₂ SP)
  | 0, _, _, h => Takes.pure (.cons h .nil)
  | n + 1, _, _, h => (Takes.pAdd h hp).bind fun _ q1 => (Takes.buildCands hp n q1.1).bind fun _ q2 => Takes.pure (.cons q1.2 q2)

theorem Takes.buildCandsCurv (hp : SP p v) : ∀ (n : ℕ) {l : APt} {m : PSh}, SP l m →
    Takes (buildCandsCurv p n l) (Count.buildCandsCurv v n m) (List.Forall₂ SP)
  | 0, _, _, h => Takes.pure (.cons h .nil)
  | n + 1, _, _, h => (Takes.pAdd h hp).bind fun _ q1 => (Takes.curvature q1.1).bind fun _ q2 => (Takes.buildCandsCurv hp n q2.2).bind fun _ q3 =>
    Takes.pure (.cons q1.2 q3)

theorem Takes.pickPairs (b : AV N) : ∀ {l : List APt} {m : List PSh}, List.Forall₂ SP l m → Takes (pickPairs b l) (Count.pickPairs m) (List.Forall₂ SP)
  | _, _, .nil => Takes.pure .nil
  | _, _, .cons _ .nil => Takes.pure .nil
  | _, _, .cons h1 (.cons h2 h3) => (Takes.bisecPointCurv b h2 h1).bind fun _ q1 => (Takes.pickPairs b h3).bind fun _ q2 => Takes.pure (.cons q1 q2)

theorem Takes.pick : ∀ (bs : List (AV N)) {l : List APt} {m : List PSh}, List.Forall₂ SP l m → Takes (pick bs l) (Count.pick bs.length m) SP
  | [], _, _, .nil => Takes.fail
  | [], _, _, .cons h _ => Takes.pure h
  | b :: bs, _, _, h => (Takes.pickPairs b h).bind fun _ q1 => Takes.pick bs q1

theorem Takes.doubles : ∀ (n : ℕ) {p : APt} {v : PSh}, SP p v → Takes (doubles n p) (Count.doubles n v) SP
  | 0, _, _, h => Takes.pure h
  | n + 1, _, _, h => (Takes.pDouble h).bind fun _ q1 => Takes.doubles n q1.1

theorem Takes.mulLoop {l : List APt} {m : List PSh} (hl : List.Forall₂ SP l m) : ∀ (ws : List (List (AV N))) {p : APt} {v : PSh}, (∀ b ∈ ws, b.length = 4) →
    SP p v → Takes (mulLoop l ws p) (Count.mulLoop m ws.length v) SP
  | [], _, _, _, h => Takes.pure h
  | b :: ws, _, _, hb, h => by
    refine (Takes.doubles 4 h).bind fun _ q1 => Takes.bind (y := Count.pick 4 m) ?_ fun _ q2 => (Takes.pAdd q2 q1).bind fun _ q3 =>
      Takes.mulLoop hl ws (fun b hb' => hb b (by simp [hb'])) q3.1
    have := Takes.pick b hl
    rwa [hb b (by simp)] at this

theorem Takes.pMul (hp : SP p v) (a : AV N) : Takes (pMul p a) (Count.pMul v) SP := by
  unfold Circuit.pMul Count.pMul
  refine Takes.bind (Takes.decomposeScalar 4 62 a (by decide)) fun ws hw => Takes.assignIdentity.bind fun _ q1 =>
    (Takes.buildCands hp 14 hp).bind fun _ q2 => ?_
  obtain ⟨hl, hb⟩ := hw
  match ws, hl, hb with
  | f :: ws, hl, hb =>
    refine Takes.bind (y := Count.pick 4 _) (R := SP) ?_ fun _ q3 => ?_
    · have := Takes.pick f (.cons q1 q2)
      rwa [hb f (by simp)] at this
    · have := Takes.mulLoop (.cons q1 q2) ws (fun b hb' => hb b (by simp [hb'])) q3
      rwa [show ws.length = 63 by simpa using hl] at this

theorem Takes.constSlot (hp : SP p v) (P : Pt) : ∀ b : List (AV N), Takes (constSlot p P b) (Count.constSlot v) SP
  | [_, _] => (Takes.assignConstantPointCurv _).bind fun _ q1 => (Takes.assignConstantPointCurv _).bind fun _ q2 =>
    (Takes.assignConstantPointCurv _).bind fun _ q3 => (Takes.bisecPointCurv _ q2 hp).bind fun _ q4 => (Takes.bisecPointCurv _ q3 q1).bind fun _ q5 =>
    Takes.bisecPointCurv _ q5 q4
  | [] => Takes.fail
  | [_] => Takes.fail
  | _ :: _ :: _ :: _ => Takes.fail

theorem Takes.constLoop {i : APt} {j : PSh} (hi : SP i j) : ∀ (ws : List (List (AV N))) (P : Pt) {p : APt} {v : PSh}, SP p v →
    Takes (constLoop i ws P p) (Count.constLoop j ws.length v) SP
  | [], _, _, _, h => Takes.pure h
  | b :: ws, P, _, _, h => (Takes.constSlot hi P b).bind fun _ q1 => (Takes.pAdd q1 h).bind fun _ q2 => Takes.constLoop hi ws _ q2.1

theorem Takes.constantMul (P : Pt) (a : AV N) : Takes (constantMul P a) Count.constantMul SP := by
  unfold Circuit.constantMul Count.constantMul
  refine Takes.bind (Takes.decomposeScalar 2 125 a (by decide)) fun ws hw => (Takes.assignConstantPointCurv _).bind fun _ q1 => ?_
  obtain ⟨hl, -⟩ := hw
  rw [← List.length_reverse] at hl
  match ws.reverse, hl with
  | b :: ws, hl =>
    refine (Takes.constSlot q1 P b).bind fun _ q2 => ?_
    have := Takes.constLoop q1 ws (P + P + P + P) q2
    rwa [show ws.length = 126 by simpa using hl] at this

theorem Takes.exposePoint (x : AInt) (b : AV N) : Takes (Top.exposePoint x b) (tick 2) Any :=
  Takes.seq (k := 1) (l := 1) (Takes.sumWithConstant _ _) fun _ => Takes.then (Takes.sumWithConstant _ _)

/-- The second region of `synthesize`. -/
theorem Takes.exposePair (hp : SP p v) (hq : SP q w) : Takes (Top.exposePair p q) (Count.exposePair v w) Any :=
  (Takes.reduce hp.x).bind fun _ _ => (Takes.reduce hp.y).bind fun _ _ => (Takes.reduce hq.x).bind fun _ _ => (Takes.reduce hq.y).bind fun _ _ =>
    Takes.assertM fun _ => (Takes.getLastBit _).bind fun _ _ => (Takes.getLastBit _).bind fun _ _ => (Takes.exposePoint _ _).bind fun _ _ =>
    Takes.then (Takes.exposePoint _ _)

end Verif.Circuit
