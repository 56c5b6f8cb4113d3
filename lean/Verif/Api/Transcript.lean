import Verif.Api.Keys
import Verif.Api.CircuitChip
import Verif.Api.Mock

/-!
# Reading a proof

`transcript/read.rs` and `systems/halo2/transcript.rs` of `halo2-snark-aggregator-api/src`: values are read from the proof bytes,
assigned as witnesses and absorbed into the transcript's hash; challenges are squeezed from it. The hash is a parameter here
(`Transcript`); the Poseidon sponge is `Verif.Api.Poseidon`.

The model keeps a record of what the transcript saw, in order: `trace`. It is what the Fiat-Shamir statements are about.
-/

namespace Verif.Api

/-! ### Model -/

/-- What went through the transcript: a point or scalar the verifier knows (`common_point`, `common_scalar`), a point or scalar read
from the proof, a squeezed challenge. -/
inductive Event (P S : Type) where
  | commonPoint (p : P)
  | commonScalar (s : S)
  | point (p : P)
  | scalar (s : S)
  | challenge (s : S)

/-- `C::from_bytes` and `Scalar::from_repr` with the sizes of their inputs; `none` is an invalid encoding. -/
structure Codec (F G : Type) where
  pointLen : ℕ
  scalarLen : ℕ
  point : List UInt8 → Option G
  scalar : List UInt8 → Option F

/-- `read_exact` and decode: the decoded value and the remaining bytes. -/
def Codec.readPoint {F G : Type} (d : Codec F G) (b : List UInt8) : Option (G × List UInt8) :=
  if b.length < d.pointLen then none else (d.point (b.take d.pointLen)).map fun P => (P, b.drop d.pointLen)

def Codec.readScalar {F G : Type} (d : Codec F G) (b : List UInt8) : Option (F × List UInt8) :=
  if b.length < d.scalarLen then none else (d.scalar (b.take d.scalarLen)).map fun k => (k, b.drop d.scalarLen)

section Model
variable {F G : Type} (c : Chip F G)

/-- The hash behind the transcript: `common_point`, `common_scalar` and `squeeze_challenge_scalar` of transcript/read.rs. -/
structure Transcript where
  St : Type
  commonPoint : St → c.P → c.m St
  commonScalar : St → c.S → c.m St
  squeeze : St → c.m (c.S × St)

variable {c}

/-- The state of a transcript reader: the bytes left, the hash, and the record of what happened. -/
structure Reader (T : Transcript c) where
  bytes : List UInt8
  st : T.St
  trace : List (Event c.P c.S)

/-- Computations that use the transcript. -/
abbrev Rd (T : Transcript c) (α : Type) : Type := Reader T → c.m (α × Reader T)

namespace Rd
variable {T : Transcript c}

def ret {α : Type} (a : α) : Rd T α := fun s => Pure.pure (a, s)

def andThen {α β : Type} (x : Rd T α) (f : α → Rd T β) : Rd T β := fun s => x s >>= fun r => f r.1 r.2

instance : Monad (Rd T) where
  pure := ret
  bind := andThen

/-- A computation of the chip. -/
def lift {α : Type} (x : c.m α) : Rd T α := fun s => x >>= fun a => Pure.pure (a, s)

/-- `?` on an error. -/
def fail {α : Type} : Rd T α := fun _ => c.panic

/-- systems/halo2/transcript.rs lines 153-165. -/
def absorbPoint (e : c.P → Event c.P c.S) (p : c.P) : Rd T Unit := fun s => do
  let st ← T.commonPoint s.st p
  return ((), ⟨s.bytes, st, s.trace ++ [e p]⟩)

def commonPoint : c.P → Rd T Unit := absorbPoint .commonPoint

/-- systems/halo2/transcript.rs lines 167-178. -/
def absorbScalar (e : c.S → Event c.P c.S) (k : c.S) : Rd T Unit := fun s => do
  let st ← T.commonScalar s.st k
  return ((), ⟨s.bytes, st, s.trace ++ [e k]⟩)

def commonScalar : c.S → Rd T Unit := absorbScalar .commonScalar

/-- systems/halo2/transcript.rs lines 142-151. -/
def squeeze : Rd T c.S := fun s => do
  let r ← T.squeeze s.st
  return (r.1, ⟨s.bytes, r.2, s.trace ++ [.challenge r.1]⟩)

/-- Take the next point from the bytes; `none` when there is none (`read_exact` or the decoder fails). Then the remaining bytes are
never looked at again. -/
def nextPoint (d : Codec F G) : Rd T (Option G) := fun s =>
  match d.readPoint s.bytes with
  | none => Pure.pure (none, s)
  | some (P, rest) => Pure.pure (some P, ⟨rest, s.st, s.trace⟩)

def nextScalar (d : Codec F G) : Rd T (Option F) := fun s =>
  match d.readScalar s.bytes with
  | none => Pure.pure (none, s)
  | some (k, rest) => Pure.pure (some k, ⟨rest, s.st, s.trace⟩)

/-- systems/halo2/transcript.rs lines 69-75: the rest of `read_point` once the point is decoded. -/
def acceptPoint (P : G) : Rd T c.P := do
  let p ← lift (c.pAssignVar P)
  absorbPoint .point p
  return p

def acceptScalar (k : F) : Rd T c.S := do
  let s ← lift (c.assignVar k)
  absorbScalar .scalar s
  return s

/-- systems/halo2/transcript.rs lines 56-76, with the error propagated. -/
def readPoint (d : Codec F G) : Rd T c.P := do
  match ← nextPoint d with
  | none => fail
  | some P => acceptPoint P

/-- systems/halo2/transcript.rs lines 100-119. -/
def readScalar (d : Codec F G) : Rd T c.S := do
  match ← nextScalar d with
  | none => fail
  | some k => acceptScalar k

/-- verify.rs lines 99-106 and 127-134: `for _ in 0..n { ret.push(load()?) }`. -/
def times {α : Type} (x : Rd T α) : ℕ → Rd T (List α)
  | 0 => return []
  | n + 1 => do
    let a ← x
    let l ← times x n
    return a :: l

/-- `iter().map(f).collect::<Result<Vec<_>, _>>()`. -/
def each {α β : Type} (f : α → Rd T β) : List α → Rd T (List β)
  | [] => return []
  | a :: l => do
    let b ← f a
    let bs ← each f l
    return b :: bs

/-- verify.rs lines 481-484: `while let Ok(p) = self.load_point() { w.push(p) }`. Each iteration consumes bytes, so the number of bytes
bounds the number of iterations. -/
def readAll (d : Codec F G) : ℕ → Rd T (List c.P)
  | 0 => return []
  | n + 1 => do
    match ← nextPoint d with
    | none => return []
    | some P => do
      let p ← acceptPoint P
      let l ← readAll d n
      return p :: l

end Rd
end Model

/-! ### What a proof has to contain -/

/-- The next thing the verifier takes from the proof; `stop`: here it must fail to find another point. -/
inductive Kind where
  | point
  | scalar
  | stop
deriving DecidableEq

/-- The bytes can be taken apart into values of these kinds. -/
def Codec.Parses {F G : Type} (d : Codec F G) : List Kind → List UInt8 → Prop
  | [], _ => True
  | .point :: ks, b => ∃ P rest, d.readPoint b = some (P, rest) ∧ d.Parses ks rest
  | .scalar :: ks, b => ∃ k rest, d.readScalar b = some (k, rest) ∧ d.Parses ks rest
  | .stop :: ks, b => d.readPoint b = none ∧ ks = []

/-! ### Rules -/

variable {F G : Type} {c : Chip F G} [Field F] [AddCommGroup G] [Module F G] {gen : G}

namespace Logic
variable (L : Logic c gen)

/-- The guarantees are partial correctness: nothing is promised about computations that panic. -/
structure Partial : Prop where
  triv : ∀ {α : Type} (x : c.m α), L.Ens x fun _ => True
  panic : ∀ {α : Type} (post : α → Prop), L.Ens c.panic post

/-- The hash of the transcript does not panic (for total correctness) and only adds constraints (in a circuit). -/
structure Safe (T : Transcript c) : Prop where
  commonPoint : ∀ s p, L.Ens (T.commonPoint s p) fun _ => True
  commonScalar : ∀ s k, L.Ens (T.commonScalar s k) fun _ => True
  squeeze : ∀ s, L.Ens (T.squeeze s) fun _ => True

variable {T : Transcript c} (d : Codec F G)

/-- The bytes can be read as `ks`; nothing needs to be known about them for partial correctness. -/
def Supply (ks : List Kind) (b : List UInt8) : Prop := d.Parses ks b ∨ L.Partial

/-- `a` is an outcome of `x` as far as can be told: it satisfies everything that is guaranteed of `x`. -/
def Result {α : Type} (x : c.m α) (a : α) : Prop := ∀ post : α → Prop, L.Ens x post → post a

variable {L} in
theorem result {α : Type} {x : c.m α} {post : α → Prop} (h : L.Ens x post) : L.Ens x fun a => post a ∧ L.Result x a := by
  haveI : Nonempty { post : α → Prop // L.Ens x post } := ⟨⟨post, h⟩⟩
  exact L.mono (L.all (ι := { post : α → Prop // L.Ens x post }) (Q := fun q a => q.1 a) fun q => q.2) fun a ha =>
    ⟨ha ⟨post, h⟩, fun q hq => ha ⟨q, hq⟩⟩

/-- The events, in order, are what the bytes between `b` and `b'` decode to and what takes the hash from `st` to `st'`: every value
is absorbed when it appears, and every challenge is squeezed from the hash of everything before it. -/
inductive Took : List UInt8 → T.St → List (Event c.P c.S) → List UInt8 → T.St → Prop
  | nil {b st} : Took b st [] b st
  | point {b st p evs b' st'} (P b1 st1) (h : d.readPoint b = some (P, b1)) (hp : L.pwit p P)
      (ha : L.Result (T.commonPoint st p) st1) (ht : Took b1 st1 evs b' st') : Took b st (.point p :: evs) b' st'
  | scalar {b st s evs b' st'} (k b1 st1) (h : d.readScalar b = some (k, b1)) (hp : L.wit s k)
      (ha : L.Result (T.commonScalar st s) st1) (ht : Took b1 st1 evs b' st') : Took b st (.scalar s :: evs) b' st'
  | commonPoint {b st p evs b' st'} (st1) (ha : L.Result (T.commonPoint st p) st1) (ht : Took b st1 evs b' st') :
      Took b st (.commonPoint p :: evs) b' st'
  | commonScalar {b st s evs b' st'} (st1) (ha : L.Result (T.commonScalar st s) st1) (ht : Took b st1 evs b' st') :
      Took b st (.commonScalar s :: evs) b' st'
  | challenge {b st s evs b' st'} (st1) (ha : L.Result (T.squeeze st) (s, st1)) (ht : Took b st1 evs b' st') :
      Took b st (.challenge s :: evs) b' st'

variable {L d} in
theorem Took.append {evs evs' : List (Event c.P c.S)} {b b' b'' : List UInt8} {st st' st'' : T.St} (h : L.Took d b st evs b' st')
    (h' : L.Took d b' st' evs' b'' st'') : L.Took d b st (evs ++ evs') b'' st'' := by
  induction h with
  | nil => exact h'
  | point P b1 st1 h hp ha _ ih => exact .point P b1 st1 h hp ha (ih h')
  | scalar P b1 st1 h hp ha _ ih => exact .scalar P b1 st1 h hp ha (ih h')
  | commonPoint st1 ha _ ih => exact .commonPoint st1 ha (ih h')
  | commonScalar st1 ha _ ih => exact .commonScalar st1 ha (ih h')
  | challenge st1 ha _ ih => exact .challenge st1 ha (ih h')

/-- `x` takes values of the kinds `ks` from the bytes, and ends with result `a` after the events `evs` with `post a evs`. -/
def Reads {α : Type} (ks : List Kind) (x : Rd T α) (post : α → List (Event c.P c.S) → Prop) : Prop :=
  ∀ s more, L.Supply d (ks ++ more) s.bytes →
    L.Ens (x s) fun r => L.Supply d more r.2.bytes ∧ ∃ evs, r.2.trace = s.trace ++ evs ∧ L.Took d s.bytes s.st evs r.2.bytes r.2.st ∧ post r.1 evs

namespace Reads
variable {L d} {α β : Type}

theorem ret {a : α} {post : α → List (Event c.P c.S) → Prop} (h : post a []) : L.Reads (T := T) d [] (Pure.pure a : Rd T α) post :=
  fun s more hs => L.pure ⟨hs, [], by simp, .nil, h⟩

theorem bind {ks ks' : List Kind} {x : Rd T α} {f : α → Rd T β} {Q : α → List (Event c.P c.S) → Prop}
    {R : β → List (Event c.P c.S) → Prop} (hx : L.Reads d ks x Q)
    (hf : ∀ a evs, Q a evs → L.Reads d ks' (f a) fun b evs' => R b (evs ++ evs')) : L.Reads d (ks ++ ks') (x >>= f) R := by
  intro s more hs
  rw [List.append_assoc] at hs
  refine L.bind (hx s _ hs) fun r hr => ?_
  obtain ⟨h1, evs, h2, t1, h3⟩ := hr
  refine L.mono (hf r.1 evs h3 r.2 more h1) fun r' hr' => ?_
  obtain ⟨h4, evs', h5, t2, h6⟩ := hr'
  exact ⟨h4, evs ++ evs', by rw [h5, h2, List.append_assoc], t1.append t2, h6⟩

theorem mono {ks : List Kind} {x : Rd T α} {Q R : α → List (Event c.P c.S) → Prop} (hx : L.Reads d ks x Q)
    (h : ∀ a evs, Q a evs → R a evs) : L.Reads d ks x R :=
  fun s more hs => L.mono (hx s more hs) fun _ ⟨h1, evs, h2, t, h3⟩ => ⟨h1, evs, h2, t, h _ _ h3⟩

theorem kinds {ks ks' : List Kind} {x : Rd T α} {Q : α → List (Event c.P c.S) → Prop} (hx : L.Reads d ks x Q) (h : ks' = ks) :
    L.Reads d ks' x Q := h ▸ hx

/-- `bind` when the second part takes nothing from the bytes. -/
theorem bind0 {ks : List Kind} {x : Rd T α} {f : α → Rd T β} {Q : α → List (Event c.P c.S) → Prop}
    {R : β → List (Event c.P c.S) → Prop} (hx : L.Reads d ks x Q)
    (hf : ∀ a evs, Q a evs → L.Reads d [] (f a) fun b evs' => R b (evs ++ evs')) : L.Reads d ks (x >>= f) R :=
  (bind hx hf).kinds (List.append_nil _).symm

/-- `bind` when the first part takes nothing. -/
theorem bind0' {ks : List Kind} {x : Rd T α} {f : α → Rd T β} {Q : α → List (Event c.P c.S) → Prop}
    {R : β → List (Event c.P c.S) → Prop} (hx : L.Reads d [] x Q)
    (hf : ∀ a evs, Q a evs → L.Reads d ks (f a) fun b evs' => R b (evs ++ evs')) : L.Reads d ks (x >>= f) R :=
  bind hx hf

theorem lift {x : c.m α} {post : α → Prop} (hx : L.Ens x post) : L.Reads (T := T) d [] (Rd.lift x) fun a evs => post a ∧ evs = [] :=
  fun s _ hs => L.bind hx fun a ha => L.pure ⟨hs, [], by simp, .nil, ha, rfl⟩

variable (hT : L.Safe T)
include hT

theorem commonPoint (p : c.P) : L.Reads (T := T) d [] (Rd.commonPoint p) fun _ evs => evs = [.commonPoint p] :=
  fun s _ hs => L.bind (result (hT.commonPoint _ _)) fun st h => L.pure ⟨hs, _, rfl, .commonPoint _ h.2 .nil, rfl⟩

theorem commonScalar (k : c.S) : L.Reads (T := T) d [] (Rd.commonScalar k) fun _ evs => evs = [.commonScalar k] :=
  fun s _ hs => L.bind (result (hT.commonScalar _ _)) fun st h => L.pure ⟨hs, _, rfl, .commonScalar _ h.2 .nil, rfl⟩

theorem squeeze : L.Reads (T := T) d [] Rd.squeeze fun k evs => evs = [.challenge k] :=
  fun s _ hs => L.bind (result (hT.squeeze _)) fun st h => L.pure ⟨hs, _, rfl, .challenge _ h.2 .nil, rfl⟩

theorem acceptPoint (P : G) (s : Reader T) : L.Ens (Rd.acceptPoint P s) fun r =>
    r.2.bytes = s.bytes ∧ r.2.trace = s.trace ++ [.point r.1] ∧ L.pwit r.1 P ∧ L.Result (T.commonPoint s.st r.1) r.2.st := by
  refine L.bind (Q := fun r => r.2 = s ∧ L.pwit r.1 P) (L.bind (L.pAssignVar P) fun p hp => L.pure ⟨rfl, hp⟩) fun r hr => ?_
  obtain ⟨p, s'⟩ := r
  obtain ⟨rfl, hp⟩ := hr
  refine L.bind (Q := fun r => r.2.bytes = s'.bytes ∧ r.2.trace = s'.trace ++ [.point p] ∧ L.Result (T.commonPoint s'.st p) r.2.st) ?_
    fun r' hr' => L.pure ⟨hr'.1, hr'.2.1, hp, hr'.2.2⟩
  exact L.bind (result (hT.commonPoint _ _)) fun st h => L.pure ⟨rfl, rfl, h.2⟩

theorem acceptScalar (k : F) (s : Reader T) : L.Ens (Rd.acceptScalar k s) fun r =>
    r.2.bytes = s.bytes ∧ r.2.trace = s.trace ++ [.scalar r.1] ∧ L.wit r.1 k ∧ L.Result (T.commonScalar s.st r.1) r.2.st := by
  refine L.bind (Q := fun r => r.2 = s ∧ L.wit r.1 k) (L.bind (L.assignVar k) fun p hp => L.pure ⟨rfl, hp⟩) fun r hr => ?_
  obtain ⟨p, s'⟩ := r
  obtain ⟨rfl, hp⟩ := hr
  refine L.bind (Q := fun r => r.2.bytes = s'.bytes ∧ r.2.trace = s'.trace ++ [.scalar p] ∧ L.Result (T.commonScalar s'.st p) r.2.st) ?_
    fun r' hr' => L.pure ⟨hr'.1, hr'.2.1, hp, hr'.2.2⟩
  exact L.bind (result (hT.commonScalar _ _)) fun st h => L.pure ⟨rfl, rfl, h.2⟩

theorem readPoint : L.Reads (T := T) d [.point] (Rd.readPoint d) fun p evs => evs = [.point p] := by
  intro s more hs
  have hdef : (Rd.readPoint d : Rd T c.P) s = (Rd.nextPoint d s >>= fun r => (match r.1 with
    | none => Rd.fail
    | some P => Rd.acceptPoint P : Rd T c.P) r.2) := rfl
  rw [hdef, Rd.nextPoint]
  rcases hs with hs | hs
  · obtain ⟨P, rest, h1, h2⟩ := hs
    rw [h1]
    refine L.bind (L.pure (Q := fun r => r = (some P, ⟨rest, s.st, s.trace⟩)) rfl) fun r hr => ?_
    subst hr
    refine L.mono (acceptPoint hT P ⟨rest, s.st, s.trace⟩) fun r hr => ?_
    exact ⟨.inl (hr.1 ▸ h2), _, hr.2.1, by
      have := Took.point (evs := []) P rest _ h1 hr.2.2.1 hr.2.2.2 .nil
      rwa [← show r.2.bytes = rest from hr.1] at this, rfl⟩
  · split
    · next h1 =>
      refine L.bind (L.pure (Q := fun r => r = (none, s)) rfl) fun r hr => ?_
      subst hr
      exact hs.panic _
    · next P rest h1 =>
      refine L.bind (L.pure (Q := fun r => r = (some P, ⟨rest, s.st, s.trace⟩)) rfl) fun r hr => ?_
      subst hr
      refine L.mono (acceptPoint hT P ⟨rest, s.st, s.trace⟩) fun r hr => ?_
      exact ⟨.inr hs, _, hr.2.1, by
      have := Took.point (evs := []) P rest _ h1 hr.2.2.1 hr.2.2.2 .nil
      rwa [← show r.2.bytes = rest from hr.1] at this, rfl⟩

theorem readScalar : L.Reads (T := T) d [.scalar] (Rd.readScalar d) fun p evs => evs = [.scalar p] := by
  intro s more hs
  have hdef : (Rd.readScalar d : Rd T c.S) s = (Rd.nextScalar d s >>= fun r => (match r.1 with
    | none => Rd.fail
    | some P => Rd.acceptScalar P : Rd T c.S) r.2) := rfl
  rw [hdef, Rd.nextScalar]
  rcases hs with hs | hs
  · obtain ⟨P, rest, h1, h2⟩ := hs
    rw [h1]
    refine L.bind (L.pure (Q := fun r => r = (some P, ⟨rest, s.st, s.trace⟩)) rfl) fun r hr => ?_
    subst hr
    refine L.mono (acceptScalar hT P ⟨rest, s.st, s.trace⟩) fun r hr => ?_
    exact ⟨.inl (hr.1 ▸ h2), _, hr.2.1, by
      have := Took.scalar (evs := []) P rest _ h1 hr.2.2.1 hr.2.2.2 .nil
      rwa [← show r.2.bytes = rest from hr.1] at this, rfl⟩
  · split
    · next h1 =>
      refine L.bind (L.pure (Q := fun r => r = (none, s)) rfl) fun r hr => ?_
      subst hr
      exact hs.panic _
    · next P rest h1 =>
      refine L.bind (L.pure (Q := fun r => r = (some P, ⟨rest, s.st, s.trace⟩)) rfl) fun r hr => ?_
      subst hr
      refine L.mono (acceptScalar hT P ⟨rest, s.st, s.trace⟩) fun r hr => ?_
      exact ⟨.inr hs, _, hr.2.1, by
      have := Took.scalar (evs := []) P rest _ h1 hr.2.2.1 hr.2.2.2 .nil
      rwa [← show r.2.bytes = rest from hr.1] at this, rfl⟩

omit hT

/-- Repeating: `n` results, and the events of each in order. -/
theorem times {ks : List Kind} {x : Rd T α} {Q : α → Prop} {E : α → List (Event c.P c.S)}
    (hx : L.Reads d ks x fun a evs => Q a ∧ evs = E a) : ∀ n, L.Reads d ((List.replicate n ks).flatten) (Rd.times x n) fun l evs =>
      (l.length = n ∧ ∀ a ∈ l, Q a) ∧ evs = l.flatMap E
  | 0 => ret ⟨⟨rfl, by simp⟩, rfl⟩
  | n + 1 => (bind hx fun a evs h => bind0 (times hx n) fun l evs' h' => ret ⟨⟨by simp [h'.1.1], by
      simpa using ⟨h.1, h'.1.2⟩⟩, by rw [h.2, h'.2]; simp⟩).kinds (by rw [List.replicate_succ, List.flatten_cons])

theorem each {f : α → Rd T β} {ks : α → List Kind} {Q : α → β → Prop} {E : β → List (Event c.P c.S)} :
    ∀ l : List α, (∀ a ∈ l, L.Reads d (ks a) (f a) fun b evs => Q a b ∧ evs = E b) →
    L.Reads d (l.flatMap ks) (Rd.each f l) fun r evs => List.Forall₂ Q l r ∧ evs = r.flatMap E
  | [], _ => ret ⟨.nil, rfl⟩
  | a :: l, h => (bind (h a (by simp)) fun b evs hb => bind0 (each l fun a' ha' => h a' (by simp [ha'])) fun r evs' hr => by
      exact ret ⟨.cons hb.1 hr.1, by rw [hb.2, hr.2]; simp⟩).kinds (by rw [List.flatMap_cons])

theorem readPoint_shorter {b rest : List UInt8} {P : G} (hd : 0 < d.pointLen) (h : d.readPoint b = some (P, rest)) : rest.length < b.length := by
  unfold Codec.readPoint at h
  split at h
  · exact absurd h (by simp)
  · next hb =>
    rw [Option.map_eq_some_iff] at h
    obtain ⟨P', _, h2⟩ := h
    rw [Prod.mk.injEq] at h2
    rw [← h2.2, List.length_drop]
    omega

/-- The loop reads the points up to the first failure. -/
theorem readAll (hT : L.Safe T) (hd : 0 < d.pointLen) (m : ℕ) :
    L.Reads (T := T) d (List.replicate m .point ++ [.stop]) (fun s => Rd.readAll d s.bytes.length s) fun l evs =>
      (l.length = m ∨ L.Partial) ∧ evs = l.map .point := by
  have key : ∀ n (s : Reader T) m, s.bytes.length ≤ n → (d.Parses (List.replicate m .point ++ [.stop]) s.bytes ∨ L.Partial) →
      L.Ens (Rd.readAll d n s) fun r => ∃ evs, r.2.trace = s.trace ++ evs ∧ L.Took d s.bytes s.st evs r.2.bytes r.2.st ∧
        (r.1.length = m ∨ L.Partial) ∧ evs = r.1.map .point := by
    intro n
    induction n with
    | zero =>
      intro s m hn hs
      refine L.pure ⟨[], by simp, .nil, ?_, rfl⟩
      refine hs.imp (fun hs => ?_) id
      have hb : s.bytes = [] := List.eq_nil_of_length_eq_zero (by omega)
      cases m with
      | zero => rfl
      | succ m =>
        obtain ⟨P, rest, h1, _⟩ := hs
        rw [hb] at h1
        have := readPoint_shorter hd h1
        simp at this
    | succ n ih =>
      intro s m hn hs
      have hdef : (Rd.readAll d (n + 1) : Rd T (List c.P)) s = (Rd.nextPoint d s >>= fun r => (match r.1 with
        | none => Pure.pure []
        | some P => Rd.acceptPoint P >>= fun p => Rd.readAll d n >>= fun l => Pure.pure (p :: l) : Rd T (List c.P)) r.2) := rfl
      rw [hdef, Rd.nextPoint]
      split
      · next h1 =>
        refine L.bind (L.pure (Q := fun r => r = (none, s)) rfl) fun r hr => ?_
        subst hr
        refine L.pure ⟨[], by simp, .nil, ?_, rfl⟩
        refine hs.imp (fun hs => ?_) id
        cases m with
        | zero => rfl
        | succ m =>
          obtain ⟨P, rest, h2, _⟩ := hs
          rw [h1] at h2
          exact absurd h2 (by simp)
      · next P rest h1 =>
        refine L.bind (L.pure (Q := fun r => r = (some P, ⟨rest, s.st, s.trace⟩)) rfl) fun r hr => ?_
        subst hr
        have hlen := readPoint_shorter hd h1
        refine L.bind (acceptPoint hT P ⟨rest, s.st, s.trace⟩) fun r hr => ?_
        replace hr : r.2.bytes = rest ∧ r.2.trace = s.trace ++ [.point r.1] ∧ L.pwit r.1 P ∧
          L.Result (T.commonPoint s.st r.1) r.2.st := hr
        have hs' : d.Parses (List.replicate (m - 1) .point ++ [.stop]) r.2.bytes ∧ 1 ≤ m ∨ L.Partial := by
          refine hs.imp (fun hs => ?_) id
          cases m with
          | zero =>
            have h2 : d.readPoint s.bytes = none := hs.1
            rw [h1] at h2
            exact absurd h2 (by simp)
          | succ m =>
            obtain ⟨P', rest', h2, h3⟩ := hs
            rw [h1, Option.some.injEq, Prod.mk.injEq] at h2
            rw [hr.1, h2.2]
            exact ⟨h3, by omega⟩
        refine L.bind (ih r.2 (m - 1) (by rw [hr.1]; omega) (hs'.imp And.left id)) fun r' hr' => L.pure ?_
        obtain ⟨evs, h4, t, h5, h6⟩ := hr'
        refine ⟨Event.point r.1 :: evs, by rw [h4, hr.2.1, List.append_assoc]; rfl, 
          .point P rest _ h1 hr.2.2.1 hr.2.2.2 (hr.1 ▸ t), ?_, by rw [h6]; rfl⟩
        rcases hs' with hs' | hs'
        · refine h5.imp (fun h5 => ?_) id
          simp only [List.length_cons, h5]
          omega
        · exact .inr hs'
  intro s more hs
  have hs' : d.Parses (List.replicate m .point ++ [.stop]) s.bytes ∧ more = [] ∨ L.Partial := by
    refine hs.imp (fun h => ?_) id
    clear hs key
    revert h
    generalize s.bytes = b
    induction m generalizing b with
    | zero => exact fun h => ⟨⟨h.1, rfl⟩, h.2⟩
    | succ m ih =>
      rintro ⟨P, rest, h1, h2⟩
      obtain ⟨h3, h4⟩ := ih rest h2
      exact ⟨⟨P, rest, h1, h3⟩, h4⟩
  refine L.mono (key _ s m le_rfl (hs'.imp And.left id)) fun r hr => ?_
  obtain ⟨evs, h1, h2⟩ := hr
  refine ⟨?_, evs, h1, h2⟩
  exact hs'.imp (fun h => by rw [h.2]; trivial) id

end Reads

/-! ### Partial correctness of the two chips -/

theorem circuit_partial (adv : Circuit.Advice Circuit.N) : (circuitLogic adv).Partial where
  triv _ := fun _ _ _ _ _ => trivial
  panic _ := fun _ _ _ h _ => absurd h (by simp [circuitChip, Build.of])

theorem mock_partial (gen : G) : (mockPartial F gen).Partial where
  triv _ := fun _ _ => trivial
  panic _ := fun _ h => absurd h (by simp [mock])

end Logic
end Verif.Api
