import Verif.Sol.Syntax
import Verif.Api.Verify
import Verif.Api.Poseidon

/-!
# The code generator

`halo2-snark-aggregator-solidity/src`: the chips that record a program instead of computing (`chips/scalar_chip.rs`, `chips/ecc_chip.rs`,
`chips/encode_chip.rs`), the recording context (`code_generator/ctx.rs`), the transcript (`transcript/codegen.rs`) and the entry point
`call` (`lib.rs`).

The generator runs the generic verifier of `Verif.Api` once, on a sample proof. Every assigned value carries an expression and the sample
value; constants are marked. The sample values end up in comments, but they decide about panics, so they are part of the model.

A computation of the generator is a function on contexts together with the fact that it only adds statements (`Grows`); the operations are
built from a few primitives for which that is shown. Likewise the marks and the forms of expressions are part of the types of the assigned
values: a value marked as a constant is a literal.

Simplifications. `var_buf` is only written to and is left out. `enter_transcript` and `exit_transcript` surround the calls of
`assign_var` in the reader (codegen.rs:139-141, 170-172) and `enter_instance`, `exit_instance` the one of `assign_instance_commitment`
(lib.rs:209-219); those are the only calls of `assign_var` but for those of `encode_point`, which get a `TmpBufOffset`. So one flag is kept.
-/

namespace Verif.Sol
open Verif.Circuit Verif.Ecc

/-! ### The context -/

/-- ctx.rs:568-585. The values of `cache_assign` are always `Memory(o, key.get_type())`, of which `o` is kept. -/
structure Ctx where
  absorbing : ℕ
  maxAbsorbing : ℕ
  memory : ℕ
  transcript : ℕ
  inst : ℕ
  tmp : ℕ
  stmts : List Stmt
  cache : List (Expr × ℕ)
  mock : Bool
  inInstance : Bool

/-- ctx.rs:634-653. -/
def Ctx.new : Ctx := ⟨0, 0, 0, 0, 0, 0, [], [], false, false⟩

/-- `allocate` and `assign_memory`: ctx.rs:655-675. -/
def Ctx.assignMemory (k : Ctx) (e : Expr) : ℕ × Ctx :=
  match k.cache.find? fun x => x.1 = e with
  | some x => (x.2, k)
  | none =>
    if k.mock then (k.memory, { k with memory := k.memory + e.type.len })
    else (k.memory, { k with
      memory := k.memory + e.type.len
      cache := (e, k.memory) :: k.cache
      stmts := k.stmts ++ [.assign (.memory k.memory e.type) e] })

/-- Every cached expression is assigned to its location. -/
def Ctx.Cached (k : Ctx) : Prop := ∀ x ∈ k.cache, .assign (.memory x.2 x.1.type) x.1 ∈ k.stmts

/-- Statements are only added, and none while the hash is simulated. -/
structure Grows (k k' : Ctx) : Prop where
  mock : k'.mock = k.mock
  memory : k.memory ≤ k'.memory
  stmts : k.stmts <+: k'.stmts
  still : k.mock = true → k' = { k with memory := k'.memory }
  cached : k.Cached → k'.Cached
  absorbed : max k.absorbing k.maxAbsorbing ≤ max k'.absorbing k'.maxAbsorbing

theorem Grows.refl (k : Ctx) : Grows k k := ⟨rfl, le_rfl, List.prefix_rfl, fun _ => rfl, id, le_rfl⟩

theorem Grows.trans {a b c : Ctx} (h : Grows a b) (h' : Grows b c) : Grows a c where
  mock := h'.mock.trans h.mock
  memory := h.memory.trans h'.memory
  stmts := h.stmts.trans h'.stmts
  still hm := by
    have h1 := h.still hm
    rw [h'.still (h.mock.trans hm), h1]
  cached := h'.cached ∘ h.cached
  absorbed := h.absorbed.trans h'.absorbed

theorem Ctx.Cached.push {k : Ctx} (h : k.Cached) {e : Expr} {o m : ℕ} :
    Ctx.Cached { k with memory := m, cache := (e, o) :: k.cache, stmts := k.stmts ++ [.assign (.memory o e.type) e] } := by
  intro x hx
  rcases List.mem_cons.1 hx with rfl | hx
  · exact List.mem_append_right _ (List.mem_singleton.2 rfl)
  · exact List.mem_append_left _ (h x hx)

theorem Ctx.assignMemory_grows (k : Ctx) (e : Expr) : Grows k (k.assignMemory e).2 := by
  unfold Ctx.assignMemory
  split
  · exact .refl k
  · split
    · exact ⟨rfl, Nat.le_add_right .., List.prefix_rfl, fun _ => rfl, id, le_rfl⟩
    · next hm => exact ⟨rfl, Nat.le_add_right .., List.prefix_append .., fun h => absurd h hm, fun h => h.push, le_rfl⟩

/-! ### Computations -/

/-- A computation of the generator; `none` is a panic. -/
def Gen (α : Type) : Type := { f : Ctx → Option (α × Ctx) // ∀ k a k', f k = some (a, k') → Grows k k' }

namespace Gen

def ret {α : Type} (a : α) : Gen α := ⟨fun k => some (a, k), fun k b k' h => by cases h; exact .refl k⟩

def andThen {α β : Type} (x : Gen α) (f : α → Gen β) : Gen β :=
  ⟨fun k => (x.1 k).bind fun r => (f r.1).1 r.2, fun k b k' h => by
    obtain ⟨r, h1, h2⟩ := Option.bind_eq_some_iff.1 h
    exact (x.2 k r.1 r.2 h1).trans ((f r.1).2 _ _ _ h2)⟩

instance : Monad Gen where
  pure := ret
  bind := andThen

def fail {α : Type} : Gen α := ⟨fun _ => none, fun _ _ _ h => by cases h⟩

/-- The location of the expression. -/
def assignMemory (e : Expr) : Gen ℕ := ⟨fun k => some (k.assignMemory e), fun k a k' h => by
  have := k.assignMemory_grows e
  rw [Option.some.inj h] at this
  exact this⟩

/-- An operation on the context that does not happen while the hash is simulated. It leaves the cache alone and adds statements. -/
def step {α : Type} (a : Ctx → α) (f : Ctx → Ctx) (h : ∀ k, (f k).mock = k.mock ∧ k.memory ≤ (f k).memory ∧ k.stmts <+: (f k).stmts ∧
    (f k).cache = k.cache ∧ k.absorbing ≤ (f k).absorbing ∧ (f k).maxAbsorbing = k.maxAbsorbing) : Gen α :=
  ⟨fun k => if k.mock then none else some (a k, f k), fun k b k' hk => by
    obtain ⟨h1, h2, h3, h4, h5, h6⟩ := h k
    dsimp only at hk
    split at hk
    · cases hk
    · next hm =>
      cases hk
      exact ⟨h1, h2, h3, fun h => absurd h hm, fun hc x hx => h3.subset (hc x (h4 ▸ hx)), h6 ▸ max_le_max h5 le_rfl⟩⟩

/-- ctx.rs:677-687. `new_transcript_var` or `new_instance_var`. -/
def newVar (t : Ty) : Gen Expr :=
  step (fun k => if k.inInstance then .inst k.inst t else .transcript k.transcript t)
    (fun k => if k.inInstance then { k with inst := k.inst + t.len } else { k with transcript := k.transcript + t.len })
    fun k => by split <;> exact ⟨rfl, le_rfl, List.prefix_rfl, rfl, le_rfl, rfl⟩

/-- `new_tmp_var`: ctx.rs:689-693. -/
def newTmp : Gen Expr := step (fun k => .tmpBuf k.tmp .scalar) (fun k => { k with tmp := k.tmp + 1 }) fun _ => ⟨rfl, le_rfl, List.prefix_rfl, rfl, le_rfl, rfl⟩

/-- `update`, and the new offset: ctx.rs:621-624; codegen.rs:77-78, 92-93. -/
def update (e : Expr) (delta : ℕ) : Gen Unit :=
  step (fun _ => ()) (fun k => { k with stmts := k.stmts ++ [.updateHash e k.absorbing], absorbing := k.absorbing + delta })
    fun _ => ⟨rfl, le_rfl, List.prefix_append .., rfl, Nat.le_add_right .., rfl⟩

/-- `enter_instance`, `exit_instance`: ctx.rs:600-606. -/
def setInstance (b : Bool) : Gen Unit := step (fun _ => ()) (fun k => { k with inInstance := b }) fun _ => ⟨rfl, le_rfl, List.prefix_rfl, rfl, le_rfl, rfl⟩

end Gen

/-! ### Assigned values -/

/-- The forms the expression of a scalar can have. -/
def Expr.SForm : Expr → Prop
  | .memory _ t | .transcript _ t | .inst _ t | .tmpBuf _ t => t = .scalar
  | .scalar n => n < frMod
  | .mulAdd l r c t => l.SForm ∧ r.SForm ∧ c.SForm ∧ t = .scalar
  | _ => False

/-- The forms the expression of a point can have. -/
def Expr.PForm : Expr → Prop
  | .memory _ t | .transcript _ t | .inst _ t => t = .point
  | .point x y => x < fqMod ∧ y < fqMod
  | _ => False

/-- scalar_chip.rs:10-15. -/
structure SVal where
  expr : Expr
  v : N
  isConst : Bool
  form : expr.SForm
  lit : isConst = true → expr = .scalar v.val

/-- `Expression::Point` of a point: ecc_chip.rs:13-19. -/
def pointExpr (P : Pt) : Expr := .point (coordX P).val (coordY P).val

/-- ecc_chip.rs:21-26. -/
structure PVal where
  expr : Expr
  v : Pt
  isConst : Bool
  form : expr.PForm
  lit : isConst = true → expr = pointExpr v

/-- scalar_chip.rs:99-112. -/
def SVal.const (k : N) : SVal := ⟨.scalar k.val, k, true, ZMod.val_lt k, fun _ => rfl⟩

/-- ecc_chip.rs:113-125. -/
def PVal.const (P : Pt) : PVal := ⟨pointExpr P, P, true, ⟨ZMod.val_lt _, ZMod.val_lt _⟩, fun _ => rfl⟩

/-- The end of the scalar operations: `ctx.assign_memory` and the result. `is_const` is `a.is_const && b.is_const`, which is false here
because that case returned before. -/
def Gen.scalar (e : Expr) (v : N) : Gen SVal := do
  let o ← Gen.assignMemory e
  return ⟨.memory o .scalar, v, false, rfl, nofun⟩

open Classical in
/-- The end of the point operations. The sample coordinates are unwrapped, so the sample must not be the identity. -/
noncomputable def Gen.point (e : Expr) (v : Pt) : Gen PVal :=
  if v = 0 then Gen.fail
  else do
    let o ← Gen.assignMemory e
    return ⟨.memory o .point, v, false, rfl, nofun⟩

/-! ### The scalar chip -/

namespace SVal

/-- scalar_chip.rs:37-65. -/
def add (a b : SVal) : Gen SVal :=
  if a.isConst ∧ b.isConst then return const (a.v + b.v)
  else if a.isConst ∧ a.v = 0 then return b
  else if b.isConst ∧ b.v = 0 then return a
  else Gen.scalar (.add a.expr b.expr .scalar) (a.v + b.v)

/-- scalar_chip.rs:67-91. -/
def sub (a b : SVal) : Gen SVal :=
  if a.isConst ∧ b.isConst then return const (a.v - b.v)
  else if b.isConst ∧ b.v = 0 then return a
  else Gen.scalar (.sub a.expr b.expr .scalar) (a.v - b.v)

/-- scalar_chip.rs:154-182. -/
def mul (a b : SVal) : Gen SVal :=
  if a.isConst ∧ b.isConst then return const (a.v * b.v)
  else if a.isConst ∧ a.v = 1 then return b
  else if b.isConst ∧ b.v = 1 then return a
  else Gen.scalar (.mul a.expr b.expr .scalar) (a.v * b.v)

/-- scalar_chip.rs:184-208. `invert().unwrap()` panics for a sample that is zero. -/
def div (a b : SVal) : Gen SVal :=
  if b.v = 0 then Gen.fail
  else if a.isConst ∧ b.isConst then return const (a.v * b.v⁻¹)
  else if b.isConst ∧ b.v = 1 then return a
  else Gen.scalar (.div a.expr b.expr .scalar) (a.v * b.v⁻¹)

/-- scalar_chip.rs:210-228. -/
def square (a : SVal) : Gen SVal :=
  if a.isConst then return const (a.v * a.v)
  else Gen.scalar (.mul a.expr a.expr .scalar) (a.v * a.v)

/-- scalar_chip.rs:237-241. -/
def sumLoop : List (SVal × N) → SVal → Gen SVal
  | [], acc => return acc
  | (x, k) :: l, acc => do
    let m ← x.mul (const k)
    let acc ← acc.add m
    sumLoop l acc

/-- scalar_chip.rs:245-264: not assigned to a location, and never marked. -/
def mulAddConstant (a b : SVal) (k : N) : SVal :=
  ⟨.mulAdd a.expr b.expr (.scalar k.val) .scalar, a.v * b.v + k, false, ⟨a.form, b.form, ZMod.val_lt k, rfl⟩, nofun⟩

end SVal

/-- scalar_chip.rs:114-134. -/
def Gen.scalarVar (k : N) : Gen SVal :=
  ⟨fun c => ((Gen.newVar .scalar).1 c).map fun r => (⟨if c.inInstance then .inst c.inst .scalar else .transcript c.transcript .scalar, k, false,
      by split <;> rfl, nofun⟩, r.2), fun c a c' h => by
    obtain ⟨r, h1, h2⟩ := Option.map_eq_some_iff.1 h
    cases h2
    exact (Gen.newVar .scalar).2 c r.1 r.2 h1⟩

/-- ecc_chip.rs:127-154. -/
def Gen.pointVar (P : Pt) : Gen PVal :=
  ⟨fun c => ((Gen.newVar .point).1 c).map fun r => (⟨if c.inInstance then .inst c.inst .point else .transcript c.transcript .point, P, false,
      by split <;> rfl, nofun⟩, r.2), fun c a c' h => by
    obtain ⟨r, h1, h2⟩ := Option.map_eq_some_iff.1 h
    cases h2
    exact (Gen.newVar .point).2 c r.1 r.2 h1⟩

/-- `nchip.assign_var` in `encode_point`: encode_chip.rs:39-40, scalar_chip.rs:123-126. -/
def Gen.tmpVar (k : N) : Gen SVal :=
  ⟨fun c => (Gen.newTmp.1 c).map fun r => (⟨.tmpBuf c.tmp .scalar, k, false, rfl, nofun⟩, r.2), fun c a c' h => by
    obtain ⟨r, h1, h2⟩ := Option.map_eq_some_iff.1 h
    cases h2
    exact Gen.newTmp.2 c r.1 r.2 h1⟩

/-! ### The point chip -/

namespace PVal

/-- ecc_chip.rs:47-74. -/
noncomputable def add (a b : PVal) : Gen PVal :=
  if a.isConst ∧ b.isConst then return const (a.v + b.v)
  else Gen.point (.add a.expr b.expr .point) (a.v + b.v)

/-- ecc_chip.rs:76-103. -/
noncomputable def sub (a b : PVal) : Gen PVal :=
  if a.isConst ∧ b.isConst then return const (a.v - b.v)
  else Gen.point (.sub a.expr b.expr .point) (a.v - b.v)

/-- ecc_chip.rs:180-207. -/
noncomputable def mul (s : SVal) (p : PVal) : Gen PVal :=
  if s.isConst ∧ p.isConst then return const (s.v • p.v)
  else Gen.point (.mul s.expr p.expr .point) (s.v • p.v)

/-- ecc_chip.rs:209-238. -/
noncomputable def mulConstant (s : SVal) (P : Pt) : Gen PVal :=
  if s.isConst then return const (s.v • P)
  else Gen.point (.mul s.expr (pointExpr P) .point) (s.v • P)

/-- The default `multi_exp`, which is not overridden: arith/ecc.rs:42-61. -/
noncomputable def multiExp : Option PVal → List PVal → List SVal → Gen PVal
  | acc, p :: ps, s :: ss => do
    let cur ← mul s p
    match acc with
    | none => multiExp (some cur) ps ss
    | some a => do
      let a ← a.add cur
      multiExp (some a) ps ss
  | some acc, _, _ => return acc
  | none, _, _ => Gen.fail

end PVal

/-- The two chips. -/
noncomputable def genChip : Api.Chip N Pt where
  m := Gen
  monad := inferInstance
  S := SVal
  P := PVal
  panic := Gen.fail
  add := SVal.add
  sub := SVal.sub
  mul := SVal.mul
  div := SVal.div
  square := SVal.square
  sumWithCoeff l k := SVal.sumLoop l (.const k)
  mulAddConstant a b k := return a.mulAddConstant b k
  assignZero := return .const 0
  assignOne := return .const 1
  assignConst k := return .const k
  assignVar := Gen.scalarVar
  toValue s := return s.v
  pAdd := PVal.add
  pSub := PVal.sub
  pAssignZero := return .const 0
  pAssignOne := return .const gen
  pAssignConst P := return .const P
  pAssignVar := Gen.pointVar
  normalize a := return a
  scalarMul := PVal.mul
  scalarMulConstant := PVal.mulConstant
  multiExp := PVal.multiExp none

/-! ### The transcript -/

/-- The Poseidon sponge, which is simulated for nothing but its effect on the context, and the reader with the sample challenges. -/
structure HashSt (rate : ℕ) where
  sponge : Api.Sponge SVal rate
  sha : List UInt8

/-- codegen.rs:191-214 with ctx.rs:608-620. `enter_hash` is not called twice without the call in between. The result is not marked as a
constant: the sponge ends with `mul_add_constant`, see `squeeze_live`. -/
noncomputable def Gen.squeeze {rate : ℕ} (K : Digest) (ps : Api.PoseidonSpec N rate) (st : HashSt rate) : Gen (SVal × HashSt rate) :=
  ⟨fun k =>
    if k.mock then none
    else ((Api.spongeSqueeze genChip ps st.sponge : Gen _).1 { k with mock := true }).bind fun r =>
      if r.1.1.isConst = true then none
      else
        let k1 := r.2
        let c := shaSqueeze K st.sha
        some ((⟨.memory k1.memory .scalar, c.2, false, rfl, nofun⟩, ⟨r.1.2, c.1⟩), { k1 with
          mock := false
          memory := k1.memory + 1
          stmts := k1.stmts ++ [.assign (.memory k1.memory .scalar) (.hash k1.absorbing)]
          maxAbsorbing := if k1.maxAbsorbing < k1.absorbing then k1.absorbing else k1.maxAbsorbing
          absorbing := 1 }), fun k a k' h => by
    dsimp only at h
    split at h
    · cases h
    · next hm =>
      obtain ⟨r, h1, h2⟩ := Option.bind_eq_some_iff.1 h
      have hg := (Api.spongeSqueeze genChip ps st.sponge : Gen _).2 _ _ _ h1
      have hs := hg.still rfl
      split at h2
      · cases h2
      · cases h2
        have e1 : r.2.stmts = k.stmts := by rw [hs]
        have e2 : r.2.cache = k.cache := by rw [hs]
        refine ⟨by simpa using hm, ?_, ?_, fun h => absurd h hm, fun hc x hx => ?_, ?_⟩
        · exact hg.memory.trans (Nat.le_succ _)
        · simp only [e1]
          exact List.prefix_append ..
        · simp only [e1, e2] at hx ⊢
          exact List.mem_append_left _ (hc x hx)
        · have e3 : r.2.absorbing = k.absorbing := by rw [hs]
          have e4 : r.2.maxAbsorbing = k.maxAbsorbing := by rw [hs]
          dsimp only
          rw [e3, e4]
          split <;> omega⟩

open Classical in
/-- codegen.rs:68-97, 191-214, 216-241. The sample reader (`ShaRead` over Keccak) sees the same; its error for the identity does not
stop `common_point` of the caller (systems/halo2/verify.rs:74-92). -/
noncomputable def codegenTranscript {rate : ℕ} (K : Digest) (ps : Api.PoseidonSpec N rate) : Api.Transcript genChip where
  St := HashSt rate
  commonPoint st p := (do
    let x ← Gen.tmpVar ((coordX p.v).val : N)
    let y ← Gen.tmpVar ((coordY p.v).val : N)
    Gen.update p.expr 3
    return ⟨Api.Sponge.update (c := genChip) st.sponge [x, y], (shaPoint st.sha p.v).getD (st.sha ++ List.replicate 31 0 ++ [1])⟩ : Gen (HashSt rate))
  commonScalar st s := (do
    Gen.update s.expr 2
    return ⟨Api.Sponge.update (c := genChip) st.sponge [s], shaScalar st.sha s.v⟩ : Gen (HashSt rate))
  squeeze := Gen.squeeze K ps

/-! ### The entry point -/

/-- What the generator is called with: the key and parameters, the sample instances and the sample proof. -/
structure Job (rate : ℕ) where
  K : Digest
  ps : Api.PoseidonSpec N rate
  d : Api.Codec N Pt
  vk : Api.VK N Pt
  instances : List (List (List N))
  proof : List UInt8

/-- What a run leaves behind: the instances, their commitments, the two points, the reader. -/
structure Recording {rate : ℕ} (j : Job rate) where
  scalars : List SVal
  commitments : List (List PVal)
  left : PVal
  right : PVal
  reader : Api.Reader (codegenTranscript j.K j.ps)

/-- lib.rs:190-260. -/
noncomputable def Job.record {rate : ℕ} (j : Job rate) : Gen (Recording j) := do
  let sp : Api.Sponge SVal rate ← (Api.spongeNew genChip j.ps : Gen _)
  Gen.setInstance true
  let i : List SVal × List (List PVal) ← (Api.assignInstanceCommitment (c := genChip) j.vk j.instances : Gen _)
  Gen.setInstance false
  let r : (Api.MultiOpen genChip × List PVal) × Api.Reader (codegenTranscript j.K j.ps) ←
    (Api.verifyNoEval (c := genChip) (T := codegenTranscript j.K j.ps) j.d j.vk i.2 "" ⟨j.proof, ⟨sp, []⟩, []⟩ : Gen _)
  let e : PVal × PVal ← (Api.evaluateMultiopen genChip r.1.1 : Gen _)
  return ⟨i.1, i.2, e.1, e.2, r.2⟩

/-- lib.rs:287-302. -/
def Ctx.prog (k : Ctx) (left right : PVal) : Prog := ⟨k.stmts, [left.expr, right.expr], k.memory, max k.absorbing k.maxAbsorbing⟩

/-- The program before it is optimised. -/
noncomputable def Job.generate {rate : ℕ} (j : Job rate) : Option Prog := (j.record.1 Ctx.new).map fun r => r.2.prog r.1.left r.1.right

end Verif.Sol
