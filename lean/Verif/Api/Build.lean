import Verif.Api.Transcript

/-!
# Reading the verifier's parameters from a proof

`VerifierParamsBuilder` in `halo2-snark-aggregator-api/src/systems/halo2/verify.rs`.
-/

namespace Verif.Api

/-! ### Model -/

/-- The column types of `halo2_proofs::plonk::Any`. -/
inductive ColKind where
  | advice
  | fixed
  | instance
deriving DecidableEq

/-- What the code uses of `vk`, `vk.cs()`, `vk.get_domain()` and `params`. `digest` is the scalar made from the verifying key
(verify.rs lines 57-67; the hash and the key's textual form are not modelled). `num_advice_columns` and `num_challenges` are the
lengths of `advice_column_phase` and `challenge_phase`, as halo2 keeps them. -/
structure VK (F G : Type) where
  digest : F
  omega : F
  delta : F
  n : ℕ
  blinding : ℕ
  degree : ℕ
  quotientDegree : ℕ
  phases : List ℕ
  advicePhase : List ℕ
  challengePhase : List ℕ
  numInstance : ℕ
  instanceQueries : List (ℕ × ℤ)
  adviceQueries : List (ℕ × ℤ)
  fixedQueries : List (ℕ × ℤ)
  gates : List (List (Expr F))
  lookups : List (List (Expr F) × List (Expr F))
  permColumns : List (ColKind × ℕ)
  fixedCommitments : List G
  permutationCommitments : List G
  gLagrange : List G

section Model
variable {F G : Type} [Field F] {c : Chip F G} {T : Transcript c}

open Rd

/-- verify.rs lines 153-167. -/
noncomputable def rotateOmega (x : c.S) (omega : F) (at' : ℤ) : c.m c.S := do
  let base ← rotateBase c omega at'
  c.sumWithCoeff [(x, base ^ at'.natAbs)] 0

/-- verify.rs lines 56-72. -/
def initTranscript (vk : VK F G) : Rd T Unit := do
  let k ← lift (c.assignConst vk.digest)
  commonScalar k

/-- verify.rs lines 74-92. Errors of `common_point` are dropped there; they do not arise from the transcripts in use. -/
def absorbInstances (ics : List (List c.P)) : Rd T Unit := do
  let _ ← each (each commonPoint) ics
  return ()

/-- verify.rs lines 362-371, one proof: read the columns of the current phase. -/
def adviceRow (d : Codec F G) (cur : ℕ) : List ℕ → List (Option c.P) → Rd T (List (Option c.P))
  | ph :: phs, o :: row =>
    if cur = ph then do
      let p ← readPoint d
      let r ← adviceRow d cur phs row
      return some p :: r
    else do
      let r ← adviceRow d cur phs row
      return o :: r
  | _, row => return row

/-- verify.rs lines 373-377. -/
def challengeRow (cur : ℕ) : List ℕ → List c.S → Rd T (List c.S)
  | ph :: phs, o :: row =>
    if cur = ph then do
      let p ← squeeze
      let r ← challengeRow cur phs row
      return p :: r
    else do
      let r ← challengeRow cur phs row
      return o :: r
  | _, row => return row

/-- verify.rs lines 360-378. -/
def phaseLoop (d : Codec F G) (vk : VK F G) : List ℕ → List (List (Option c.P)) → List c.S → Rd T (List (List (Option c.P)) × List c.S)
  | [], table, chs => return (table, chs)
  | cur :: phases, table, chs => do
    let table ← each (adviceRow d cur vk.advicePhase) table
    let chs ← challengeRow cur vk.challengePhase chs
    phaseLoop d vk phases table chs

/-- verify.rs lines 400-407. -/
def readPermuted (d : Codec F G) : Rd T (c.P × c.P) := do
  let i ← readPoint d
  let t ← readPoint d
  return (i, t)

/-- verify.rs lines 215-219. -/
def readLast (d : Codec F G) (more : Bool) : Rd T (Option c.S) :=
  if more then do
    let s ← readScalar d
    return some s
  else return none

/-- verify.rs lines 206-229, one proof. -/
def readSets (d : Codec F G) : List c.P → Rd T (List (PermSet c.P c.S))
  | [] => return []
  | cm :: rest => do
    let e ← readScalar d
    let n ← readScalar d
    let l ← readLast d (!rest.isEmpty)
    let sets ← readSets d rest
    return ⟨cm, e, n, l⟩ :: sets

/-- `get_any_query_index(column, Rotation::cur())`: the position of the query; panics when there is none. -/
def queryIndex (queries : List (ℕ × ℤ)) (col : ℕ) : c.m ℕ := unwrap c (queries.findIdx? fun q => q = (col, 0))

/-- verify.rs lines 247-264. -/
def columnEval (vk : VK F G) (advice inst fixed : List c.S) (col : ColKind × ℕ) : c.m c.S :=
  match col.1 with
  | .advice => do let i ← queryIndex vk.adviceQueries col.2; index c advice i
  | .fixed => do let i ← queryIndex vk.fixedQueries col.2; index c fixed i
  | .instance => do let i ← queryIndex vk.instanceQueries col.2; index c inst i

/-- verify.rs lines 238-268, one proof. -/
def columnEvals (vk : VK F G) (fixed : List c.S) (e : List c.S × List c.S) : c.m (List c.S) := do
  let ch ← chunksM c (vk.degree - 2) vk.permColumns
  let r ← mapM' c (mapM' c (columnEval vk e.1 e.2 fixed)) ch
  return r.flatten

/-- verify.rs lines 272-286. -/
def mkPerm (vk : VK F G) (x : c.S) (key : String) (i : ℕ) (q : List (PermSet c.P c.S) × List c.S) : PermEval c.P c.S :=
  ⟨key ++ "_" ++ toString i, vk.blinding, x, q.1, q.2, vk.degree - 2⟩

/-- verify.rs lines 198-289. -/
def buildPermutation (d : Codec F G) (vk : VK F G) (x : c.S) (committed : List (List c.P)) (advice inst : List (List c.S))
    (fixed : List c.S) (key : String) : Rd T (List (PermEval c.P c.S)) := do
  let sets ← each (readSets d) committed
  let evals ← lift (mapM' c (columnEvals vk fixed) (advice.zip inst))
  return (sets.zip evals).mapIdx (mkPerm vk x key)

/-- verify.rs lines 304-335: one lookup. -/
def readLookup (d : Codec F G) (key : String) (i : ℕ) (q : (((c.P × c.P) × c.P) × (List (Expr F) × List (Expr F))) × ℕ) :
    Rd T (LookupEval c.P c.S) := do
  let pe ← readScalar d
  let pn ← readScalar d
  let ie ← readScalar d
  let ii ← readScalar d
  let te ← readScalar d
  let inp ← lift (mapM' c (convertExpression c) q.1.2.1)
  let tab ← lift (mapM' c (convertExpression c) q.1.2.2)
  return { key := key ++ "_" ++ toString i ++ "_" ++ toString q.2, input := inp, table := tab,
           permutedInput := q.1.1.1.1, permutedTable := q.1.1.1.2, product := q.1.1.2,
           productEval := pe, productNext := pn, inputEval := ie, inputInv := ii, tableEval := te }

/-- verify.rs lines 296-338: the lookups of one proof. -/
def readLookups (d : Codec F G) (vk : VK F G) (key : String) (q : (List (c.P × c.P) × List c.P) × ℕ) : Rd T (List (LookupEval c.P c.S)) :=
  each (readLookup d key q.2) ((q.1.1.zip q.1.2).zip vk.lookups).zipIdx

/-- verify.rs lines 291-340. -/
def buildLookup (d : Codec F G) (vk : VK F G) (permuted : List (List (c.P × c.P))) (committed : List (List c.P)) (key : String) :
    Rd T (List (List (LookupEval c.P c.S))) :=
  each (readLookups d vk key) (permuted.zip committed).zipIdx

/-- verify.rs lines 481-484. -/
def readW (d : Codec F G) : Rd T (List c.P) := fun s => readAll d s.bytes.length s

/-- verify.rs lines 342-571. -/
noncomputable def buildParams (d : Codec F G) (vk : VK F G) (ics : List (List c.P)) (key : String) : Rd T (Params c.P c.S) := do
  initTranscript vk
  absorbInstances ics
  let zero0 ← lift (c.assignConst 0)
  let r ← phaseLoop d vk vk.phases (ics.map fun _ => vk.advicePhase.map fun _ => none) (vk.challengePhase.map fun _ => zero0)
  let advice ← lift (mapM' c (mapM' c (unwrap c)) r.1)
  let theta ← squeeze
  let permuted ← times (times (readPermuted d) vk.lookups.length) ics.length
  let beta ← squeeze
  let gamma ← squeeze
  let ch ← lift (chunksM c (vk.degree - 2) vk.permColumns)
  let permCommitted ← times (times (readPoint d) ch.length) ics.length
  let lookupCommitted ← each (each fun _ => readPoint d) permuted
  let random ← readPoint d
  let y ← squeeze
  let h ← times (readPoint d) vk.quotientDegree
  let x ← squeeze
  let instanceEvals ← times (times (readScalar d) vk.instanceQueries.length) ics.length
  let adviceEvals ← times (times (readScalar d) vk.adviceQueries.length) ics.length
  let fixedEvals ← times (readScalar d) vk.fixedQueries.length
  let randomEval ← readScalar d
  let permutationEvals ← times (readScalar d) vk.permutationCommitments.length
  let perms ← buildPermutation d vk x permCommitted adviceEvals instanceEvals fixedEvals key
  let lookups ← buildLookup d vk permuted lookupCommitted key
  let fixedCommitments ← lift (mapM' c c.pAssignConst vk.fixedCommitments)
  let v ← squeeze
  let w ← readW d
  let u ← squeeze
  let xNext ← lift (rotateOmega x vk.omega 1)
  let xLast ← lift (rotateOmega x vk.omega (-((vk.blinding + 1 : ℕ) : ℤ)))
  let xInv ← lift (rotateOmega x vk.omega (-1))
  let xn ← lift (powConst c x vk.n)
  let gates ← lift (mapM' c (mapM' c (convertExpression c)) vk.gates)
  let permutationCommitments ← lift (mapM' c c.pAssignConst vk.permutationCommitments)
  let delta ← lift (c.assignConst vk.delta)
  let omega ← lift (c.assignConst vk.omega)
  let zero ← lift (c.assignConst 0)
  let one ← lift (c.assignConst 1)
  let n ← lift (c.assignConst vk.n)
  return { key := key, gates := gates, l := vk.blinding + 1, lookups := lookups, perms := perms,
           instanceCommitments := ics, instanceEvals := instanceEvals, instanceQueries := vk.instanceQueries,
           challenges := r.2, adviceCommitments := advice, adviceEvals := adviceEvals, adviceQueries := vk.adviceQueries,
           fixedCommitments := fixedCommitments, fixedEvals := fixedEvals, fixedQueries := vk.fixedQueries,
           permutationCommitments := permutationCommitments, permutationEvals := permutationEvals,
           vanishCommitments := h, randomCommitment := random, w := w, randomEval := randomEval,
           beta := beta, gamma := gamma, theta := theta, delta := delta, x := x, xNext := xNext, xLast := xLast, xInv := xInv,
           xn := xn, y := y, u := u, v := v, omega := omega, zero := zero, one := one, n := n }

end Model

/-! ### Specification -/

section Spec
variable {F G P S : Type}

/-- The entries whose phase is `φ`. -/
def onPhase {α : Type} (φ : ℕ) (phases : List ℕ) (l : List α) : List α := ((phases.zip l).filter fun e => e.1 = φ).map Prod.snd

/-- The Fiat-Shamir transcript of the halo2 verifier: the order in which commitments, challenges and evaluations appear.
`digest` is the scalar of the verifying key. -/
def Params.layout (vk : VK F G) (digest : S) (p : Params P S) : List (Event P S) :=
  [.commonScalar digest] ++
  p.instanceCommitments.flatten.map .commonPoint ++
  (vk.phases.flatMap fun φ =>
    (p.adviceCommitments.flatMap fun row => (onPhase φ vk.advicePhase row).map .point) ++
    (onPhase φ vk.challengePhase p.challenges).map .challenge) ++
  [.challenge p.theta] ++
  (p.lookups.flatten.flatMap fun k => [.point k.permutedInput, .point k.permutedTable]) ++
  [.challenge p.beta, .challenge p.gamma] ++
  (p.perms.flatMap fun q => q.sets.map fun s => .point s.commitment) ++
  (p.lookups.flatten.map fun k => .point k.product) ++
  [.point p.randomCommitment] ++
  [.challenge p.y] ++
  p.vanishCommitments.map .point ++
  [.challenge p.x] ++
  p.instanceEvals.flatten.map .scalar ++
  p.adviceEvals.flatten.map .scalar ++
  p.fixedEvals.map .scalar ++
  [.scalar p.randomEval] ++
  p.permutationEvals.map .scalar ++
  (p.perms.flatMap fun q => q.sets.flatMap fun s => [.scalar s.eval, .scalar s.next] ++ s.last.toList.map .scalar) ++
  (p.lookups.flatten.flatMap fun k =>
    [.scalar k.productEval, .scalar k.productNext, .scalar k.inputEval, .scalar k.inputInv, .scalar k.tableEval]) ++
  [.challenge p.v] ++
  p.w.map .point ++
  [.challenge p.u]

/-- `n` times. -/
def rep (n : ℕ) (ks : List Kind) : List Kind := (List.replicate n ks).flatten

/-- What the sets of a permutation argument with `n` sets contain. -/
def setKinds : ℕ → List Kind
  | 0 => []
  | n + 1 => [.scalar, .scalar] ++ (if n = 0 then [] else [.scalar]) ++ setKinds n

/-- What a proof for `np` instances with `m` opening proofs contains. -/
def VK.kinds (vk : VK F G) (np m : ℕ) : List Kind :=
  (vk.phases.flatMap fun φ => rep np (rep (vk.advicePhase.count φ) [.point])) ++
  rep np (rep vk.lookups.length [.point, .point]) ++
  rep np (rep (chunks (vk.degree - 2) vk.permColumns).length [.point]) ++
  rep np (rep vk.lookups.length [.point]) ++
  [.point] ++
  rep vk.quotientDegree [.point] ++
  rep np (rep vk.instanceQueries.length [.scalar]) ++
  rep np (rep vk.adviceQueries.length [.scalar]) ++
  rep vk.fixedQueries.length [.scalar] ++
  [.scalar] ++
  rep vk.permutationCommitments.length [.scalar] ++
  rep np (setKinds (chunks (vk.degree - 2) vk.permColumns).length) ++
  rep np (rep vk.lookups.length [.scalar, .scalar, .scalar, .scalar, .scalar]) ++
  (List.replicate m .point ++ [.stop])

/-- The queries of the columns of a kind. -/
def VK.queriesOf (vk : VK F G) : ColKind → List (ℕ × ℤ)
  | .advice => vk.adviceQueries
  | .fixed => vk.fixedQueries
  | .instance => vk.instanceQueries

/-- What halo2 guarantees of a verifying key. -/
structure VK.WF (vk : VK F G) : Prop where
  degree : 3 ≤ vk.degree
  quotientDegree : 0 < vk.quotientDegree
  n : 1 ≤ vk.n ∧ vk.n < 2 ^ 31
  phases : vk.phases.Nodup
  advicePhase : ∀ φ ∈ vk.advicePhase, φ ∈ vk.phases
  instanceQuery : ∀ q ∈ vk.instanceQueries, q.1 < vk.numInstance
  adviceQuery : ∀ q ∈ vk.adviceQueries, q.1 < vk.advicePhase.length
  fixedQuery : ∀ q ∈ vk.fixedQueries, q.1 < vk.fixedCommitments.length
  permColumns : ∀ col ∈ vk.permColumns, (col.2, 0) ∈ vk.queriesOf col.1
  permSize : (chunks (vk.degree - 2) vk.permColumns).length * (vk.degree - 2) ≤ 2 ^ 31
  gates : ∀ e ∈ vk.gates.flatten, e.Closed (⟨vk.fixedQueries, vk.adviceQueries, vk.instanceQueries, vk.challengePhase.map fun k => (k, 0)⟩ :
    QueryEvals (ℕ × ℤ))
  lookups : ∀ a ∈ vk.lookups, ∀ e ∈ a.1 ++ a.2, e.Closed (⟨vk.fixedQueries, vk.adviceQueries, vk.instanceQueries,
    vk.challengePhase.map fun k => (k, 0)⟩ : QueryEvals (ℕ × ℤ))

end Spec
end Verif.Api
