import Verif.Sol.HashOrder
import Verif.Sol.MergeableCheck
import Verif.Sol.Profile
import Verif.Top.Tally
import Verif.Top.TinyRun

/-!
# Runs of the commands with the optimiser

The target circuit is that of `TinyRun`. The statements are those the generator records for the key of an aggregation circuit, and they are optimised.
-/

namespace Verif.Top.OptimisedRun
open Verif.Circuit Verif.Ecc Verif.Api Verif.Sol

/-- An aggregation circuit with a permutation argument and one gate. -/
def key : VK N N where
  digest := 7
  omega := 13
  delta := 2
  n := 8
  blinding := 0
  degree := 3
  quotientDegree := 2
  phases := [0]
  advicePhase := [0, 0]
  challengePhase := []
  numInstance := 1
  instanceQueries := [(0, 0)]
  adviceQueries := [(0, 0), (1, 0)]
  fixedQueries := []
  gates := [[.sum (.advice 0) (.negated (.instance 0))]]
  lookups := []
  permColumns := [(.advice, 0)]
  fixedCommitments := []
  permutationCommitments := [10]
  gLagrange := [1, 2, 3, 4, 5, 6, 7, 8]

/-- The polynomial `a + k` of the first advice column `a`. -/
def shift (k : ℕ) : Api.Expr N := .sum (.advice 0) (.constant (k : N))

/-- The same circuit with two other gates: six sums, and the products of the last sum with the others, the last one first. -/
def descent : VK N N := { key with
  gates := [[shift 1, shift 2, shift 3, shift 4, shift 5, shift 6],
    [.product (shift 5) (shift 6), .product (shift 4) (shift 6), .product (shift 3) (shift 6), .product (shift 2) (shift 6), .product (shift 1) (shift 6)]] }

/-- A proof for both circuits: six points, seven scalars and two points. -/
def pf : List UInt8 := TinyContract.enc [1, 2, 1, 2, 1, 2, 1, 2, 1, 2, 1, 2, 1, 2, 2, 1, 1, 2, 1, 1, 2, 1, 2]

theorem pf_words : TinyContract.Words pf := ⟨_, rfl, by decide⟩

theorem rotateBase_inv {G : Type} (c : Chip N G) (omega : N) (at' : ℤ) :
    rotateBase c omega at' = if at' < 0 then (if omega = 0 then c.panic else return TinyContract.inv omega) else return omega := by
  rw [TinyContract.rotateBase_eq]
  split
  · split
    · rfl
    · next h => rw [Tally.inv_eq h]
  · rfl

/-- What the contract needs of the recorded statements and of the optimised ones. -/
def kept (p : Prog × ℕ) : Bool :=
  p.1.size ≤ Sol.Expr.deadbeaf && Checks.noDouble p.1.stmts && 32 * (p.1.absorbingLength + 1) ≤ 2 ^ 32 &&
    (memoryOptimize id p.1).any fun q => Checks.mergeable q.stmts && (aggregate true q).isSome

/-- A loop whose second round reads beyond the memory. -/
def overrun (size : ℕ) : Stmt → Bool
  | .mulLoop start step n .scalar => 2 ≤ n && size ≤ start.2.1 + step.2.1
  | _ => false

/-- A release build returns a program with such a loop, where a debug build panics. -/
def wrapped (p : Prog × ℕ) : Bool :=
  (memoryOptimize id p.1).any fun q => (aggregate true q).isNone && (aggregate false q).any fun r => r.stmts.any (overrun r.size)

set_option maxRecDepth 100000 in
theorem key_kept : (Tally.program TinyPoseidon.deaf key TinyRun.ins pf).any kept = true := by
  delta Tally.program Tally.record verifyNoEval openParams queries proofQueries columnQuery xRotateOmega buildParams rotateOmega
  simp only [rotateBase_inv]
  decide +kernel

set_option maxRecDepth 100000 in
theorem descent_wrapped : (Tally.program TinyPoseidon.deaf descent TinyRun.ins pf).any wrapped = true := by
  delta Tally.program Tally.record verifyNoEval openParams queries proofQueries columnQuery xRotateOmega buildParams rotateOmega
  simp only [rotateBase_inv]
  decide +kernel

set_option maxRecDepth 100000 in
theorem key_native : (TinyContract.runOf key pf (fun _ => true) TinyRun.ins).isSome = true := by
  delta TinyContract.runOf verifyNoEval openParams queries proofQueries columnQuery xRotateOmega buildParams rotateOmega
  simp only [rotateBase_inv]
  decide +kernel

set_option maxRecDepth 100000 in
theorem descent_native : (TinyContract.runOf descent pf (fun _ => true) TinyRun.ins).isSome = true := by
  delta TinyContract.runOf verifyNoEval openParams queries proofQueries columnQuery xRotateOmega buildParams rotateOmega
  simp only [rotateBase_inv]
  decide +kernel

/-! ### The contract -/

section
variable {vk : VK N N} (e : Pt → Pt → Prop)

/-- Native verification of the proof. -/
theorem native (h : (TinyContract.runOf vk pf (fun _ => true) TinyRun.ins).isSome = true) : ∃ l r : N, ∀ e,
    Sol.native (fun _ => true) proper TinyContract.digest shaCodec ((TinyRun.sysOf vk pf e).vk () false) [[TinyRun.created.instances]] pf =
      some (l • gen, r • gen) := by
  obtain ⟨⟨⟨l, r⟩, n⟩, h⟩ := Option.isSome_iff_exists.1 h
  exact ⟨l, r, fun e => TinyContract.native_ofKey (fun _ _ => rfl) (fun _ => TinyContract.proper_of) pf_words h⟩

/-- What the generator records. -/
theorem records {p : Prog} {n : ℕ} (h : Tally.program TinyPoseidon.deaf vk TinyRun.ins pf = some (p, n)) :
    recordSolidity (TinyRun.sysOf vk pf e) TinyPoseidon.deaf TinyContract.digest [TinyRun.targetOf vk pf e] (TinyRun.afterOf pf) = some ⟨p, n, e, e⟩ := by
  obtain ⟨r, k, h1, h2, h3⟩ := Tally.recorded pf_words h
  rw [← h2, ← h3]
  exact records_after (TinyRun.filesOf vk pf e) (ks := [TinySynth.vkN.map TinyContract.toCurve]) rfl h1

theorem solidity {p q R : Prog} {n : ℕ} {checks : Bool} (h : Tally.program TinyPoseidon.deaf vk TinyRun.ins pf = some (p, n)) (hq : memoryOptimize id p = some q)
    (hR : aggregate checks q = some R) (e : Pt → Pt → Prop) :
    dispatchVerifySolidity (TinyRun.sysOf vk pf e) TinyPoseidon.deaf TinyContract.digest id checks [TinyRun.targetOf vk pf e] (TinyRun.afterOf pf) =
      some ⟨R, n, e, e⟩ :=
  solidity_recorded.2 ⟨⟨p, n, e, e⟩, q, records e h, hq, hR, rfl, rfl, rfl⟩

theorem generates {p : Prog} {n : ℕ} (h : Tally.program TinyPoseidon.deaf vk TinyRun.ins pf = some (p, n)) :
    (verifyJob (TinyRun.sysOf vk pf e) TinyPoseidon.deaf TinyContract.digest () false [[TinyRun.created.instances]] pf).generate = some p :=
  (recorded_after (TinyRun.filesOf vk pf e) (records e h)).1

end

theorem any_some {α : Type} {f : α → Bool} : ∀ {o : Option α}, o.any f = true → ∃ a, o = some a ∧ f a = true
  | some a, h => ⟨a, rfl, h⟩

/-- The hypotheses of C86 are met by a contract that was optimised, in a debug build and in a release build. With a pairing that holds for both pairs the
files are accepted. -/
theorem accepted (checks : Bool) : ∃ (e : Pt → Pt → Prop) (V : Verifier),
    dispatchVerifySolidity (TinyRun.sysOf key pf e) TinyPoseidon.deaf TinyContract.digest id checks [TinyRun.targetOf key pf e] (TinyRun.afterOf pf) = some V ∧
    V.verify TinyContract.digest (bufferToUint256LE pf) (bufferToUint256LE (finalPairBytes TinyRun.created.finalPair)) = some () := by
  obtain ⟨⟨p, n⟩, hp, hk⟩ := any_some key_kept
  unfold kept at hk
  simp only [Bool.and_eq_true, decide_eq_true_eq] at hk
  obtain ⟨⟨⟨h1, h2⟩, h3⟩, h4⟩ := hk
  obtain ⟨q, hq, h4⟩ := any_some h4
  rw [Bool.and_eq_true] at h4
  obtain ⟨h4, h5⟩ := h4
  obtain ⟨R, hR⟩ := Option.isSome_iff_exists.1 h5
  have hR' : aggregate checks q = some R := by
    cases checks with
    | true => exact hR
    | false => exact aggregate_debug hR
  obtain ⟨l, r, hn⟩ := native key_native
  have hV := fun e => solidity hp hq hR' e
  refine ⟨fun x y => x = y ∨ x = l • gen, _, hV _, ?_⟩
  refine (C86_contract_partial (TinyRun.filesOf key pf _) (fun _ => .refl _) (hV _) ?_ (hn _)).2 ⟨Or.inr rfl, Or.inl rfl⟩
  intro P hP
  obtain rfl : p = P := Option.some.inj ((generates _ hp).symm.trans hP)
  refine ⟨h1, Checks.noDouble_ok h2, h3, fun q' hq' => ?_⟩
  obtain rfl : q = q' := Option.some.inj (hq.symm.trans hq')
  exact Checks.mergeable_ok h4 checks

/-! ### Hash sets -/

/-- **C91**: the contract does not depend on the order in which hash sets are iterated. -/
theorem C91_order {S : System} {rate : ℕ} {ps : PoseidonSpec N rate} {K : Digest} {ord ord' : List Interval → List Interval} (h : ∀ l, (ord l).Perm l)
    (h' : ∀ l, (ord' l).Perm l) (checks : Bool) (ts : List (TargetCircuit S)) (f : Folder) :
    dispatchVerifySolidity S ps K ord checks ts f = dispatchVerifySolidity S ps K ord' checks ts f := by
  unfold dispatchVerifySolidity
  simp only [memoryOptimize_order h h']

/-- The contract that is accepted is also generated when the sets are iterated in the other direction. -/
example : ∃ (e : Pt → Pt → Prop) (V : Verifier),
    dispatchVerifySolidity (TinyRun.sysOf key pf e) TinyPoseidon.deaf TinyContract.digest List.reverse true [TinyRun.targetOf key pf e] (TinyRun.afterOf pf) =
      some V := by
  obtain ⟨e, V, h, -⟩ := accepted true
  exact ⟨e, V, (C91_order List.reverse_perm (fun _ => .refl _) true _ _).trans h⟩

/-! ### A contract that rejects everything -/

/-- Such a loop fails in every state. -/
theorem overrun_fails {E : Env} {c : Stmt} (h : overrun E.size c = true) (s : St) : exec E s c = none := by
  cases c with
  | mulLoop start step n t =>
    cases t with
    | point => rfl
    | scalar =>
      simp only [overrun, Bool.and_eq_true, decide_eq_true_eq] at h
      obtain ⟨n, rfl⟩ := Nat.exists_eq_add_of_le h.1
      have hr : List.range (2 + n) = 0 :: 1 :: (List.range n).map (2 + ·) := by
        rw [List.range_add]
        rfl
      have hl : ∀ s, E.load s (start.2.1 + 1 * step.2.1) = none := fun s => by
        unfold Env.load
        rw [if_neg (by omega)]
      have : mulRounds E start step (List.range (2 + n)) s = none := by
        rw [hr]
        simp only [mulRounds, hl, Option.bind_eq_bind, Option.bind_none, Option.bind_fun_none]
      simp only [exec, this, Option.bind_eq_bind, Option.bind_none]
  | _ => cases h

theorem execAll_fails {E : Env} {c : Stmt} (hc : ∀ s, exec E s c = none) : ∀ {l : List Stmt} (s : St), c ∈ l → execAll E s l = none
  | d :: l, s, h => by
    rw [execAll]
    rcases List.mem_cons.1 h with rfl | h
    · rw [hc]
      rfl
    · simp only [Option.bind_eq_bind, execAll_fails hc _ h, Option.bind_fun_none]

theorem verify_fails {V : Verifier} (h : V.prog.stmts.any (overrun V.prog.size) = true) (D : Digest) (proof target : List Word) : V.verify D proof target = none := by
  obtain ⟨c, h1, h2⟩ := List.any_eq_true.1 h
  have : ∀ k, V.prog.run k = none := fun k => by
    unfold Prog.run Prog.runFrom
    rw [execAll_fails (fun s => overrun_fails (E := k.env V.prog.size) h2 s) _ h1]
    rfl
  unfold Verifier.verify
  simp only [this, Option.bind_eq_bind, Option.bind_none, Option.bind_fun_none]

/-- **C86** is false with the optimiser. The proof of the aggregation circuit is accepted natively and the final pair is valid. In a release build `verify_solidity`
generates a contract that rejects everything; in a debug build it panics. -/
theorem C86_false : ∃ (S : System) (ts : List (TargetCircuit S)) (f f' : Folder) (rand : S.Rand) (params : S.Params) (vk : S.Key)
    (c : Created) (proof : List UInt8) (V V' : Verifier) (l r : Pt),
    dispatchVerifyRun S TinyPoseidon.deaf TinySynth.codec ts [] "dir" rand f = some f' ∧
    RunFiles S TinyPoseidon.deaf TinySynth.codec ts [] "dir" rand f f' params vk c proof ∧
    Sol.native (fun _ => true) proper TinyContract.digest shaCodec (S.vk params vk) [[c.instances]] proof = some (l, r) ∧ S.pairing params l r ∧
    S.pairing params c.finalPair.1 c.finalPair.2.1 ∧
    recordSolidity S TinyPoseidon.deaf TinyContract.digest ts f' = some V' ∧
    (∀ ord : List Interval → List Interval, (∀ l, (ord l).Perm l) → dispatchVerifySolidity S TinyPoseidon.deaf TinyContract.digest ord true ts f' = none ∧
      dispatchVerifySolidity S TinyPoseidon.deaf TinyContract.digest ord false ts f' = some V) ∧
    ∀ D proof target, V.verify D proof target = none := by
  obtain ⟨⟨p, n⟩, hp, hk⟩ := any_some descent_wrapped
  obtain ⟨q, hq, h⟩ := any_some hk
  rw [Bool.and_eq_true] at h
  obtain ⟨h1, h2⟩ := h
  obtain ⟨R, hR, h2⟩ := any_some h2
  obtain ⟨l, r, hn⟩ := native descent_native
  refine ⟨TinyRun.sysOf descent pf fun x y => x = y ∨ x = l • gen, [TinyRun.targetOf descent pf _], TinyRun.folder, TinyRun.afterOf pf, (0 : UInt8), (), false,
    TinyRun.created, pf, ⟨R, n, fun x y => x = y ∨ x = l • gen, fun x y => x = y ∨ x = l • gen⟩, _, _, _, TinyRun.verify_runOf _ _ _, TinyRun.filesOf _ _ _, hn _, Or.inr rfl, Or.inl rfl, records _ hp, fun ord hord => ?_,
    verify_fails h2⟩
  rw [C91_order hord (ord' := id) (fun _ => .refl _) true, C91_order hord (ord' := id) (fun _ => .refl _) false]
  refine ⟨?_, solidity hp hq hR _⟩
  rw [Option.eq_none_iff_forall_not_mem]
  intro V hV
  obtain ⟨V', q', g1, g2, g3, -⟩ := solidity_recorded.1 hV
  obtain rfl := Option.some.inj (g1.symm.trans (records _ hp))
  obtain rfl : q = q' := Option.some.inj (hq.symm.trans g2)
  rw [Option.isNone_iff_eq_none.1 h1] at g3
  cases g3

/-! ### The build profile -/

/-- **C90** for runs that do not panic in a debug build: a release build generates the same contract. Missing: runs that panic in a debug build, for which C90
is false. -/
theorem C90_profile_partial {S : System} {rate : ℕ} {ps : PoseidonSpec N rate} {K : Digest} {ord : List Interval → List Interval} {ts : List (TargetCircuit S)}
    {f : Folder} {V : Verifier} (h : dispatchVerifySolidity S ps K ord true ts f = some V) : dispatchVerifySolidity S ps K ord false ts f = some V := by
  obtain ⟨V', q, h1, h2, h3, h4⟩ := solidity_recorded.1 h
  exact solidity_recorded.2 ⟨V', q, h1, h2, aggregate_debug h3, h4⟩

/-- **C90** is false: a debug build panics where a release build generates a contract. -/
theorem C90_false : ∃ (S : System) (ts : List (TargetCircuit S)) (f : Folder) (V : Verifier),
    ∀ ord : List Interval → List Interval, (∀ l, (ord l).Perm l) → dispatchVerifySolidity S TinyPoseidon.deaf TinyContract.digest ord true ts f = none ∧
      dispatchVerifySolidity S TinyPoseidon.deaf TinyContract.digest ord false ts f = some V := by
  obtain ⟨S, ts, f, f', rand, params, vk, c, proof, V, V', l, r, -, -, -, -, -, -, h, -⟩ := C86_false
  exact ⟨S, ts, f', V, h⟩

end Verif.Top.OptimisedRun
