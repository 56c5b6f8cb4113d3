import Verif.Sol.RenderGen
import Verif.Top.OptimisedRun

/-!
# The text of the contract: C93

`verify` calls `get_wx_wg`, whose body is the text that the generator writes.
-/

namespace Verif.Top
open Verif.Circuit Verif.Ecc Verif.Api Verif.Sol

/-- A call of `verify` does not revert when the body of `get_wx_wg` is `t`: verifier.sol:356-398. -/
def TextAccepts (t : String) (size : ℕ) (e e' : Pt → Pt → Prop) (D : Digest) (proof target : List Word) : Prop :=
  ∃ inst x0 y0 x1 y1, contractInstances size target = some inst ∧ Text.Returns t ⟨D, proof, inst⟩ (some (x0, y0, x1, y1)) ∧
    requirePairing e x0 y0 x1 y1 = some () ∧ ∃ a b c d rest, target = a :: b :: c :: d :: rest ∧ requirePairing e' a b c d = some ()

theorem contractInstances_length {size : ℕ} {fp inst : List Word} (h : contractInstances size fp = some inst) : inst.length ≤ fp.length := by
  unfold contractInstances at h
  split at h
  · cases h
  · split at h
    · cases h
      simp only [List.length_append, List.length_cons, List.length_nil, List.length_take]
      omega
    · cases h

theorem fourWords_some {v : List Val} {x0 y0 x1 y1 : Word} (h : fourWords v = some (x0, y0, x1, y1)) : v = [.p x0 y0, .p x1 y1] := by
  unfold fourWords at h
  split at h
  · cases h
    rfl
  · cases h

/-- What the text of a contract accepts is what the contract accepts. -/
theorem text_accepts {V : Verifier} {t : String} (ht : ∀ c : Call, c.proof.length ≤ 2 ^ 256 → c.inst.length ≤ 2 ^ 256 →
    Text.Returns t c ((V.prog.run c).bind fourWords)) {D : Digest} {proof target : List Word} (hp : proof.length ≤ 2 ^ 256) (hx : target.length ≤ 2 ^ 256) :
    TextAccepts t V.instanceSize V.verifyCircuit V.targetCircuit D proof target ↔ V.verify D proof target = some () := by
  constructor
  · rintro ⟨inst, x0, y0, x1, y1, h1, h2, h3, a, b, c, d, rest, rfl, h4⟩
    have h5 := (ht ⟨D, proof, inst⟩ hp ((contractInstances_length h1).trans hx)).unique h2
    obtain ⟨v, h6, h7⟩ := Option.bind_eq_some_iff.1 h5
    obtain rfl := fourWords_some h7
    unfold Verifier.verify
    simp only [h1, h6, Option.bind_eq_bind, Option.bind_some, h3, h4]
  · intro h
    unfold Verifier.verify at h
    obtain ⟨inst, h1, h⟩ := Option.bind_eq_some_iff.1 h
    obtain ⟨v, h2, h⟩ := Option.bind_eq_some_iff.1 h
    split at h
    · next x0 y0 x1 y1 =>
      obtain ⟨⟨⟩, h3, h⟩ := Option.bind_eq_some_iff.1 h
      split at h
      · refine ⟨inst, x0, y0, x1, y1, h1, ?_, h3, _, _, _, _, _, rfl, h⟩
        have := ht ⟨D, proof, inst⟩ hp ((contractInstances_length h1).trans hx)
        rw [h2] at this
        exact this
      · cases h
    · cases h

/-- What is needed of the sizes of what was recorded. -/
structure Sized (P : Prog) : Prop where
  length : P.stmts.length < 2 ^ 254
  offsets : SmallOffsets P.stmts
  absorbing : P.absorbingLength + 1 ≤ 2 ^ 256

/-- **C93** for `verify_solidity`: the contract it generates can be written down, and a call of the text is accepted if and only if `Verifier.verify` accepts. -/
theorem C93_contract {S : System} {rate : ℕ} {ps : PoseidonSpec N rate} {K : Digest} {ord : List Interval → List Interval} {checks : Bool}
    {ts : List (TargetCircuit S)} {f : Folder} {V : Verifier} (h : dispatchVerifySolidity S ps K ord checks ts f = some V)
    (hs : ∀ V', recordSolidity S ps K ts f = some V' → Sized V'.prog) : ∃ t, V.prog.text = some t ∧
      ∀ D proof target, proof.length ≤ 2 ^ 256 → target.length ≤ 2 ^ 256 →
        (TextAccepts t V.instanceSize V.verifyCircuit V.targetCircuit D proof target ↔ V.verify D proof target = some ()) := by
  obtain ⟨V', q, h1, h2, h3, -⟩ := solidity_recorded.1 h
  have hz := hs V' h1
  obtain ⟨_, -, h1⟩ := Option.bind_eq_some_iff.1 h1
  obtain ⟨params, -, h1⟩ := Option.bind_eq_some_iff.1 h1
  obtain ⟨vk, -, h1⟩ := Option.bind_eq_some_iff.1 h1
  obtain ⟨instances, -, h1⟩ := Option.bind_eq_some_iff.1 h1
  obtain ⟨proof, -, h1⟩ := Option.bind_eq_some_iff.1 h1
  obtain ⟨⟨r, k⟩, h4, h1⟩ := Option.bind_eq_some_iff.1 h1
  cases h1
  have hg : (verifyJob S ps K params vk instances proof).generate = some (k.prog r.left r.right) := by
    unfold Job.generate
    rw [h4]
    rfl
  obtain ⟨t, g1, g2⟩ := C93_optimised hg hz.length hz.offsets hz.absorbing h2 h3
  exact ⟨t, g1, fun D proof target hp hx => text_accepts g2 hp hx⟩

/-! ### A text that accepts, and a text that rejects everything -/

namespace OptimisedRun

/-- Decides `Sized`, with smaller bounds. -/
def sized (p : Prog × ℕ) : Bool :=
  p.1.stmts.length < 2 ^ 32 && p.1.absorbingLength < 2 ^ 32 && p.1.stmts.all fun
    | .updateHash (.transcript o _) off => o < 2 ^ 32 && off < 2 ^ 32
    | _ => true

theorem sized_ok {p : Prog} {n : ℕ} (h : sized (p, n) = true) : Sized p := by
  unfold sized at h
  simp only [Bool.and_eq_true, decide_eq_true_eq, List.all_eq_true] at h
  obtain ⟨⟨h1, h2⟩, h3⟩ := h
  refine ⟨by omega, fun o t off hm => ?_, by omega⟩
  have := h3 _ hm
  simp only [Bool.and_eq_true, decide_eq_true_eq] at this
  omega

set_option maxRecDepth 100000 in
theorem key_sized : (Tally.program TinyPoseidon.deaf key TinyRun.ins pf).any sized = true := by
  delta Tally.program Tally.record verifyNoEval openParams queries proofQueries columnQuery xRotateOmega buildParams rotateOmega
  simp only [rotateBase_inv]
  decide +kernel

set_option maxRecDepth 100000 in
theorem descent_sized : (Tally.program TinyPoseidon.deaf descent TinyRun.ins pf).any sized = true := by
  delta Tally.program Tally.record verifyNoEval openParams queries proofQueries columnQuery xRotateOmega buildParams rotateOmega
  simp only [rotateBase_inv]
  decide +kernel

theorem recorded_sized {vk : VK N N} (e : Pt → Pt → Prop) (h : (Tally.program TinyPoseidon.deaf vk TinyRun.ins pf).any sized = true) (V' : Verifier)
    (hV : recordSolidity (TinyRun.sysOf vk pf e) TinyPoseidon.deaf TinyContract.digest [TinyRun.targetOf vk pf e] (TinyRun.afterOf pf) = some V') : Sized V'.prog := by
  obtain ⟨⟨p, n⟩, hp, hk⟩ := any_some h
  obtain rfl := Option.some.inj ((records e hp).symm.trans hV)
  exact sized_ok hk

/-- The hypotheses of `C93_contract` are met, and the text of the contract accepts the files. -/
example (checks : Bool) : ∃ (e : Pt → Pt → Prop) (V : Verifier) (t : String),
    dispatchVerifySolidity (TinyRun.sysOf key pf e) TinyPoseidon.deaf TinyContract.digest id checks [TinyRun.targetOf key pf e] (TinyRun.afterOf pf) = some V ∧
    V.prog.text = some t ∧ TextAccepts t V.instanceSize V.verifyCircuit V.targetCircuit TinyContract.digest (bufferToUint256LE pf)
      (bufferToUint256LE (finalPairBytes TinyRun.created.finalPair)) := by
  obtain ⟨e, V, h1, h2⟩ := accepted checks
  obtain ⟨t, h3, h4⟩ := C93_contract h1 (recorded_sized e key_sized)
  refine ⟨e, V, t, h1, h3, (h4 _ _ _ ?_ ?_).2 h2⟩
  · rw [bufferToUint256LE, List.length_map, List.length_range]
    exact (Nat.div_le_self _ _).trans (by decide +kernel)
  · rw [show TinyRun.created.finalPair = ((2 : N) • gen, (2 : N) • gen, [5]) from rfl, C84_final_pair]
    simp

/-- The contract of C86 that rejects everything, as text. -/
theorem C93_rejects : ∃ (S : System) (ts : List (TargetCircuit S)) (f : Folder) (V : Verifier) (t : String),
    dispatchVerifySolidity S TinyPoseidon.deaf TinyContract.digest id false ts f = some V ∧ V.prog.text = some t ∧
    ∀ D proof target, proof.length ≤ 2 ^ 256 → target.length ≤ 2 ^ 256 →
      ¬ TextAccepts t V.instanceSize V.verifyCircuit V.targetCircuit D proof target := by
  obtain ⟨⟨p, n⟩, hp, hk⟩ := any_some descent_wrapped
  obtain ⟨q, hq, h⟩ := any_some hk
  rw [Bool.and_eq_true] at h
  obtain ⟨R, hR, h2⟩ := any_some h.2
  have hV := solidity hp hq hR fun x y => x = y
  obtain ⟨t, h3, h4⟩ := C93_contract hV (recorded_sized _ descent_sized)
  refine ⟨_, _, _, _, t, hV, h3, fun D proof target a b hc => ?_⟩
  have := (h4 D proof target a b).1 hc
  rw [verify_fails h2] at this
  cases this

end OptimisedRun

end Verif.Top
