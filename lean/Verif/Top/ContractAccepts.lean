import Verif.Sol.ContractTotal
import Verif.Top.ContractVerify

/-!
# What the contract accepts: C77
-/

namespace Verif.Top
open Verif.Circuit Verif.Ecc Verif.Sol

open Classical in
theorem requirePairing_words {e : Pt → Pt → Prop} (P Q : Pt) :
    requirePairing e (g1Words P).1 (g1Words P).2 (g1Words Q).1 (g1Words Q).2 = if e P Q then some () else none := by
  unfold requirePairing
  dsimp only
  rw [g1_g1Words, g1_g1Words]
  rfl

/-- **C77**. The contract generated for the aggregation circuit, called with the words of a final pair, the other instances, and the bytes
of a proof for which native verification returns the pair `(l, r)`: it accepts if and only if the pairing holds for `(l, r)` and for the final pair. -/
theorem C77_accepts_iff {V : Verifier} {rate : ℕ} {j : Job rate} (hg : j.generate = some V.prog) (hd : 0 < j.d.pointLen) {m : ℕ}
    (hm : j.d.Parses (j.vk.kinds 1 m) j.proof) {P Q : Pt} {rest : List N} (hV : V.instanceSize = 4 + rest.length) {old : List N}
    (hj : j.instances = [[old]]) (ho : old.length = V.instanceSize) {D : Digest} {bytes : List UInt8} (hb : shaCodec.Parses (j.vk.kinds 1 m) bytes)
    (hA : 32 * (V.prog.absorbingLength + 1) ≤ 2 ^ 32) {l r : Pt}
    (hn : native (fun _ => true) proper D shaCodec j.vk [[packPoints P Q ++ rest]] bytes = some (l, r)) :
    V.verify D (bufferToUint256LE bytes) ([(g1Words P).1, (g1Words P).2, (g1Words Q).1, (g1Words Q).2] ++ rest.map wordOf) = some () ↔
      V.verifyCircuit l r ∧ V.targetCircuit P Q := by
  have h1 : j.instances.length = 1 := by rw [hj]; rfl
  have hr := C76_runs (extra := []) hg hd (by rw [h1]; exact hm) (D := D) (instances := [[packPoints P Q ++ rest]]) (by
    rw [hj]
    have e : (packPoints P Q ++ rest).length = old.length := by
      rw [ho, hV, List.length_append]
      rfl
    exact List.Forall₂.cons (List.Forall₂.cons e List.Forall₂.nil) List.Forall₂.nil) (by rw [h1]; exact hb) hA hn
  rw [List.append_nil] at hr
  unfold Verifier.verify
  rw [C48_contract P Q rest _ hV]
  simp only [Option.bind_eq_bind, Option.bind_some]
  have e : ([[packPoints P Q ++ rest]] : List (List (List N))).flatten.flatten = packPoints P Q ++ rest := by simp
  rw [e] at hr
  rw [hr]
  simp only [Option.bind_some, pVal]
  show (requirePairing V.verifyCircuit (g1Words l).1 (g1Words l).2 (g1Words r).1 (g1Words r).2).bind
    (fun _ => requirePairing V.targetCircuit (g1Words P).1 (g1Words P).2 (g1Words Q).1 (g1Words Q).2) = _ ↔ _
  rw [requirePairing_words, requirePairing_words]
  by_cases h2 : V.verifyCircuit l r <;> by_cases h3 : V.targetCircuit P Q <;> simp [h2, h3]

end Verif.Top
