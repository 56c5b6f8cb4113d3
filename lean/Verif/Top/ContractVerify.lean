import Verif.Sol.Tame
import Verif.Top.ExposeProps

/-!
# The entry point of the contract, and the forms a statement has: C49
-/

namespace Verif.Top
open Verif.Circuit Verif.Ecc Verif.Sol

/-! ### The function -/

/-- What the template is filled with: the program, `instance_size` and the two pairs of `G2` points. A pair of `G2` points is given by the
pairs of `G1` points for which contract 8 (EIP-197) returns one. -/
structure Verifier where
  prog : Prog
  instanceSize : ℕ
  verifyCircuit : Pt → Pt → Prop
  targetCircuit : Pt → Pt → Prop

open Classical in
/-- `pairing`, followed by `require`: verifier.sol:5-38, 385, 396. Contract 8 rejects words that are not the encoding of a point. -/
noncomputable def requirePairing (e : Pt → Pt → Prop) : Word → Word → Word → Word → Option Unit
  | x0, y0, x1, y1 => do
    let a ← g1 x0 y0
    let b ← g1 x1 y1
    if e a b then some () else none

/-- `verify`: verifier.sol:356-398. -/
noncomputable def Verifier.verify (V : Verifier) (D : Digest) (proof target : List Word) : Option Unit := do
  let inst ← contractInstances V.instanceSize target
  match ← V.prog.run ⟨D, proof, inst⟩ with
  | [.p x0 y0, .p x1 y1] => do
    requirePairing V.verifyCircuit x0 y0 x1 y1
    match target with
    | x0 :: y0 :: x1 :: y1 :: _ => requirePairing V.targetCircuit x0 y0 x1 y1
    | _ => none
  | _ => none

theorem requirePairing_some {e : Pt → Pt → Prop} {x0 y0 x1 y1 : Word} {u : Unit} (h : requirePairing e x0 y0 x1 y1 = some u) :
    ∃ P Q, (x0, y0) = g1Words P ∧ (x1, y1) = g1Words Q ∧ e P Q := by
  obtain ⟨P, h1, h⟩ := Option.bind_eq_some_iff.1 h
  obtain ⟨Q, h2, h⟩ := Option.bind_eq_some_iff.1 h
  split at h
  · next he => exact ⟨P, Q, g1_iff.1 h1, g1_iff.1 h2, he⟩
  · cases h

/-- The contract was generated for some key and sample. -/
def Verifier.Generated (V : Verifier) : Prop := ∃ (rate : ℕ) (j : Job rate), j.generate = some V.prog

/-! ### Two forms -/

/-- The words of two calls that are the same up to multiples of `q_mod`, but for the four words of the final pair. -/
def SameTarget (t t' : List Word) : Prop :=
  ∃ x0 y0 x1 y1 r r', t = x0 :: y0 :: x1 :: y1 :: r ∧ t' = x0 :: y0 :: x1 :: y1 :: r' ∧ SameInst r r'

theorem SameInst.refl (l : List Word) : SameInst l l := List.forall₂_same.2 fun _ _ => rfl

theorem sameInst_append {a a' b b' : List Word} (h : SameInst a a') (h' : SameInst b b') : SameInst (a ++ b) (a' ++ b') := List.rel_append h h'

/-- C49, what is wrong: the contract does not tell apart words that are the same modulo `q_mod`, from the fifth word of the final pair on. -/
theorem C49_same_result {V : Verifier} (hV : V.Generated) (D : Digest) (proof : List Word) {t t' : List Word} (h : SameTarget t t') :
    V.verify D proof t = V.verify D proof t' := by
  obtain ⟨rate, j, hj⟩ := hV
  obtain ⟨x0, y0, x1, y1, r, r', rfl, rfl, h⟩ := h
  unfold Verifier.verify contractInstances
  have hl : r.length = r'.length := h.length_eq
  simp only [List.length_cons, hl]
  split
  · rfl
  · have hs : SameInst ([(contractPoint x0 y0).1, (contractPoint x0 y0).2, (contractPoint x1 y1).1, (contractPoint x1 y1).2] ++ r.take (V.instanceSize - 4))
        ([(contractPoint x0 y0).1, (contractPoint x0 y0).2, (contractPoint x1 y1).1, (contractPoint x1 y1).2] ++ r'.take (V.instanceSize - 4)) :=
      sameInst_append (SameInst.refl _) (List.forall₂_take _ h)
    simp only [Option.bind_eq_bind, Option.bind_some]
    rw [Job.run_same hj D proof hs]

/-- C49: any word after the first four can be replaced by another one. -/
theorem C49_two_forms {V : Verifier} (hV : V.Generated) (D : Digest) (proof : List Word) (x0 y0 x1 y1 : Word) (pre post : List Word) {w : Word}
    (hw : w.toNat + frMod < 2 ^ 256) : w + qMod ≠ w ∧
    V.verify D proof (x0 :: y0 :: x1 :: y1 :: (pre ++ (w + qMod) :: post)) = V.verify D proof (x0 :: y0 :: x1 :: y1 :: (pre ++ w :: post)) := by
  have hq : qMod.toNat = frMod := by decide +kernel
  have hn : (w + qMod).toNat = w.toNat + frMod := by rw [BitVec.toNat_add, hq, Nat.mod_eq_of_lt hw]
  refine ⟨fun h => ?_, C49_same_result hV D proof ⟨_, _, _, _, _, _, rfl, rfl, sameInst_append (SameInst.refl pre) (.cons ?_ (SameInst.refl post))⟩⟩
  · have : 0 < frMod := by decide +kernel
    rw [h] at hn
    omega
  · rw [hn, Nat.add_mod_right]

/-! ### One form -/

/-- There is no point with `x = 0`: three is not a square. -/
theorem x_ne_zero {x y : W} (h : y ^ 2 = x ^ 3 + 3) : x ≠ 0 := by
  rintro rfl
  have h3 : y ^ 2 = ((3 : ℕ) : W) := by rw [h]; norm_num
  have hy : y ≠ 0 := by
    rintro rfl
    have : ((3 : ℕ) : W) = ((0 : ℕ) : W) := by rw [← h3]; norm_num
    rw [ZMod.natCast_eq_natCast_iff'] at this
    exact absurd this (by decide +kernel)
  have h1 : y ^ (fqMod - 1) = 1 := ZMod.pow_card_sub_one_eq_one hy
  rw [show fqMod - 1 = 2 * ((fqMod - 1) / 2) by decide +kernel, pow_mul, h3, ← powMod_cast (by decide +kernel)] at h1
  have h2 : ((powMod fqMod 256 3 ((fqMod - 1) / 2) : ℕ) : Fq) = ((1 : ℕ) : Fq) := by rw [h1]; norm_num
  rw [ZMod.natCast_eq_natCast_iff'] at h2
  exact absurd h2 (by decide +kernel)

theorem coordX_ne {P : Pt} (h : P ≠ 0) : coordX P ≠ 0 := x_ne_zero (coords_aff h).eqn

/-- The packed coordinates determine the point, and tell it from the identity. -/
theorem pack_coords {P Q : Pt} (h : pack (coordX P).val (coordY P).val = pack (coordX Q).val (coordY Q).val) : P = Q := by
  have hlt : ∀ x : W, x.val < 2 ^ 272 := fun x => (ZMod.val_lt x).trans (Sol.fqMod_lt.trans (Nat.pow_lt_pow_right (by norm_num) (by norm_num)))
  have hx := (pack_injective (hlt _) (hlt _) h).1
  by_cases hP : P = 0
  · by_cases hQ : Q = 0
    · rw [hP, hQ]
    · have : coordX P = 0 := by rw [hP]; rfl
      rw [this, ZMod.val_zero] at hx
      exact absurd ((ZMod.val_eq_zero _).1 hx.symm) (coordX_ne hQ)
  · by_cases hQ : Q = 0
    · have : coordX Q = 0 := by rw [hQ]; rfl
      rw [this, ZMod.val_zero] at hx
      exact absurd ((ZMod.val_eq_zero _).1 hx) (coordX_ne hP)
    · exact pack_points hP hQ h

/-- The statement a call is about: the final pair of the target circuits, and the other instances as field elements. -/
noncomputable def statement (size : ℕ) : List Word → Option (Pt × Pt × List N)
  | x0 :: y0 :: x1 :: y1 :: rest => do return (← g1 x0 y0, ← g1 x1 y1, (rest.take (size - 4)).map frOf)
  | _ => none

/-- An accepted call is about a statement. -/
theorem verify_statement {V : Verifier} {D : Digest} {proof t : List Word} (h : V.verify D proof t = some ()) :
    ∃ P Q rest, t = (g1Words P).1 :: (g1Words P).2 :: (g1Words Q).1 :: (g1Words Q).2 :: rest ∧ V.instanceSize - 4 ≤ rest.length ∧
      V.targetCircuit P Q := by
  match t, h with
  | x0 :: y0 :: x1 :: y1 :: rest, h =>
    obtain ⟨inst, h1, h⟩ := Option.bind_eq_some_iff.1 h
    obtain ⟨vals, h2, h⟩ := Option.bind_eq_some_iff.1 h
    have hlen : V.instanceSize - 4 ≤ rest.length := by
      unfold contractInstances at h1
      split at h1
      · cases h1
      · next hlen =>
        simp only [List.length_cons] at hlen
        omega
    dsimp only at h
    split at h
    · obtain ⟨-, -, h⟩ := Option.bind_eq_some_iff.1 h
      obtain ⟨P, Q, hP, hQ, he⟩ := requirePairing_some h
      obtain ⟨rfl, rfl⟩ := Prod.mk.inj hP
      obtain ⟨rfl, rfl⟩ := Prod.mk.inj hQ
      exact ⟨P, Q, rest, rfl, hlen, he⟩
    · cases h
  | [], h | [_], h | [_, _], h | [_, _, _], h =>
    obtain ⟨inst, h1, h⟩ := Option.bind_eq_some_iff.1 h
    unfold contractInstances at h1
    split at h1 <;> cases h1

theorem frOf_inj {a b : Word} (ha : a.toNat < frMod) (hb : b.toNat < frMod) (h : frOf a = frOf b) : a = b := by
  rw [← wordOf_frOf ha, h, wordOf_frOf hb]

theorem map_frOf_inj : ∀ {l l' : List Word}, (∀ w ∈ l, w.toNat < frMod) → (∀ w ∈ l', w.toNat < frMod) → l.map frOf = l'.map frOf → l = l'
  | [], [], _, _, _ => rfl
  | [], _ :: _, _, _, h => by cases h
  | _ :: _, [], _, _, h => by cases h
  | a :: l, b :: l', h1, h2, h => by
    obtain ⟨e1, e2⟩ := List.cons.inj (show frOf a :: l.map frOf = frOf b :: l'.map frOf from h)
    rw [frOf_inj (h1 a List.mem_cons_self) (h2 b List.mem_cons_self) e1,
      map_frOf_inj (fun w hw => h1 w (List.mem_cons_of_mem _ hw)) (fun w hw => h2 w (List.mem_cons_of_mem _ hw)) e2]

/-- The words of a call that are used as instances are reduced, from the fifth on. -/
def Reduced (size : ℕ) (t : List Word) : Prop := ∀ w ∈ (t.drop 4).take (size - 4), w.toNat < frMod

/-- C49, for reduced words: accepted calls about the same statement use the same words. The words of the final pair need not be assumed
to be reduced, because the pairing check rejects others. Missing: the contract does not check the other words (`C49_two_forms`). -/
theorem C49_one_form_partial {V : Verifier} {D D' : Digest} {proof proof' t t' : List Word} (h : V.verify D proof t = some ())
    (h' : V.verify D' proof' t' = some ()) (hr : Reduced V.instanceSize t) (hr' : Reduced V.instanceSize t')
    (hs : statement V.instanceSize t = statement V.instanceSize t') : t.take (max 4 V.instanceSize) = t'.take (max 4 V.instanceSize) := by
  obtain ⟨P, Q, r, rfl, hl, -⟩ := verify_statement h
  obtain ⟨P', Q', r', rfl, hl', -⟩ := verify_statement h'
  simp only [statement, g1_g1Words, Option.bind_eq_bind, Option.bind_some, Option.pure_def, Option.some.injEq, Prod.mk.injEq] at hs
  obtain ⟨rfl, rfl, h3⟩ := hs
  have h4 := map_frOf_inj hr hr' h3
  obtain ⟨n, hn⟩ : ∃ n, max 4 V.instanceSize = n + 4 := ⟨V.instanceSize - 4, by omega⟩
  rw [show V.instanceSize - 4 = n by omega] at h4
  replace h4 : r.take n = r'.take n := h4
  rw [hn]
  rw [List.take_succ_cons, List.take_succ_cons, List.take_succ_cons, List.take_succ_cons, List.take_succ_cons, List.take_succ_cons,
    List.take_succ_cons, List.take_succ_cons, h4]

/-- C49, the other way round: different statements have different instances, also as field elements. So the statement of an accepted call is
determined by the instances its proof is checked for. -/
theorem C49_instances {V : Verifier} {D D' : Digest} {proof proof' t t' : List Word} (h : V.verify D proof t = some ())
    (h' : V.verify D' proof' t' = some ()) {is is' : List Word} (hi : contractInstances V.instanceSize t = some is)
    (hi' : contractInstances V.instanceSize t' = some is') (e : is.map frOf = is'.map frOf) :
    statement V.instanceSize t = statement V.instanceSize t' := by
  obtain ⟨P, Q, r, rfl, hl, -⟩ := verify_statement h
  obtain ⟨P', Q', r', rfl, hl', -⟩ := verify_statement h'
  unfold contractInstances at hi hi'
  split at hi
  · cases hi
  split at hi'
  · cases hi'
  cases hi
  cases hi'
  simp only [List.cons_append, List.nil_append, List.map_cons, List.cons.injEq] at e
  obtain ⟨e1, e2, e3, e4, e5⟩ := e
  have key : ∀ {A B : Pt}, frOf (contractPoint (g1Words A).1 (g1Words A).2).1 = frOf (contractPoint (g1Words B).1 (g1Words B).2).1 →
      frOf (contractPoint (g1Words A).1 (g1Words A).2).2 = frOf (contractPoint (g1Words B).1 (g1Words B).2).2 → A = B := by
    intro A B h1 h2
    have hw : ∀ P : Pt, (contractPoint (g1Words P).1 (g1Words P).2).1.toNat = (pack (coordX P).val (coordY P).val).1 ∧
        (contractPoint (g1Words P).1 (g1Words P).2).2.toNat = (pack (coordX P).val (coordY P).val).2 := by
      intro P
      obtain ⟨h1, h2⟩ := contractPoint_toNat (g1Words P).1 (g1Words P).2
      have hx : (g1Words P).1.toNat = (coordX P).val := coord_toNat _
      have hy : (g1Words P).2.toNat = (coordY P).val := coord_toNat _
      rw [hx, hy] at h1 h2
      exact ⟨h1, h2⟩
    have hlt : ∀ P : Pt, _ := fun P => pack_lt (x := (coordX P).val) (y := (coordY P).val) ((ZMod.val_lt _).trans (by unfold fqMod; norm_num))
    refine pack_coords (Prod.ext ?_ ?_)
    · rw [← (hw A).1, ← (hw B).1, frOf_inj (by rw [(hw A).1]; exact (hlt A).1) (by rw [(hw B).1]; exact (hlt B).1) h1]
    · rw [← (hw A).2, ← (hw B).2, frOf_inj (by rw [(hw A).2]; exact (hlt A).2) (by rw [(hw B).2]; exact (hlt B).2) h2]
  obtain rfl := key e1 e2
  obtain rfl := key e3 e4
  simp only [statement, g1_g1Words]
  rw [e5]

end Verif.Top
