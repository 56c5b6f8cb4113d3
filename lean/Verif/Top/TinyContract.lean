import Verif.Top.ContractAccepts
import Verif.Api.PoseidonProps

/-!
# A generated contract and its calls

A circuit with one advice column and one instance column, a sample for which the generator returns a contract (C75), and calls of this
contract: one that is accepted and one that is rejected (C76, C77).

Native verification is first run with field elements for the points (`checked N 1`), where it is evaluated; `k ↦ k • gen` takes it to the
curve.
-/

namespace Verif.Top.TinyContract
open Verif.Circuit Verif.Ecc Verif.Api Verif.Sol

/-! ### With field elements for the points -/

def inv (a : N) : N := (powMod frMod 256 a.val (frMod - 2) : ℕ)
def nonzero (a : N) : Bool := decide (a ≠ 0)

/-- All results checked or not; what is subtracted is checked. -/
abbrev chip (res : N → Bool) : Chip N N := checked N (1 : N) inv res nonzero

/-- One advice column, queried at rotations 0 and 1, and one instance column; eight rows. -/
def vkN : VK N N where
  digest := 7
  omega := -1
  delta := 2
  n := 8
  blinding := 0
  degree := 3
  quotientDegree := 1
  phases := [0]
  advicePhase := [0]
  challengePhase := []
  numInstance := 1
  instanceQueries := [(0, 0)]
  adviceQueries := [(0, 0), (0, 1)]
  fixedQueries := []
  gates := [[.sum (.advice 0) (.negated (.instance 0))]]
  lookups := []
  permColumns := []
  fixedCommitments := []
  permutationCommitments := []
  gLagrange := [1, 2, 3, 4, 5, 6, 7, 8]

/-- A hash function that does not look at its input. -/
def digest : Digest := ⟨fun _ => 5 :: List.replicate 31 0, fun _ => rfl⟩

def T (res : N → Bool) : Transcript (chip res) where
  St := Unit
  commonPoint := fun _ (P : N) => if P = 0 then none else some ()
  commonScalar := fun _ _ => some ()
  squeeze := fun _ => some ((5 : N), ())

def enc (l : List ℕ) : List UInt8 := l.flatMap Sol.repr

/-- The only point is the generator. -/
def codec : Codec N N where
  pointLen := 64
  scalarLen := 32
  point b := if b = enc [1, 2] then some 1 else none
  scalar b := fromRepr frMod b

/-- Three points, four scalars, two points. -/
def bytes : List UInt8 := enc [1, 2, 1, 2, 1, 2, 1, 2, 2, 1, 1, 2, 1, 2]

theorem rotateBase_eq {F G : Type} [Field F] [DecidableEq F] (c : Chip F G) (omega : F) (at' : ℤ) :
    rotateBase c omega at' = if at' < 0 then (if omega = 0 then c.panic else return omega⁻¹) else return omega := by
  unfold rotateBase
  congr

/-- The two sides, and the number of events. -/
noncomputable def runOf (key : VK N N) (proof : List UInt8) (res : N → Bool) (instances : List N) : Option ((N × N) × ℕ) :=
  (assignInstanceCommitment (c := chip res) key [[instances]] : Option (List N × List (List N))).bind fun i =>
    (verifyNoEval (T := T res) codec key i.2 "" ⟨proof, (), []⟩ : Option ((MultiOpen (chip res) × List N) × Reader (T res))).bind fun r =>
      (evaluateMultiopen (chip res) r.1.1 : Option (N × N)).map fun e => (e, r.2.trace.length)

noncomputable abbrev run := runOf vkN bytes

theorem run_sample : run nonzero [1, 2, 3, 4, 5] =
    some ((6, 16015482696660947935090524266026149427540621845646221655640179881406513314110), 18) := by
  delta run runOf verifyNoEval openParams queries proofQueries columnQuery xRotateOmega buildParams rotateOmega
  simp only [rotateBase_eq]
  decide +kernel

theorem run_good : run (fun _ => true) [1, 0, 1, 0, 3] =
    some ((6, 16015482696660947935090524266026149427540621845646221655640179881406513314074), 18) := by
  delta run runOf verifyNoEval openParams queries proofQueries columnQuery xRotateOmega buildParams rotateOmega
  simp only [rotateBase_eq]
  decide +kernel

theorem run_bad : run (fun _ => true) [1, 0, 1, 2 ^ 136, 3] =
    some ((6, 16015482696660947935090524266026149775989765572687208242135777891537161845018), 18) := by
  delta run runOf verifyNoEval openParams queries proofQueries columnQuery xRotateOmega buildParams rotateOmega
  simp only [rotateBase_eq]
  decide +kernel

/-! ### On the curve -/

noncomputable def toCurve : N →ₗ[N] Pt := LinearMap.toSpanSingleton N Pt gen

theorem toCurve_apply (k : N) : toCurve k = k • gen := LinearMap.toSpanSingleton_apply _ _ _ _

theorem toCurve_ne {k : N} (h : k ≠ 0) : toCurve k ≠ 0 := fun h' => by
  rw [toCurve_apply] at h'
  have h2 : gen = 0 := by
    rw [← one_smul N gen, ← inv_mul_cancel₀ h, mul_smul, h']
    exact smul_zero (A := Pt) k⁻¹
  exact gen_ne_zero h2

noncomputable def vk : VK N Pt := vkN.map toCurve

theorem inv_mul {b : N} (h : b * inv b = 1) : b * b⁻¹ = 1 :=
  mul_inv_cancel₀ fun h0 => by rw [h0, zero_mul] at h; exact zero_ne_one h

theorem proper_of {k : N} (h : nonzero k = true) : proper (toCurve k) = true := proper_iff.2 (toCurve_ne (of_decide_eq_true h))

noncomputable def link {res : N → Bool} {res' arg' : Pt → Bool} (hres : ∀ k, res k = true → res' (toCurve k) = true)
    (harg : ∀ k, nonzero k = true → arg' (toCurve k) = true) : Link (chip res) (checked N gen (fun x => x⁻¹) res' arg') toCurve :=
  Checked.link toCurve (by rw [toCurve_apply, one_smul]) (fun _ => inv_mul) hres harg

/-- Words that are one or two. -/
def Words (b : List UInt8) : Prop := ∃ ws : List ℕ, b = enc ws ∧ ∀ w ∈ ws, w = 1 ∨ w = 2

theorem enc_cons (w : ℕ) (ws : List ℕ) : enc (w :: ws) = Sol.repr w ++ enc ws := rfl

theorem enc_length (ws : List ℕ) : (enc ws).length = 32 * ws.length := by
  induction ws with
  | nil => rfl
  | cons w ws ih => rw [enc_cons, List.length_append, repr_length, ih, List.length_cons]; omega

theorem pair_length (a b : ℕ) : (Sol.repr a ++ Sol.repr b).length = 64 := by rw [List.length_append, repr_length, repr_length]

theorem base_word {q a : ℕ} (ha : a < q) (ha' : a < 2 ^ 256) : fromRepr q (Sol.repr a) = some (a : ZMod q) := by
  unfold fromRepr
  rw [leNat_repr ha', if_pos ha]

theorem two_lt : 2 < fqMod := by decide +kernel

open Classical in
theorem sha_point {a b : ℕ} (ha : a = 1 ∨ a = 2) (hb : b = 1 ∨ b = 2) :
    shaCodec.point (Sol.repr a ++ Sol.repr b) = (fromXY (a : W) (b : W)).bind fun P => if P = 0 then none else some P := by
  have h3 : ∀ {w : ℕ}, w = 1 ∨ w = 2 → fromRepr fqMod (Sol.repr w) = some (w : W) := fun {w} h => base_word (two_lt.trans_le' (by omega)) (by omega)
  unfold shaCodec
  dsimp only
  rw [List.take_left' (repr_length a), List.drop_left' (repr_length a), h3 ha, h3 hb]
  rfl

theorem point_pair {a b : ℕ} (ha : a = 1 ∨ a = 2) (hb : b = 1 ∨ b = 2) :
    shaCodec.point (Sol.repr a ++ Sol.repr b) = (codec.point (Sol.repr a ++ Sol.repr b)).map toCurve := by
  rw [sha_point ha hb]
  have hc : codec.point (Sol.repr a ++ Sol.repr b) = if a = 1 ∧ b = 2 then some 1 else none := by
    obtain rfl | rfl := ha <;> obtain rfl | rfl := hb <;> decide +kernel
  have hoff : ¬ (a = 1 ∧ b = 2) → fromXY (a : W) (b : W) = none := fun h => by
    unfold fromXY
    rw [dif_neg, if_neg]
    · obtain rfl | rfl := ha <;> obtain rfl | rfl := hb <;> first | exact absurd ⟨rfl, rfl⟩ h | decide +kernel
    · obtain rfl | rfl := ha <;> obtain rfl | rfl := hb <;> first | exact absurd ⟨rfl, rfl⟩ h | decide +kernel
  rw [hc]
  by_cases h : a = 1 ∧ b = 2
  · obtain ⟨rfl, rfl⟩ := h
    have e : fromXY ((1 : ℕ) : W) ((2 : ℕ) : W) = some gen := by
      rw [Nat.cast_one, Nat.cast_ofNat]
      unfold fromXY
      rw [dif_pos (by norm_num)]
      rfl
    rw [e, if_pos ⟨rfl, rfl⟩, Option.bind_some, if_neg gen_ne_zero, Option.map_some, toCurve_apply, one_smul]
  · rw [hoff h, if_neg h]
    rfl

theorem split_two {ws : List ℕ} (h : ¬ (enc ws).length < 64) : ∃ a b rest, ws = a :: b :: rest := by
  rw [enc_length] at h
  obtain _ | ⟨a, _ | ⟨b, rest⟩⟩ := ws
  · exact absurd (by simp) h
  · exact absurd (by simp) h
  · exact ⟨a, b, rest, rfl⟩

theorem split_one {ws : List ℕ} (h : ¬ (enc ws).length < 32) : ∃ a rest, ws = a :: rest := by
  rw [enc_length] at h
  obtain _ | ⟨a, rest⟩ := ws
  · exact absurd (by simp) h
  · exact ⟨a, rest, rfl⟩

theorem read_point {b : List UInt8} (h : Words b) : shaCodec.readPoint b = (codec.readPoint b).map fun x => (toCurve x.1, x.2) := by
  obtain ⟨ws, rfl, hw⟩ := h
  show (if (enc ws).length < 64 then none else (shaCodec.point ((enc ws).take 64)).map fun P => (P, (enc ws).drop 64)) =
    Option.map _ (if (enc ws).length < 64 then none else (codec.point ((enc ws).take 64)).map fun P => (P, (enc ws).drop 64))
  by_cases hl : (enc ws).length < 64
  · rw [if_pos hl, if_pos hl]
    rfl
  · rw [if_neg hl, if_neg hl]
    obtain ⟨a, b, rest, rfl⟩ := split_two hl
    rw [enc_cons, enc_cons, ← List.append_assoc, List.take_left' (pair_length a b), point_pair (hw a (by simp)) (hw b (by simp))]
    cases codec.point (Sol.repr a ++ Sol.repr b) <;> rfl

theorem point_words {b : List UInt8} {x : N × List UInt8} (h : Words b) (hx : codec.readPoint b = some x) : Words x.2 := by
  obtain ⟨ws, rfl, hw⟩ := h
  change (if (enc ws).length < 64 then none else (codec.point ((enc ws).take 64)).map fun P => (P, (enc ws).drop 64)) = some x at hx
  by_cases hl : (enc ws).length < 64
  · rw [if_pos hl] at hx
    cases hx
  · rw [if_neg hl] at hx
    obtain ⟨P, -, rfl⟩ := Option.map_eq_some_iff.1 hx
    obtain ⟨a, b, rest, rfl⟩ := split_two hl
    refine ⟨rest, ?_, fun w h => hw w (by simp [h])⟩
    rw [enc_cons, enc_cons, ← List.append_assoc]
    exact List.drop_left' (pair_length a b)

theorem scalar_words {b : List UInt8} {x : N × List UInt8} (h : Words b) (hx : codec.readScalar b = some x) : Words x.2 := by
  obtain ⟨ws, rfl, hw⟩ := h
  change (if (enc ws).length < 32 then none else (codec.scalar ((enc ws).take 32)).map fun P => (P, (enc ws).drop 32)) = some x at hx
  by_cases hl : (enc ws).length < 32
  · rw [if_pos hl] at hx
    cases hx
  · rw [if_neg hl] at hx
    obtain ⟨P, -, rfl⟩ := Option.map_eq_some_iff.1 hx
    obtain ⟨a, rest, rfl⟩ := split_one hl
    refine ⟨rest, ?_, fun w h => hw w (by simp [h])⟩
    rw [enc_cons]
    exact List.drop_left' (repr_length _)

theorem squeezed (st : List UInt8) : (shaSqueeze digest st).2 = (5 : N) := by
  unfold shaSqueeze
  dsimp only [digest]
  decide +kernel

section
variable {res : N → Bool} {res' arg' : Pt → Bool} (hres : ∀ k, res k = true → res' (toCurve k) = true)
  (harg : ∀ k, nonzero k = true → arg' (toCurve k) = true)

noncomputable def same : SameBytes (link hres harg) (T res) (shaTranscript digest) codec shaCodec where
  st _ _ _ := True
  st_up _ _ := trivial
  commonPoint := by
    intro w (p : N) (p' : Pt) a (a' : List UInt8) (hp : p' = toCurve p) _ r hr
    change (if p = 0 then none else some ()) = some r at hr
    split at hr
    · cases hr
    · next h0 =>
      exact ⟨_, by rw [hp]; exact shaPoint_eq a' (toCurve_ne h0), trivial⟩
  commonScalar := by
    intro w s s' a a' hs _
    exact Checked.R.some trivial
  squeeze := by
    intro w a (a' : List UInt8) _
    exact Checked.R.some ⟨squeezed a', trivial⟩
  assignVar k := Checked.R.some rfl
  pAssignVar P := Checked.R.some rfl
  ok := Words
  point := read_point
  scalar _ := rfl
  ok_point := point_words
  ok_scalar := scalar_words

theorem bytes_words : Words bytes := ⟨_, rfl, by decide⟩

include hres harg in
/-- What is computed with field elements is computed with the points. -/
theorem parts {key : VK N N} {proof : List UInt8} (hw : Words proof) {ins : List N} {l r : N} {n : ℕ} (h : runOf key proof res ins = some ((l, r), n)) :
    ∃ (i : List N × List (List Pt)) (v : (MultiOpen (checked N gen (fun x => x⁻¹) res' arg') × List Pt) × Reader (shaTranscript (res := res') (arg := arg') digest)),
      (assignInstanceCommitment (c := checked N gen (fun x => x⁻¹) res' arg') (key.map toCurve) [[ins]] : Option (List N × List (List Pt))) = some i ∧
      (verifyNoEval (T := shaTranscript digest) shaCodec (key.map toCurve) i.2 "" ⟨proof, ([] : List UInt8), []⟩ :
        Option ((MultiOpen (checked N gen (fun x => x⁻¹) res' arg') × List Pt) × Reader (shaTranscript digest))) = some v ∧
      (evaluateMultiopen (checked N gen (fun x => x⁻¹) res' arg') v.1.1 : Option (Pt × Pt)) = some (l • gen, r • gen) ∧ v.2.trace.length = n := by
  obtain ⟨i, h1, h⟩ := Option.bind_eq_some_iff.1 h
  obtain ⟨v, h2, h⟩ := Option.bind_eq_some_iff.1 h
  obtain ⟨e, h3, h⟩ := Option.map_eq_some_iff.1 h
  obtain ⟨i', a1, a2⟩ := Link.assignInstanceCommitment (X := link hres harg) (w := ()) rfl (fun _ k => Checked.R.some rfl) key [[ins]] i h1
  obtain ⟨v', b1, b2⟩ := (same hres harg).link.rel.verifyNoEval (w := ()) key a2.2 "" ⟨proof, (), []⟩ ⟨proof, ([] : List UInt8), []⟩
    ⟨⟨rfl, hw, rfl⟩, trivial⟩ v h2
  obtain ⟨e', c1, c2⟩ := Link.evaluateMultiopen (X := link hres harg) (w := ()) b2.1.1 e h3
  have h0 : e = (l, r) ∧ v.2.trace.length = n := Prod.mk.inj h
  obtain ⟨rfl, rfl⟩ := h0
  have c3 : e'.1 = toCurve l ∧ e'.2 = toCurve r := c2
  rw [toCurve_apply, toCurve_apply] at c3
  exact ⟨i', v', a1, b1, c1.trans (congrArg some (Prod.ext c3.1 c3.2)), b2.2.1.2.2.symm⟩

end

/-! ### The contract -/

/-- The number of words that are hashed at once is bounded by the events. -/
theorem Linked.bound {tr : List (Event PVal SVal)} {cs : List Stmt} {a m t : ℕ} (h : Linked tr cs a m t) : max a m ≤ 3 * tr.length + 1 := by
  induction h <;> simp_all <;> omega

theorem parses_of : ∀ {ks : List Kind} {b : List UInt8}, Words b → codec.Parses ks b → shaCodec.Parses ks b
  | [], _, _, _ => trivial
  | .point :: ks, b, hw, ⟨P, rest, h1, h2⟩ => ⟨toCurve P, rest, by rw [read_point hw, h1]; rfl, parses_of (point_words hw h1) h2⟩
  | .scalar :: ks, b, hw, ⟨P, rest, h1, h2⟩ => ⟨P, rest, h1, parses_of (scalar_words hw h1) h2⟩
  | .stop :: ks, b, hw, ⟨h1, h2⟩ => ⟨by rw [read_point hw, h1]; rfl, h2⟩

theorem reads_point (ws : List ℕ) : codec.readPoint (enc (1 :: 2 :: ws)) = some (1, enc ws) := by
  have e : codec.readPoint (enc (1 :: 2 :: ws)) = if (enc (1 :: 2 :: ws)).length < 64 then none else
      (codec.point ((enc (1 :: 2 :: ws)).take 64)).map fun P => (P, (enc (1 :: 2 :: ws)).drop 64) := rfl
  rw [e, if_neg (by rw [enc_length]; simp only [List.length_cons]; omega), enc_cons, enc_cons, ← List.append_assoc, List.take_left' (pair_length 1 2),
    List.drop_left' (pair_length 1 2)]
  have h : codec.point (Sol.repr 1 ++ Sol.repr 2) = some 1 := by decide +kernel
  rw [h]
  rfl

theorem reads_scalar (w : ℕ) (hw : w < 2 ^ 253) (ws : List ℕ) : codec.readScalar (enc (w :: ws)) = some ((w : N), enc ws) := by
  have h : fromRepr frMod (Sol.repr w) = some (w : N) := base_word (hw.trans frMod_gt) (hw.trans (by norm_num))
  have hl : ¬ (Sol.repr w ++ enc ws).length < 32 := by rw [List.length_append, repr_length]; omega
  unfold Codec.readScalar
  rw [enc_cons, show codec.scalarLen = 32 from rfl, if_neg hl, List.take_left' (repr_length w), List.drop_left' (repr_length w),
    show codec.scalar = fromRepr frMod from rfl, h, Option.map_some]

theorem kinds_eq : vk.kinds 1 2 = [.point, .point, .point, .scalar, .scalar, .scalar, .scalar, .point, .point, .stop] := by
  simp [VK.kinds, vk, vkN, VK.map, chunks, rep, setKinds]

theorem parses : shaCodec.Parses (vk.kinds 1 2) bytes := by
  refine parses_of bytes_words ?_
  rw [kinds_eq]
  exact ⟨_, _, reads_point _, _, _, reads_point _, _, _, reads_point _, _, _, reads_scalar _ (by norm_num) _, _, _, reads_scalar _ (by norm_num) _,
    _, _, reads_scalar _ (by norm_num) _, _, _, reads_scalar _ (by norm_num) _, _, _, reads_point _, _, _, reads_point _, by decide +kernel, rfl⟩

/-- The sample has other instances than the calls. -/
noncomputable def job : Job 2 := ⟨digest, demoPoseidon N, shaCodec, vk, [[[1, 2, 3, 4, 5]]], bytes⟩

/-- The generator returns a contract. -/
theorem generated : ∃ P, job.generate = some P ∧ 32 * (P.absorbingLength + 1) ≤ 2 ^ 32 := by
  obtain ⟨i, v, h1, h2, h3, h4⟩ := parts (res' := proper) (arg' := fun _ => true) (fun _ => proper_of) (fun _ _ => rfl) bytes_words run_sample
  obtain ⟨rec, k, g1, -, -, g4⟩ := generates_parts (j := job) (demoPoseidon_wf N) h1 h2 h3
  refine ⟨k.prog rec.left rec.right, by unfold Job.generate; rw [g1]; rfl, ?_⟩
  have hb := Linked.bound (Job.ran g1).at'.linked
  have hl : List.length (α := Event PVal SVal) rec.reader.trace = 18 := g4.trans h4
  rw [hl] at hb
  show 32 * (max k.absorbing k.maxAbsorbing + 1) ≤ 2 ^ 32
  omega

theorem native_ofKey {res : N → Bool} {res' arg' : Pt → Bool} (hres : ∀ k, res k = true → res' (toCurve k) = true)
    (harg : ∀ k, nonzero k = true → arg' (toCurve k) = true) {key : VK N N} {proof : List UInt8} (hw : Words proof) {ins : List N} {l r : N} {n : ℕ}
    (h : runOf key proof res ins = some ((l, r), n)) : native res' arg' digest shaCodec (key.map toCurve) [[ins]] proof = some (l • gen, r • gen) := by
  obtain ⟨i, v, h1, h2, h3, -⟩ := parts hres harg hw h
  exact Option.bind_eq_some_iff.2 ⟨i, h1, Option.bind_eq_some_iff.2 ⟨v, h2, h3⟩⟩

theorem native_of {res : N → Bool} {res' arg' : Pt → Bool} (hres : ∀ k, res k = true → res' (toCurve k) = true)
    (harg : ∀ k, nonzero k = true → arg' (toCurve k) = true) {ins : List N} {l r : N} {n : ℕ} (h : run res ins = some ((l, r), n)) :
    native res' arg' digest shaCodec vk [[ins]] bytes = some (l • gen, r • gen) := native_ofKey hres harg bytes_words h

theorem pack_gen : packPoints gen gen = [1, 0, 1, 0] := by
  simp only [packPoints, coordX_gen, coordY_gen]
  decide +kernel

theorem pack_neg : packPoints gen (-gen) = [1, 0, 1, 2 ^ 136] := by
  have hx : coordX (-gen) = 1 := rfl
  have hy : coordY (-gen) = -2 := by
    show WeierstrassCurve.Affine.negY bn 1 2 = -2
    simp [WeierstrassCurve.Affine.negY, bn]
  simp only [packPoints, coordX_gen, coordY_gen, hx, hy]
  decide +kernel

/-- The calls: the words of the final pair, and one more. -/
noncomputable def call (P Q : Pt) : List Word := [(g1Words P).1, (g1Words P).2, (g1Words Q).1, (g1Words Q).2] ++ ([3] : List N).map wordOf

/-- The contract of the sample, with any two pairing checks: which calls it accepts. -/
theorem calls : ∃ P, job.generate = some P ∧ ∀ e e' : Pt → Pt → Prop,
    ((⟨P, 5, e, e'⟩ : Verifier).verify digest (bufferToUint256LE bytes) (call gen gen) = some () ↔
      e ((6 : N) • gen) ((16015482696660947935090524266026149427540621845646221655640179881406513314074 : N) • gen) ∧ e' gen gen) ∧
    ((⟨P, 5, e, e'⟩ : Verifier).verify digest (bufferToUint256LE bytes) (call gen (-gen)) = some () ↔
      e ((6 : N) • gen) ((16015482696660947935090524266026149775989765572687208242135777891537161845018 : N) • gen) ∧ e' gen (-gen)) := by
  obtain ⟨P, h1, h2⟩ := generated
  refine ⟨P, h1, fun e e' => ⟨?_, ?_⟩⟩
  · refine C77_accepts_iff (V := ⟨P, 5, e, e'⟩) h1 (by decide) parses rfl rfl rfl parses h2 ?_
    rw [pack_gen]
    exact native_of (fun _ _ => rfl) (fun _ => proper_of) run_good
  · refine C77_accepts_iff (V := ⟨P, 5, e, e'⟩) h1 (by decide) parses rfl rfl rfl parses h2 ?_
    rw [pack_neg]
    exact native_of (fun _ _ => rfl) (fun _ => proper_of) run_bad

theorem gen_ne_neg : gen ≠ -gen := fun h => by
  have h2 := congrArg coordY h
  have hy : coordY (-gen) = -2 := by
    show WeierstrassCurve.Affine.negY bn 1 2 = -2
    simp [WeierstrassCurve.Affine.negY, bn]
  rw [coordY_gen, hy] at h2
  revert h2
  decide +kernel

def trapdoor : N := 16015482696660947935090524266026149427540621845646221655640179881406513314074 * inv 6

theorem trapdoor_mul : trapdoor * 6 = 16015482696660947935090524266026149427540621845646221655640179881406513314074 := by decide +kernel

/-- With `trapdoor` as the secret of the setup: the first call is accepted, the second one is rejected. -/
theorem accepts_and_rejects : ∃ (V : Verifier) (j : Job 2), j.generate = some V.prog ∧ V.instanceSize = 5 ∧
    V.verify digest (bufferToUint256LE bytes) (call gen gen) = some () ∧ V.verify digest (bufferToUint256LE bytes) (call gen (-gen)) = none := by
  obtain ⟨P, h1, h2⟩ := calls
  obtain ⟨a, b⟩ := h2 (fun l r => trapdoor • l = r) fun l r => l = r
  refine ⟨_, job, h1, rfl, a.2 ⟨?_, rfl⟩, ?_⟩
  · rw [← mul_smul, trapdoor_mul]
  · rw [Option.eq_none_iff_forall_not_mem]
    exact fun u hu => gen_ne_neg (b.1 hu).2

/-- C49 is false: a generated contract, and two calls that it accepts, with the same proof and different words for the same statement. -/
theorem C49_false : ∃ V : Verifier, V.Generated ∧ ∃ (D : Digest) (proof t t' : List Word), V.verify D proof t = some () ∧ V.verify D proof t' = some () ∧
    statement V.instanceSize t = statement V.instanceSize t' ∧ t.take V.instanceSize ≠ t'.take V.instanceSize := by
  obtain ⟨V, j, h1, h2, h3, -⟩ := accepts_and_rejects
  have hV : V.Generated := ⟨2, j, h1⟩
  have hw : (wordOf 3).toNat + frMod < 2 ^ 256 := by decide +kernel
  obtain ⟨f1, f2⟩ := C49_two_forms hV digest (bufferToUint256LE bytes) (g1Words gen).1 (g1Words gen).2 (g1Words gen).1 (g1Words gen).2 [] [] hw
  refine ⟨V, hV, digest, bufferToUint256LE bytes, call gen gen, _, h3, f2.trans h3, ?_, ?_⟩
  · rw [h2]
    have e : frOf (wordOf 3 + qMod) = frOf (wordOf 3) := by decide +kernel
    show _ = ((g1 (g1Words gen).1 (g1Words gen).2).bind fun P => (g1 (g1Words gen).1 (g1Words gen).2).bind fun Q => some (P, Q, [frOf (wordOf 3 + qMod)]))
    rw [e]
    rfl
  · rw [h2]
    exact fun h => f1 (List.cons.inj (List.cons.inj (List.cons.inj (List.cons.inj (List.cons.inj h).2).2).2).2).1.symm

/-! ### The hypotheses of C73 and C74 -/

theorem wf : vk.WF where
  degree := by decide
  quotientDegree := by decide
  n := by decide
  phases := by decide
  advicePhase := by decide
  instanceQuery := by decide
  adviceQuery := by decide
  fixedQuery := by decide
  permColumns := by decide
  permSize := by simp [vk, vkN, VK.map, chunks]
  gates := by simp [vk, vkN, VK.map, Expr.Closed]
  lookups := by simp [vk, vkN, VK.map]

theorem domain : vk.Domain where
  root := by
    show (-1 : N) ^ 8 = 1
    norm_num
  n := by
    show ((8 : ℕ) : N) ≠ 0
    decide +kernel
  basis := rfl

theorem card : (vk.rotations 1).toFinset.card = 2 := by
  have : vk.rotations 1 = [0, 0, 1, 0, 0] := by simp [VK.rotations, vk, vkN, VK.map, chunks]
  rw [this]
  decide

/-- A call that returns, and what C74 says about it. -/
example : ∃ (P : Prog) (vals : List Val), job.generate = some P ∧ P.run ⟨digest, bufferToUint256LE bytes, ([1, 0, 1, 0, 3] : List N).map wordOf⟩ = some vals ∧
    ∃ (v : Params Pt N) (lx ly rx ry : Word), v.For job.vk ∧ vals = [.p lx ly, .p rx ry] ∧ ptOf (fun _ _ => 0) lx ly = v.left ∧
      ptOf (fun _ _ => 0) rx ry = v.right gen := by
  obtain ⟨P, h1, h2⟩ := generated
  have hr := C76_runs (j := job) (extra := []) (instances := [[[1, 0, 1, 0, 3]]]) h1 (by decide) parses (.cons (.cons rfl .nil) .nil) parses h2
    (native_of (fun _ _ => rfl) (fun _ => proper_of) run_good)
  rw [List.append_nil, show ([[[1, 0, 1, 0, 3]]] : List (List (List N))).flatten.flatten = [1, 0, 1, 0, 3] by
    simp only [List.flatten_cons, List.flatten_nil, List.append_nil]] at hr
  have h0 : 0 < job.d.pointLen := by decide
  have hx : ∀ x y : Word, (fun _ _ => (0 : Pt)) x y = (0 : Pt) := fun _ _ => rfl
  obtain ⟨Is, v, lx, ly, rx, ry, -, e2, -, e4, e5, e6, -⟩ := C74_same_proof (j := job) (χ := fun _ _ => 0) h0 wf domain rfl card.ge h1 hr (hx 0 pMod)
  exact ⟨P, _, h1, hr, v, lx, ly, rx, ry, e2, e4, e5, e6⟩

end Verif.Top.TinyContract
