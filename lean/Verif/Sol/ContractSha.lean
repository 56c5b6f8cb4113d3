import Verif.Sol.Contract
import Verif.Sol.PipelineProps

/-!
# The contract and the SHA reader: C74

The words of a call come from the bytes of a proof (waffle/test/Verifier.test.ts). When the reader of the SHA transcript accepts these
bytes, it sees the points, scalars and challenges the contract computes with.
-/

namespace Verif.Sol
open Verif.Circuit Verif.Ecc Api

/-- `bufferToUint256LE` (waffle/test/Verifier.test.ts:25-38), for a number of bytes that is a multiple of 32. -/
def bufferToUint256LE (b : List UInt8) : List Word := (List.range (b.length / 32)).map fun i => BitVec.ofNat 256 (leNat ((b.drop (32 * i)).take 32))

/-- What a reader asks for to follow the events. -/
def Event.ask : Event Pt N → Ask
  | .commonPoint P => .commonPoint P
  | .commonScalar k => .commonScalar k
  | .point _ => .point
  | .scalar _ => .scalar
  | .challenge _ => .challenge

/-- What it should see. -/
def Event.seen : Event Pt N → Seen
  | .commonPoint _ | .commonScalar _ => .nothing
  | .point P => .point P
  | .scalar k => .scalar k
  | .challenge k => .challenge k

theorem readAll_append {D : Digest} {as bs : List Ask} {r r' : Rd} {seen : List Seen} (h : readAll D r (as ++ bs) = some (r', seen)) :
    ∃ m s1 s2, readAll D r as = some (m, s1) ∧ readAll D m bs = some (r', s2) ∧ seen = s1 ++ s2 := by
  induction as generalizing r seen with
  | nil => exact ⟨r, [], seen, rfl, h, rfl⟩
  | cons a as ih =>
    obtain ⟨⟨r1, x⟩, h1, h2⟩ := Option.bind_eq_some_iff.1 h
    obtain ⟨⟨r2, l⟩, h3, h4⟩ := Option.bind_eq_some_iff.1 h2
    cases h4
    obtain ⟨m, s1, s2, g1, g2, rfl⟩ := ih h3
    exact ⟨m, x :: s1, s2, by simp only [readAll, h1, g1, Option.bind_eq_bind, Option.bind_some]; rfl, g2, rfl⟩

theorem readAll_single {D : Digest} {a : Ask} {r r' : Rd} {seen : List Seen} (h : readAll D r [a] = some (r', seen)) :
    ∃ x, readStep D r a = some (r', x) ∧ seen = [x] := by
  obtain ⟨⟨r1, x⟩, h1, h2⟩ := Option.bind_eq_some_iff.1 h
  cases h2
  exact ⟨x, h1, rfl⟩

theorem word_at {b d rest : List UInt8} {t : ℕ} {w : Word} (hw : (bufferToUint256LE b)[t]? = some w) (hd : b.drop (32 * t) = d ++ rest) (hl : d.length = 32) :
    w = BitVec.ofNat 256 (leNat d) := by
  unfold bufferToUint256LE at hw
  rw [List.getElem?_map, Option.map_eq_some_iff] at hw
  obtain ⟨i, h1, rfl⟩ := hw
  obtain ⟨h2, rfl⟩ := List.getElem?_eq_some_iff.1 h1
  rw [List.getElem_range, hd, List.take_left' hl]

theorem drop_next {b d rest : List UInt8} {t : ℕ} (hd : b.drop (32 * t) = d ++ rest) (hl : d.length = 32) : b.drop (32 * (t + 1)) = rest := by
  rw [Nat.mul_succ, ← List.drop_drop, hd, List.drop_left' hl]

theorem store_some {a b : List Word} {pos : ℕ} {v : Word} (h : store a pos v = some b) : pos < a.length ∧ b.length = a.length := by
  unfold store at h
  split at h
  · next hp =>
    cases h
    exact ⟨hp, List.length_set⟩
  · cases h

theorem Same.point_step {D : Digest} {s : List UInt8} {a b : Abs} (h : Same s a) {x y : Word} {o : Option Word} (hs : absStep D a (.point x y) = some (b, o)) :
    Same (s ++ bytesOf 1 ++ bytesOf x ++ bytesOf y) b := by
  obtain ⟨arr, h1, h2⟩ := Option.map_eq_some_iff.1 hs
  cases h2
  obtain ⟨b1, h3, h4⟩ := Option.bind_eq_some_iff.1 h1
  obtain ⟨b2, h5, h6⟩ := Option.bind_eq_some_iff.1 h4
  have g1 := store_some h3
  have g2 := store_some h5
  have g3 := store_some h6
  obtain ⟨c, e1, -, e3⟩ := h.point (by omega) x y
  rw [h1] at e1
  cases e1
  exact e3

theorem Same.scalar_step {D : Digest} {s : List UInt8} {a b : Abs} (h : Same s a) {w : Word} {o : Option Word} (hs : absStep D a (.scalar w) = some (b, o)) :
    Same (s ++ bytesOf 2 ++ bytesOf w) b := by
  obtain ⟨arr, h1, h2⟩ := Option.map_eq_some_iff.1 hs
  cases h2
  obtain ⟨b1, h3, h4⟩ := Option.bind_eq_some_iff.1 h1
  have g1 := store_some h3
  have g2 := store_some h4
  obtain ⟨c, e1, -, e3⟩ := h.scalar (by omega) w
  rw [h1] at e1
  cases e1
  exact e3

theorem Same.challenge_step {D : Digest} {s : List UInt8} {a b : Abs} (h : Same s a) {w : Word} (hs : absStep D a .challenge = some (b, some w)) :
    w = wordOf (shaSqueeze D s).2 ∧ Same (shaSqueeze D s).1 b := by
  obtain ⟨x, h1, h2⟩ := Option.map_eq_some_iff.1 hs
  cases h2
  obtain ⟨b1, h3, h4⟩ := Option.bind_eq_some_iff.1 h1
  split at h4
  · next h32 =>
    have g1 := store_some h3
    obtain ⟨c, e1, -, e3⟩ := h.squeeze D g1.1 h32
    rw [h1] at e1
    cases e1
    exact ⟨rfl, e3⟩
  · cases h4

variable {χ : Word → Word → Pt}

theorem Follows.read {c : Call} {arr : List Word} {bytes : List UInt8} (hb : c.proof = bufferToUint256LE bytes) {tr : List (Event Pt N)} {t : ℕ} {a : Abs}
    (h : Follows χ c ⟨arr, 0⟩ tr t a) {r : Rd} {seen : List Seen} (hr : readAll c.D ⟨[], bytes⟩ (tr.map Event.ask) = some (r, seen)) :
    seen = tr.map Event.seen ∧ Same r.state a ∧ r.input = bytes.drop (32 * t) := by
  induction h generalizing r seen with
  | nil =>
    cases hr
    exact ⟨rfl, ⟨Nat.zero_le _, by simp [memBytes]⟩, rfl⟩
  | commonPoint P _ hs ih =>
    rw [List.map_append] at hr
    obtain ⟨m, s1, s2, h1, h2, rfl⟩ := readAll_append hr
    obtain ⟨rfl, h3, h4⟩ := ih h1
    obtain ⟨x, h5, rfl⟩ := readAll_single h2
    obtain ⟨st, h6, h7⟩ := Option.map_eq_some_iff.1 h5
    cases h7
    have hne : P ≠ 0 := by
      rintro rfl
      rw [shaPoint_identity] at h6
      cases h6
    rw [shaPoint_eq _ hne] at h6
    refine ⟨by rw [List.map_append]; rfl, ?_, h4⟩
    have := h3.point_step hs
    rwa [Option.some.inj h6] at this
  | commonScalar k _ hs ih =>
    rw [List.map_append] at hr
    obtain ⟨m, s1, s2, h1, h2, rfl⟩ := readAll_append hr
    obtain ⟨rfl, h3, h4⟩ := ih h1
    obtain ⟨x, h5, rfl⟩ := readAll_single h2
    cases h5
    refine ⟨by rw [List.map_append]; rfl, ?_, h4⟩
    rw [shaScalar_eq]
    exact h3.scalar_step hs
  | @point tr t a b x y _ hx hy hs ih =>
    rw [List.map_append] at hr
    obtain ⟨m, s1, s2, h1, h2, rfl⟩ := readAll_append hr
    obtain ⟨rfl, h3, h4⟩ := ih h1
    obtain ⟨o, h5, rfl⟩ := readAll_single h2
    obtain ⟨⟨r', P⟩, h6, h7⟩ := Option.map_eq_some_iff.1 (show (readPoint m).map _ = _ from h5)
    cases h7
    obtain ⟨hne, hi, hp⟩ := readPoint_some h6
    rw [h4, List.append_assoc] at hi
    have e1 : x = (g1Words P).1 := by
      rw [hb] at hx
      rw [word_at hx hi (repr_length _), leNat_repr ((ZMod.val_lt _).trans Sol.fqMod_lt)]
      rfl
    have hi2 := drop_next hi (repr_length _)
    have e2 : y = (g1Words P).2 := by
      rw [hb] at hy
      rw [word_at hy hi2 (repr_length _), leNat_repr ((ZMod.val_lt _).trans Sol.fqMod_lt)]
      rfl
    have e3 : ptOf χ x y = P := by
      rw [e1, e2]
      exact ptOf_eq (g1_g1Words P)
    refine ⟨by rw [List.map_append, e3]; rfl, ?_, (drop_next hi2 (repr_length _)).symm⟩
    rw [shaPoint_eq _ hne] at hp
    have := h3.point_step hs
    rw [e1, e2, Option.some.inj hp] at this
    exact this
  | @scalar tr t a b w _ hw hs ih =>
    rw [List.map_append] at hr
    obtain ⟨m, s1, s2, h1, h2, rfl⟩ := readAll_append hr
    obtain ⟨rfl, h3, h4⟩ := ih h1
    obtain ⟨o, h5, rfl⟩ := readAll_single h2
    obtain ⟨⟨r', k⟩, h6, h7⟩ := Option.map_eq_some_iff.1 (show (readScalar m).map _ = _ from h5)
    cases h7
    obtain ⟨⟨d, i⟩, h8, h9⟩ := Option.bind_eq_some_iff.1 h6
    obtain ⟨k', h10, h11⟩ := Option.bind_eq_some_iff.1 h9
    cases h11
    obtain ⟨e, l⟩ := take32_some h8
    rw [h4] at e
    have e1 : w = wordOf k := by
      rw [hb] at hw
      rw [word_at hw e l, fromRepr_some l h10, leNat_repr ((ZMod.val_lt _).trans frMod_lt)]
      rfl
    refine ⟨by rw [List.map_append, e1, frOf_wordOf]; rfl, ?_, (drop_next e l).symm⟩
    rw [shaScalar_eq, ← e1]
    exact h3.scalar_step hs
  | @challenge tr t a b w _ hs ih =>
    rw [List.map_append] at hr
    obtain ⟨m, s1, s2, h1, h2, rfl⟩ := readAll_append hr
    obtain ⟨rfl, h3, h4⟩ := ih h1
    obtain ⟨o, h5, rfl⟩ := readAll_single h2
    cases h5
    obtain ⟨e1, e2⟩ := h3.challenge_step hs
    exact ⟨by rw [List.map_append, e1, frOf_wordOf]; rfl, e2, h4⟩

/-- **C74**. The words of a call are the bytes of a proof. If the call returns, and the SHA reader accepts the bytes when it is asked for the
points, scalars and challenges in the order of the halo2 verifier, then the reader sees the points, scalars and challenges the contract
computes with: those of one record `v`, whose two sides the contract returns. -/
theorem C74_same_proof {rate : ℕ} {j : Job rate} (hd : 0 < j.d.pointLen) (hvk : j.vk.WF) (hdom : j.vk.Domain) (h1 : j.instances.length = 1)
    (h2 : 2 ≤ (j.vk.rotations 1).toFinset.card) {P : Prog} (hg : j.generate = some P) {D : Digest} {bytes : List UInt8} {inst : List Word}
    {vals : List Val} (hr : P.run ⟨D, bufferToUint256LE bytes, inst⟩ = some vals) (hχ : χ 0 pMod = 0) :
    ∃ (Is : List (List (List N))) (v : Params Pt N) (lx ly rx ry : Word), Is.flatten.flatten = (inst.take Is.flatten.flatten.length).map frOf ∧
      v.For j.vk ∧ v.Shape j.vk (Is.map (List.map j.vk.commit)) "" ∧ vals = [.p lx ly, .p rx ry] ∧ ptOf χ lx ly = v.left ∧
      ptOf χ rx ry = v.right gen ∧
      ∀ r seen, readAll D ⟨[], bytes⟩ ((v.layout j.vk j.vk.digest).map Event.ask) = some (r, seen) →
        seen = (v.layout j.vk j.vk.digest).map Event.seen := by
  obtain ⟨ws, rest, Is, v, t, a, lx, ly, rx, ry, e1, e2, -, e4, e5, e6, -, e8, e9⟩ := C73_contract hd hvk hdom hg hr hχ
  obtain ⟨g1, g2⟩ := e9 h1 h2
  refine ⟨Is, v, lx, ly, rx, ry, ?_, e4, e5, e8, g1, g2, fun r seen h => (e6.read rfl h).1⟩
  rw [e2, List.length_map, show inst = ws ++ rest from e1, List.take_left]

/-- **C73** for the program that is rendered. Missing for the full claim is what the passes of the optimiser need, see C43 to C47. -/
theorem C73_optimised_partial {rate : ℕ} {j : Job rate} (hd : 0 < j.d.pointLen) (hvk : j.vk.WF) (hdom : j.vk.Domain) {P : Prog} (hg : j.generate = some P)
    {ord : List Interval → List Interval} (hord : ∀ l, (ord l).Perm l) (hs : P.size ≤ Expr.deadbeaf) (hno : NoDouble P.stmts) (hχ : χ 0 pMod = 0) :
    ∃ q, memoryOptimize ord P = some q ∧ (∃ r, aggregate false q = some r) ∧
      ∀ checks r, Mergeable checks q.stmts → aggregate checks q = some r → ∀ (c : Call) (vals : List Val), r.run c = some vals →
        ∃ (ws rest : List Word) (Is : List (List (List N))) (v : Params Pt N) (t : ℕ) (a : Abs) (lx ly rx ry : Word),
          c.inst = ws ++ rest ∧ Is.flatten.flatten = ws.map frOf ∧
          List.Forall₂ (List.Forall₂ fun x y => x.length = y.length) Is j.instances ∧
          v.For j.vk ∧ v.Shape j.vk (Is.map (List.map j.vk.commit)) "" ∧
          Follows χ c ⟨List.replicate (P.absorbingLength + 1) 0, 0⟩ (v.layout j.vk j.vk.digest) t a ∧ v.x ^ j.vk.n ≠ 1 ∧
          vals = [.p lx ly, .p rx ry] ∧
          (j.instances.length = 1 → 2 ≤ (j.vk.rotations 1).toFinset.card → ptOf χ lx ly = v.left ∧ ptOf χ rx ry = v.right gen) := by
  obtain ⟨hrec, hty⟩ := Job.recorded hg
  obtain ⟨q, h1, h2, h3⟩ := C47_pipeline_partial hord hrec hty hs hno
  exact ⟨q, h1, h3, fun checks r hm ha c vals hr => C73_contract hd hvk hdom hg ((h2 checks r hm ha c).symm.trans hr) hχ⟩

end Verif.Sol
