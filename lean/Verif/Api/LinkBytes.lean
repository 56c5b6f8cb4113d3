import Verif.Api.LinkRead

/-!
# Linked chips that read the same bytes
-/

namespace Verif.Api

variable {F G G' : Type} {c : Chip F G} {c' : Chip F G'} {φ : G → G'}

/-- Related transcripts, and decoders that agree. -/
structure SameBytes (X : Link c c' φ) (T : Transcript c) (T' : Transcript c') (d : Codec F G) (d' : Codec F G') where
  st : X.W → T.St → T'.St → Prop
  st_up : ∀ {w w' a b}, X.le w w' → st w a b → st w' a b
  commonPoint : ∀ {w p p' a a'}, X.n w p p' → st w a a' → X.R w (T.commonPoint a p) (T'.commonPoint a' p') st
  commonScalar : ∀ {w s s' a a'}, X.s w s s' → st w a a' → X.R w (T.commonScalar a s) (T'.commonScalar a' s') st
  squeeze : ∀ {w a a'}, st w a a' → X.R w (T.squeeze a) (T'.squeeze a') fun w r r' => X.s w r.1 r'.1 ∧ st w r.2 r'.2
  assignVar : ∀ {w} k, X.R w (c.assignVar k) (c'.assignVar k) X.s
  pAssignVar : ∀ {w} P, X.R w (c.pAssignVar P) (c'.pAssignVar (φ P)) X.n
  /-- The bytes for which this is known. -/
  ok : List UInt8 → Prop
  point : ∀ {b}, ok b → d'.readPoint b = (d.readPoint b).map fun x => (φ x.1, x.2)
  scalar : ∀ {b}, ok b → d'.readScalar b = d.readScalar b
  ok_point : ∀ {b x}, ok b → d.readPoint b = some x → ok x.2
  ok_scalar : ∀ {b x}, ok b → d.readScalar b = some x → ok x.2

namespace SameBytes
variable {X : Link c c' φ} {T : Transcript c} {T' : Transcript c'} {d : Codec F G} {d' : Codec F G'} (Z : SameBytes X T T' d d')

/-- The readers are at the same place, after as many events, and their transcripts are related. -/
def rd (w : X.W) (r : Reader T) (r' : Reader T') : Prop := (r.bytes = r'.bytes ∧ Z.ok r.bytes ∧ r.trace.length = r'.trace.length) ∧ Z.st w r.st r'.st

instance {r r'} : Up X.le fun w => Z.rd w r r' := ⟨fun h e => ⟨e.1, Z.st_up h e.2⟩⟩

variable {w : X.W} {r : Reader T} {r' : Reader T'}

omit Z in
theorem step {A B : Type} {p q : Prop} {l : List A} {l' : List B} (h : p ∧ q ∧ l.length = l'.length) (a : A) (b : B) :
    p ∧ q ∧ (l ++ [a]).length = (l' ++ [b]).length := ⟨h.1, h.2.1, by rw [List.length_append, List.length_append, h.2.2]; rfl⟩

theorem absorbPoint {p : c.P} {p' : c'.P} (hp : X.n w p p') (hr : Z.rd w r r') (e : c.P → Event c.P c.S) (e' : c'.P → Event c'.P c'.S) :
    X.R w (Rd.absorbPoint e p r) (Rd.absorbPoint e' p' r') fun w a a' => Z.rd w a.2 a'.2 :=
  X.bind (Z.commonPoint hp hr.2) fun _ _ _ _ h => X.pure ⟨step hr.1 _ _, h⟩

theorem absorbScalar {k : c.S} {k' : c'.S} (hk : X.s w k k') (hr : Z.rd w r r') (e : c.S → Event c.P c.S) (e' : c'.S → Event c'.P c'.S) :
    X.R w (Rd.absorbScalar e k r) (Rd.absorbScalar e' k' r') fun w a a' => Z.rd w a.2 a'.2 :=
  X.bind (Z.commonScalar hk hr.2) fun _ _ _ _ h => X.pure ⟨step hr.1 _ _, h⟩

theorem acceptPoint (P : G) (hr : Z.rd w r r') :
    X.R w (Rd.acceptPoint P r) (Rd.acceptPoint (φ P) r') fun w a a' => X.n w a.1 a'.1 ∧ Z.rd w a.2 a'.2 := by
  refine X.bind (Q := fun w (a : c.P × Reader T) (a' : c'.P × Reader T') => X.n w a.1 a'.1 ∧ Z.rd w a.2 a'.2)
    (X.bind (Z.pAssignVar P) fun _ _ _ hw h => X.pure ⟨h, hr.1, Z.st_up hw hr.2⟩) fun w' a a' hw h => ?_
  exact X.bind (Z.absorbPoint h.1 h.2 _ _) fun _ _ _ hw' h' => X.pure ⟨X.n_up hw' h.1, h'⟩

theorem acceptScalar (k : F) (hr : Z.rd w r r') :
    X.R w (Rd.acceptScalar k r) (Rd.acceptScalar k r') fun w a a' => X.s w a.1 a'.1 ∧ Z.rd w a.2 a'.2 := by
  refine X.bind (Q := fun w (a : c.S × Reader T) (a' : c'.S × Reader T') => X.s w a.1 a'.1 ∧ Z.rd w a.2 a'.2)
    (X.bind (Z.assignVar k) fun _ _ _ hw h => X.pure ⟨h, hr.1, Z.st_up hw hr.2⟩) fun w' a a' hw h => ?_
  exact X.bind (Z.absorbScalar h.1 h.2 _ _) fun _ _ _ hw' h' => X.pure ⟨X.s_up hw' h.1, h'⟩

theorem nextPoint (hr : Z.rd w r r') :
    X.R w (Rd.nextPoint d r) (Rd.nextPoint d' r') fun w a a' => a'.1 = a.1.map φ ∧ Z.rd w a.2 a'.2 := by
  unfold Rd.nextPoint
  rw [← hr.1.1, Z.point hr.1.2.1]
  cases h : d.readPoint r.bytes with
  | none => exact X.pure ⟨rfl, hr⟩
  | some x => exact X.pure ⟨rfl, ⟨rfl, Z.ok_point hr.1.2.1 h, hr.1.2.2⟩, hr.2⟩

theorem nextScalar (hr : Z.rd w r r') :
    X.R w (Rd.nextScalar d r) (Rd.nextScalar d' r') fun w a a' => a'.1 = a.1 ∧ Z.rd w a.2 a'.2 := by
  unfold Rd.nextScalar
  rw [← hr.1.1, Z.scalar hr.1.2.1]
  cases h : d.readScalar r.bytes with
  | none => exact X.pure ⟨rfl, hr⟩
  | some x => exact X.pure ⟨rfl, ⟨rfl, Z.ok_scalar hr.1.2.1 h, hr.1.2.2⟩, hr.2⟩

theorem readPoint (hr : Z.rd w r r') : X.R w (Rd.readPoint d r) (Rd.readPoint d' r') fun w a a' => X.n w a.1 a'.1 ∧ Z.rd w a.2 a'.2 := by
  refine X.bind (Z.nextPoint hr) fun w' a a' _ h => ?_
  rw [h.1]
  cases a.1 with
  | none => exact X.panic
  | some P => exact Z.acceptPoint P h.2

theorem readScalar (hr : Z.rd w r r') : X.R w (Rd.readScalar d r) (Rd.readScalar d' r') fun w a a' => X.s w a.1 a'.1 ∧ Z.rd w a.2 a'.2 := by
  refine X.bind (Z.nextScalar hr) fun w' a a' _ h => ?_
  rw [h.1]
  cases a.1 with
  | none => exact X.panic
  | some P => exact Z.acceptScalar P h.2

theorem readAll : ∀ (n : ℕ) {w : X.W} {r : Reader T} {r' : Reader T'}, Z.rd w r r' →
    X.R w (Rd.readAll d n r) (Rd.readAll d' n r') fun w a a' => List.Forall₂ (X.n w) a.1 a'.1 ∧ Z.rd w a.2 a'.2
  | 0, _, _, _, hr => X.pure ⟨.nil, hr⟩
  | n + 1, _, _, _, hr => by
    refine X.bind (Z.nextPoint hr) fun w' a a' _ h => ?_
    rw [h.1]
    cases a.1 with
    | none => exact X.pure ⟨.nil, h.2⟩
    | some P => exact X.bind (Z.acceptPoint P h.2) fun _ _ _ _ hb => X.bind (readAll n hb.2) fun _ _ _ hw hc => X.pure ⟨.cons (X.n_up hw hb.1) hc.1, hc.2⟩

/-- Both read the same proof. -/
def link : LinkRd X T T' d d' where
  rd := Z.rd
  rd_up h e := ⟨e.1, Z.st_up h e.2⟩
  commonPoint hp hr := Z.absorbPoint hp hr _ _
  commonScalar hk hr := Z.absorbScalar hk hr _ _
  squeeze hr := X.bind (Z.squeeze hr.2) fun _ _ _ _ h => X.pure ⟨h.1, step hr.1 _ _, h.2⟩
  readPoint hr := Z.readPoint hr
  readScalar hr := Z.readScalar hr
  readW := fun {w r r'} hr => by
    unfold Api.readW
    rw [← hr.1.1]
    exact Z.readAll _ hr

end SameBytes
end Verif.Api
