import Verif.Circuit.Shape
import Verif.Integer.Model

/-!
# The circuit does not depend on the witness: integer chip (helper lemmas)
-/

namespace Verif.Circuit

/-- Same limb cells, same cached native cell, same overflow counter; the honest values may differ. -/
structure SameCells (a a' : AInt) : Prop where
  limbs : ∀ i, SameCell (a.limbs i) (a'.limbs i)
  native : Option.Rel SameCell a.native a'.native
  overflows : a.overflows = a'.overflows

theorem SameCells.new {l l' : Fin 4 → AV N} (h : ∀ i, SameCell (l i) (l' i)) {o o' : ℕ} (ho : o = o') :
    SameCells (AInt.new l o) (AInt.new l' o') := ⟨h, .none, ho⟩

theorem same_vec4 {a a' b b' c c' d d' : AV N} (ha : SameCell a a') (hb : SameCell b b')
    (hc : SameCell c c') (hd : SameCell d d') : ∀ i, SameCell (vec4 a b c d i) (vec4 a' b' c' d' i)
  | 0 => ha
  | 1 => hb
  | 2 => hc
  | 3 => hd

theorem same_limbLine (n n' : N) (k : ℕ) : List.Forall₂ SamePair (limbLine n k) (limbLine n' k) := by
  unfold limbLine
  refine List.rel_append (same_resize ?_) (.cons (SamePair.unassigned _) .nil)
  rw [List.map_reverse, List.map_reverse]
  refine List.rel_reverse ?_
  unfold decomposeBn
  rw [List.forall₂_map_left_iff, List.forall₂_map_right_iff, List.forall₂_map_left_iff,
    List.forall₂_map_right_iff, List.forall₂_same]
  exact fun _ _ => SamePair.unassigned _

theorem Rel.assignNonleadingLimb (n n' : N) :
    Rel (assignNonleadingLimb n) (Circuit.assignNonleadingLimb n') SameCell :=
  Rel.cell (Rel.oneLineSel _ _ _ _ (same_limbLine _ _ _)) _

theorem Rel.assignNFloorLeadingLimb (n n' : N) :
    Rel (assignNFloorLeadingLimb n) (Circuit.assignNFloorLeadingLimb n') SameCell := by
  unfold Circuit.assignNFloorLeadingLimb
  dsimp only
  split
  · exact Rel.assignNonleadingLimb _ _
  · exact Rel.assertM.bind fun _ _ _ => Rel.cell (Rel.oneLineSel _ _ _ _ (same_limbLine _ _ _)) _

theorem Rel.assignWCeilLeadingLimb (n n' : N) :
    Rel (assignWCeilLeadingLimb n) (Circuit.assignWCeilLeadingLimb n') SameCell := by
  unfold Circuit.assignWCeilLeadingLimb
  dsimp only
  split
  · exact Rel.assignNonleadingLimb _ _
  · exact Rel.assertM.bind fun _ _ _ => Rel.cell (Rel.oneLineSel _ _ _ _ (same_limbLine _ _ _)) _

theorem Rel.assignDLeadingLimb (n n' : N) :
    Rel (assignDLeadingLimb n) (Circuit.assignDLeadingLimb n') SameCell := by
  unfold Circuit.assignDLeadingLimb
  dsimp only
  generalize dBits % limbWidth = k
  split
  · exact Rel.assignNonleadingLimb _ _
  · exact Rel.cell (Rel.oneLineSel _ _ _ _ (same_limbLine _ _ _)) _

theorem Rel.assignD (v v' : ℕ) :
    Rel (assignD v) (Circuit.assignD v') (fun r r' => ∀ i, SameCell (r i) (r' i)) := by
  unfold Circuit.assignD
  exact (Rel.assignDLeadingLimb _ _).bind fun _ _ h3 => (Rel.assignNonleadingLimb _ _).bind fun _ _ h2 =>
    (Rel.assignNonleadingLimb _ _).bind fun _ _ h1 => (Rel.assignNonleadingLimb _ _).bind fun _ _ h0 =>
    Rel.pure (same_vec4 h0 h1 h2 h3)

theorem Rel.assignInteger (v v' : ℕ) :
    Rel (assignInteger v) (Circuit.assignInteger v') (fun r r' => ∀ i, SameCell (r i) (r' i)) := by
  unfold Circuit.assignInteger
  exact (Rel.assignNonleadingLimb _ _).bind fun _ _ h3 => (Rel.assignNonleadingLimb _ _).bind fun _ _ h2 =>
    (Rel.assignNonleadingLimb _ _).bind fun _ _ h1 => (Rel.assignNonleadingLimb _ _).bind fun _ _ h0 =>
    Rel.pure (same_vec4 h3 h2 h1 h0)

theorem Rel.assignW (v v' : W) : Rel (assignW v) (Circuit.assignW v') SameCells := by
  unfold Circuit.assignW
  exact (Rel.assignWCeilLeadingLimb _ _).bind fun _ _ h3 => (Rel.assignNonleadingLimb _ _).bind fun _ _ h2 =>
    (Rel.assignNonleadingLimb _ _).bind fun _ _ h1 => (Rel.assignNonleadingLimb _ _).bind fun _ _ h0 =>
    Rel.pure (.new (same_vec4 h0 h1 h2 h3) rfl)

theorem same_nativeTerms {l l' : Fin 4 → AV N} (h : ∀ i, SameCell (l i) (l' i)) :
    SameTerms (nativeTerms l) (nativeTerms l') := by
  unfold nativeTerms
  same_terms

variable {a a' b b' r r' : AInt}

theorem Rel.native (ha : SameCells a a') : Rel (native a) (Circuit.native a')
    (fun p p' => SameCell p.1 p'.1 ∧ SameCells p.2 p'.2) := by
  obtain ⟨l, n, o⟩ := a
  obtain ⟨l', n', o'⟩ := a'
  have hn := ha.native
  cases hn with
  | none =>
    unfold Circuit.native
    exact (Rel.sumWithConstant (same_nativeTerms ha.limbs) _).bind fun _ _ h =>
      Rel.pure ⟨h, ha.limbs, .some h, ha.overflows⟩
  | some h => exact Rel.pure ⟨h, ha⟩

theorem Rel.reduce (ha : SameCells a a') : Rel (reduce a) (Circuit.reduce a') SameCells := by
  unfold Circuit.reduce
  rw [← ha.overflows]
  split
  · exact Rel.pure ha
  · refine Rel.assertM.bind fun _ _ _ => ?_
    dsimp only
    refine (Rel.unwrapM _ _).bind fun _ _ _ => ?_
    refine (Rel.assignW _ _).bind fun _ _ hr => ?_
    refine (Rel.oneLineSel _ _ _ _ (by same_pairs)).bind fun _ _ hc => ?_
    refine (Rel.native hr).bind fun p p' hp => ?_
    obtain ⟨hp1, hp2⟩ := hp
    refine (Rel.native ha).bind fun q q' hq => ?_
    obtain ⟨hq1, hq2⟩ := hq
    have hc0 := hc 0
    have hc1 := hc 1
    have hr0 := hp2.limbs 0
    have ha0 := hq2.limbs 0
    refine (Rel.oneLineAdd _ (by same_pairs)).bind fun _ _ _ => ?_
    refine (Rel.oneLineAdd _ (by same_pairs)).bind fun _ _ _ => ?_
    exact Rel.pure hp2

theorem Rel.conditionallyReduce (ha : SameCells a a') :
    Rel (conditionallyReduce a) (Circuit.conditionallyReduce a') SameCells := by
  unfold Circuit.conditionallyReduce
  rw [← ha.overflows]
  split
  · exact Rel.reduce ha
  · exact Rel.pure ha

theorem Rel.iadd (ha : SameCells a a') (hb : SameCells b b') : Rel (iadd a b) (Circuit.iadd a' b') SameCells := by
  unfold Circuit.iadd
  rw [← ha.overflows, ← hb.overflows]
  exact (Rel.add (ha.limbs 0) (hb.limbs 0)).bind fun _ _ h0 => (Rel.add (ha.limbs 1) (hb.limbs 1)).bind
    fun _ _ h1 => (Rel.add (ha.limbs 2) (hb.limbs 2)).bind fun _ _ h2 =>
    (Rel.add (ha.limbs 3) (hb.limbs 3)).bind fun _ _ h3 =>
    Rel.conditionallyReduce (.new (same_vec4 h0 h1 h2 h3) rfl)

theorem Rel.subLimb {x x' y y' : AV N} (hx : SameCell x x') (hy : SameCell y y') (u : ℕ) :
    Rel (subLimb x y u) (Circuit.subLimb x' y' u) SameCell := Rel.sumWithConstant (by same_terms) _

theorem Rel.isub (ha : SameCells a a') (hb : SameCells b b') : Rel (isub a b) (Circuit.isub a' b') SameCells := by
  unfold Circuit.isub
  rw [← ha.overflows, ← hb.overflows]
  refine (Rel.unwrapM _ _).bind fun u u' hu => ?_
  obtain rfl : u = u' := by simpa [hu.1] using hu.2
  exact (Rel.subLimb (ha.limbs 0) (hb.limbs 0) _).bind fun _ _ h0 =>
    (Rel.subLimb (ha.limbs 1) (hb.limbs 1) _).bind fun _ _ h1 =>
    (Rel.subLimb (ha.limbs 2) (hb.limbs 2) _).bind fun _ _ h2 =>
    (Rel.subLimb (ha.limbs 3) (hb.limbs 3) _).bind fun _ _ h3 =>
    Rel.conditionallyReduce (.new (same_vec4 h0 h1 h2 h3) rfl)

theorem Rel.negLimb {x x' : AV N} (hx : SameCell x x') (u : ℕ) :
    Rel (negLimb x u) (Circuit.negLimb x' u) SameCell := Rel.sumWithConstant (by same_terms) _

theorem Rel.ineg (ha : SameCells a a') : Rel (ineg a) (Circuit.ineg a') SameCells := by
  unfold Circuit.ineg
  rw [← ha.overflows]
  refine (Rel.unwrapM _ _).bind fun u u' hu => ?_
  obtain rfl : u = u' := by simpa [hu.1] using hu.2
  exact (Rel.negLimb (ha.limbs 0) _).bind fun _ _ h0 => (Rel.negLimb (ha.limbs 1) _).bind fun _ _ h1 =>
    (Rel.negLimb (ha.limbs 2) _).bind fun _ _ h2 => (Rel.negLimb (ha.limbs 3) _).bind fun _ _ h3 =>
    Rel.conditionallyReduce (.new (same_vec4 h0 h1 h2 h3) rfl)

theorem same_mulLimbTerms {x x' y y' d d' : Fin 4 → AV N} (hx : ∀ i, SameCell (x i) (x' i))
    (hy : ∀ i, SameCell (y i) (y' i)) (hd : ∀ i, SameCell (d i) (d' i)) (i : Fin 4) :
    List.Forall₂ SameMulTerm (mulLimbTerms x y d i) (mulLimbTerms x' y' d' i) := by
  fin_cases i <;>
    (simp only [mulLimbTerms]
     repeat' first
      | exact List.Forall₂.nil
      | refine List.Forall₂.cons ?_ ?_
      | exact ⟨hx _, hy _, hd _, rfl⟩)

theorem Rel.mulEqTail {l l' m m' : Fin 4 → AV N} (hl : ∀ i, SameCell (l i) (l' i))
    (hm : ∀ i, SameCell (m i) (m' i)) : Rel (mulEqTail l m) (Circuit.mulEqTail l' m') (fun _ _ => True) := by
  unfold Circuit.mulEqTail
  dsimp only
  refine (Rel.assignNFloorLeadingLimb _ _).bind fun _ _ h1 => ?_
  refine (Rel.assignNonleadingLimb _ _).bind fun _ _ h2 => ?_
  refine (Rel.assignNFloorLeadingLimb _ _).bind fun _ _ h3 => ?_
  refine (Rel.assignNonleadingLimb _ _).bind fun _ _ h4 => ?_
  refine (Rel.sumWithConstant (by same_terms) _).bind fun _ _ h5 => ?_
  refine (Rel.oneLineAdd _ (by same_pairs)).bind fun _ _ _ => ?_
  refine (Rel.sumWithConstant (by same_terms) _).bind fun _ _ h6 => ?_
  exact (Rel.oneLineAdd _ (by same_pairs)).bind fun _ _ _ => Rel.pure trivial

theorem Rel.mulEqLimbs {d d' : Fin 4 → AV N} (ha : SameCells a a') (hb : SameCells b b')
    (hd : ∀ i, SameCell (d i) (d' i)) (hr : SameCells r r') :
    Rel (mulEqLimbs a b d r) (Circuit.mulEqLimbs a' b' d' r') (fun _ _ => True) := by
  unfold Circuit.mulEqLimbs
  exact Rel.assertM.bind fun _ _ _ => Rel.assertM.bind fun _ _ _ => Rel.assertM.bind fun _ _ _ =>
    (Rel.mulAddWithNextLine (same_mulLimbTerms ha.limbs hb.limbs hd 0)).bind fun _ _ h0 =>
    (Rel.mulAddWithNextLine (same_mulLimbTerms ha.limbs hb.limbs hd 1)).bind fun _ _ h1 =>
    (Rel.mulAddWithNextLine (same_mulLimbTerms ha.limbs hb.limbs hd 2)).bind fun _ _ h2 =>
    (Rel.mulAddWithNextLine (same_mulLimbTerms ha.limbs hb.limbs hd 3)).bind fun _ _ h3 =>
    Rel.mulEqTail (same_vec4 h0 h1 h2 h3) hr.limbs

theorem Rel.mulEqNative {d d' : Fin 4 → AV N} (ha : SameCells a a') (hb : SameCells b b')
    (hd : ∀ i, SameCell (d i) (d' i)) (hr : SameCells r r') :
    Rel (mulEqNative a b d r) (Circuit.mulEqNative a' b' d' r')
      (fun p p' => SameCells p.1 p'.1 ∧ SameCells p.2.1 p'.2.1 ∧ SameCells p.2.2 p'.2.2) := by
  unfold Circuit.mulEqNative
  refine (Rel.native ha).bind fun p p' hp => ?_
  obtain ⟨hp1, hp2⟩ := hp
  refine (Rel.native hb).bind fun q q' hq => ?_
  obtain ⟨hq1, hq2⟩ := hq
  refine (Rel.sumWithConstant (same_nativeTerms hd) _).bind fun _ _ hn => ?_
  refine (Rel.native hr).bind fun s s' hs => ?_
  obtain ⟨hs1, hs2⟩ := hs
  exact (Rel.oneLine _ _ _ (by same_pairs)).bind fun _ _ _ => Rel.pure ⟨hp2, hq2, hs2⟩

theorem Rel.squareEqNative {d d' : Fin 4 → AV N} (ha : SameCells a a')
    (hd : ∀ i, SameCell (d i) (d' i)) (hr : SameCells r r') :
    Rel (squareEqNative a d r) (Circuit.squareEqNative a' d' r')
      (fun p p' => SameCells p.1 p'.1 ∧ SameCells p.2 p'.2) := by
  unfold Circuit.squareEqNative
  refine (Rel.native ha).bind fun p p' hp => ?_
  obtain ⟨hp1, hp2⟩ := hp
  refine (Rel.sumWithConstant (same_nativeTerms hd) _).bind fun _ _ hn => ?_
  refine (Rel.native hr).bind fun s s' hs => ?_
  obtain ⟨hs1, hs2⟩ := hs
  exact (Rel.oneLine _ _ _ (by same_pairs)).bind fun _ _ _ => Rel.pure ⟨hp2, hs2⟩

theorem Rel.imul (ha : SameCells a a') (hb : SameCells b b') : Rel (imul a b) (Circuit.imul a' b')
    (fun p p' => SameCells p.1 p'.1 ∧ SameCells p.2.1 p'.2.1 ∧ SameCells p.2.2 p'.2.2) := by
  unfold Circuit.imul
  dsimp only
  refine (Rel.assignW _ _).bind fun _ _ hr => ?_
  refine (Rel.assignD _ _).bind fun _ _ hd => ?_
  refine (Rel.mulEqLimbs ha hb hd hr).bind fun _ _ _ => ?_
  exact (Rel.mulEqNative ha hb hd hr).bind fun p p' hp => Rel.pure ⟨hp.2.2, hp.1, hp.2.1⟩

theorem Rel.isquare (ha : SameCells a a') : Rel (isquare a) (Circuit.isquare a')
    (fun p p' => SameCells p.1 p'.1 ∧ SameCells p.2 p'.2) := by
  unfold Circuit.isquare
  dsimp only
  refine (Rel.assignW _ _).bind fun _ _ hr => ?_
  refine (Rel.assignD _ _).bind fun _ _ hd => ?_
  refine (Rel.mulEqLimbs ha ha hd hr).bind fun _ _ _ => ?_
  exact (Rel.squareEqNative ha hd hr).bind fun p p' hp => Rel.pure ⟨hp.2, hp.1⟩

theorem Rel.isPureZero (ha : SameCells a a') : Rel (isPureZero a) (Circuit.isPureZero a') SameCell := by
  unfold Circuit.isPureZero
  have h := ha.limbs
  exact (Rel.sumWithConstant (by same_terms) _).bind fun _ _ hs => Rel.isZero hs

theorem Rel.isPureWModulus (ha : SameCells a a') : Rel (isPureWModulus a) (Circuit.isPureWModulus a')
    (fun p p' => SameCell p.1 p'.1 ∧ SameCells p.2 p'.2) := by
  unfold Circuit.isPureWModulus
  refine (Rel.native ha).bind fun p p' hp => ?_
  obtain ⟨hp1, hp2⟩ := hp
  have h0 := hp2.limbs 0
  refine (Rel.sumWithConstant (by same_terms) _).bind fun _ _ hs => ?_
  refine (Rel.isZero hs).bind fun _ _ h1 => ?_
  refine (Rel.sumWithConstant (by same_terms) _).bind fun _ _ hs => ?_
  refine (Rel.isZero hs).bind fun _ _ h2 => ?_
  exact (Rel.and h1 h2).bind fun _ _ h3 => Rel.pure ⟨h3, hp2⟩

theorem Rel.iisZero (ha : SameCells a a') : Rel (iisZero a) (Circuit.iisZero a')
    (fun p p' => SameCell p.1 p'.1 ∧ SameCells p.2 p'.2) := by
  unfold Circuit.iisZero
  refine (Rel.reduce ha).bind fun _ _ ha => ?_
  refine (Rel.isPureZero ha).bind fun _ _ hz => ?_
  refine (Rel.isPureWModulus ha).bind fun _ _ hp => ?_
  exact (Rel.or hz hp.1).bind fun _ _ h => Rel.pure ⟨h, hp.2⟩

theorem Rel.iisEqual (ha : SameCells a a') (hb : SameCells b b') :
    Rel (iisEqual a b) (Circuit.iisEqual a' b') SameCell := by
  unfold Circuit.iisEqual
  exact (Rel.isub ha hb).bind fun _ _ h => (Rel.iisZero h).bind fun _ _ hp => Rel.pure hp.1

theorem Rel.iassertEqual (ha : SameCells a a') (hb : SameCells b b') :
    Rel (iassertEqual a b) (Circuit.iassertEqual a' b') (fun _ _ => True) := by
  unfold Circuit.iassertEqual
  refine (Rel.isub ha hb).bind fun _ _ h => ?_
  refine (Rel.reduce h).bind fun _ _ h => ?_
  refine (Rel.native h).bind fun _ _ h => ?_
  exact (Rel.assertConstant h.1 _).bind fun _ _ _ => Rel.assertConstant (h.2.limbs 0) _

theorem Rel.idiv (ha : SameCells a a') (hb : SameCells b b') : Rel (idiv a b) (Circuit.idiv a' b')
    (fun p p' => SameCell p.1 p'.1 ∧ SameCells p.2.1 p'.2.1 ∧ SameCells p.2.2.1 p'.2.2.1 ∧
      SameCells p.2.2.2 p'.2.2.2) := by
  unfold Circuit.idiv
  refine (Rel.iisZero hb).bind fun p p' hp => ?_
  obtain ⟨hz, hb⟩ := hp
  refine (Rel.not hz).bind fun _ _ hn => ?_
  refine (Rel.reduce ha).bind fun _ _ ha => ?_
  refine (Rel.mul (ha.limbs 0) hn).bind fun _ _ h0 => ?_
  refine (Rel.mul (ha.limbs 1) hn).bind fun _ _ h1 => ?_
  refine (Rel.mul (ha.limbs 2) hn).bind fun _ _ h2 => ?_
  refine (Rel.mul (ha.limbs 3) hn).bind fun _ _ h3 => ?_
  dsimp only
  have ha' := SameCells.new (same_vec4 h0 h1 h2 h3) ha.overflows
  refine (Rel.unwrapM _ _).bind fun _ _ _ => ?_
  refine (Rel.assignW _ _).bind fun _ _ hc => ?_
  refine (Rel.assignD _ _).bind fun _ _ hd => ?_
  refine (Rel.mulEqLimbs hb hc hd ha').bind fun _ _ _ => ?_
  exact (Rel.mulEqNative hb hc hd ha').bind fun p p' hp => Rel.pure ⟨hz, hp.2.1, ha, hp.1⟩

theorem Rel.iassignConstant (w : W) : Rel (iassignConstant w) (Circuit.iassignConstant w) SameCells := by
  unfold Circuit.iassignConstant
  exact (Rel.assignConstant _).bind fun _ _ h0 => (Rel.assignConstant _).bind fun _ _ h1 =>
    (Rel.assignConstant _).bind fun _ _ h2 => (Rel.assignConstant _).bind fun _ _ h3 =>
    Rel.pure (.new (same_vec4 h0 h1 h2 h3) rfl)

theorem Rel.imulSmallConstant (ha : SameCells a a') (k : ℕ) :
    Rel (imulSmallConstant a k) (Circuit.imulSmallConstant a' k)
      (fun p p' => SameCells p.1 p'.1 ∧ SameCells p.2 p'.2) := by
  unfold Circuit.imulSmallConstant
  rw [← ha.overflows]
  refine Rel.assertM.bind fun _ _ _ => ?_
  refine Rel.bind (R := SameCells) ?_ fun b b' hb => ?_
  · split
    · exact Rel.reduce ha
    · exact Rel.pure ha
  · have h := hb.limbs
    refine (Rel.sumWithConstant (by same_terms) _).bind fun _ _ h0 => ?_
    refine (Rel.sumWithConstant (by same_terms) _).bind fun _ _ h1 => ?_
    refine (Rel.sumWithConstant (by same_terms) _).bind fun _ _ h2 => ?_
    refine (Rel.sumWithConstant (by same_terms) _).bind fun _ _ h3 => ?_
    refine (Rel.conditionallyReduce (.new (same_vec4 h0 h1 h2 h3) ?_)).bind fun _ _ hr => Rel.pure ⟨hr, hb⟩
    rw [hb.overflows]

theorem Rel.ibisec {c c' : AV N} (hc : SameCell c c') (ha : SameCells a a') (hb : SameCells b b') :
    Rel (ibisec c a b) (Circuit.ibisec c' a' b') SameCells := by
  unfold Circuit.ibisec
  rw [← ha.overflows, ← hb.overflows]
  exact (Rel.bisec hc (ha.limbs 0) (hb.limbs 0)).bind fun _ _ h0 =>
    (Rel.bisec hc (ha.limbs 1) (hb.limbs 1)).bind fun _ _ h1 =>
    (Rel.bisec hc (ha.limbs 2) (hb.limbs 2)).bind fun _ _ h2 =>
    (Rel.bisec hc (ha.limbs 3) (hb.limbs 3)).bind fun _ _ h3 =>
    Rel.pure (.new (same_vec4 h0 h1 h2 h3) rfl)

theorem Rel.getLastBit (ha : SameCells a a') : Rel (getLastBit a) (Circuit.getLastBit a') SameCell := by
  unfold Circuit.getLastBit
  dsimp only
  have h0 := ha.limbs 0
  refine (Rel.assignNonleadingLimb _ _).bind fun _ _ hd => ?_
  refine (Rel.oneLine _ _ _ (by same_pairs)).bind fun _ _ hc => ?_
  exact (Rel.assertBit (hc 1)).bind fun _ _ _ => Rel.pure (hc 1)

end Verif.Circuit
