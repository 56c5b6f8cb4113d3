import Verif.Sol.PipelineProps

/-!
# Deciding what the passes need

Functions that look through a program once. If they return true then the program meets the conditions of C43 to C47. They are used to show that
generated programs do, in `Verif.Top.OptimisedRun`.
-/

namespace Verif.Sol.Checks

/-! ### Sums -/

def notDouble : Stmt → Stmt → Bool
  | .assign x (.mul _ _ _), .assign _ (.add a b _) => (a ≠ x || x ∉ b.leaves) && (b ≠ x || x ∉ a.leaves)
  | _, _ => true

def noDouble : List Stmt → Bool
  | c :: d :: cs => notDouble c d && noDouble (d :: cs)
  | _ => true

theorem noDouble_ok : ∀ {l : List Stmt}, noDouble l = true → NoDouble l
  | [], _ => fun k x l r t y a b t' h => by simp at h
  | [c], _ => fun k x l r t y a b t' _ h => by simp at h
  | c :: d :: cs, h => by
    obtain ⟨h1, h2⟩ := Bool.and_eq_true_iff.1 h
    intro k x l r t y a b t' e1 e2
    cases k with
    | zero =>
      simp only [List.getElem?_cons_zero, zero_add, List.getElem?_cons_succ, Option.some.injEq] at e1 e2
      subst e1 e2
      simp only [notDouble, Bool.and_eq_true_iff, Bool.or_eq_true_iff, decide_eq_true_eq] at h1
      exact ⟨fun e => h1.1.resolve_left (not_not.2 e), fun e => h1.2.resolve_left (not_not.2 e)⟩
    | succ k => exact noDouble_ok h2 k x l r t y a b t' (by simpa using e1) (by simpa using e2)

/-! ### Points -/

def pointUpdate : Stmt → Option (ℕ × ℕ)
  | .updateHash (.transcript o .point) off => some (o, off)
  | _ => none

theorem pointUpdate_eq {c : Stmt} {x : ℕ × ℕ} (h : pointUpdate c = some x) : c = .updateHash (.transcript x.1 .point) x.2 := by
  unfold pointUpdate at h
  split at h
  · cases h
    rfl
  · cases h

/-- `last` is the update before. -/
def noLonely : Option (ℕ × ℕ) → List Stmt → Bool
  | _, [] => true
  | last, c :: cs =>
    (match pointUpdate c with
      | none => true
      | some x => last.any (fun y => x.1 = y.1 + 2 && x.2 = y.2 + 3) || (cs.head?.bind pointUpdate).any (fun y => y.1 = x.1 + 2 && y.2 = x.2 + 3)) &&
    noLonely (pointUpdate c) cs

theorem noLonely_ok : ∀ {l before : List Stmt}, noLonely (before.getLast?.bind pointUpdate) l = true → ∀ pre o off rest,
    l = pre ++ .updateHash (.transcript o .point) off :: rest →
      (∃ pre' o' off', before ++ pre = pre' ++ [.updateHash (.transcript o' .point) off'] ∧ o = o' + 2 ∧ off = off' + 3) ∨
      ∃ rest', rest = .updateHash (.transcript (o + 2) .point) (off + 3) :: rest'
  | [], _, _, pre, o, off, rest, e => by simp at e
  | c :: cs, before, h, pre, o, off, rest, e => by
    obtain ⟨h1, h2⟩ := Bool.and_eq_true_iff.1 h
    cases pre with
    | nil =>
      obtain ⟨rfl, rfl⟩ := List.cons.inj e
      simp only [pointUpdate, Bool.or_eq_true_iff, Option.any_eq_true, Bool.and_eq_true_iff, decide_eq_true_eq] at h1
      rcases h1 with ⟨y, hy, h3, h4⟩ | ⟨y, hy, h3, h4⟩
      · obtain ⟨d, hd, hdy⟩ := Option.bind_eq_some_iff.1 hy
        obtain ⟨pre', rfl⟩ := List.getLast?_eq_some_iff.1 hd
        exact .inl ⟨pre', y.1, y.2, by rw [List.append_nil, pointUpdate_eq hdy], h3, h4⟩
      · obtain ⟨d, hd, hdy⟩ := Option.bind_eq_some_iff.1 hy
        obtain ⟨rest', rfl⟩ := List.head?_eq_some_iff.1 hd
        exact .inr ⟨rest', by rw [pointUpdate_eq hdy, h3, h4]⟩
    | cons d pre =>
      obtain ⟨rfl, e2⟩ := List.cons.inj e
      have h3 : noLonely ((before ++ [c]).getLast?.bind pointUpdate) cs = true := by
        rw [List.getLast?_append]
        exact h2
      have := noLonely_ok (before := before ++ [c]) h3 pre o off rest e2
      rwa [List.append_assoc, List.singleton_append] at this

/-! ### Bounds -/

def bounds : Stmt → Bool
  | .updateHash (.transcript o _) off => o < 2 ^ 63 && off < 2 ^ 63
  | .assign _ (.mulAdd (.transcript p _) (.memory m _) _ _) => p < 255 && m < 256
  | .assign _ (.mulAdd (.memory _ _) _ (.memory c _) _) => c < 255
  | .assign (.memory x .scalar) (.mul (.memory y .scalar) (.memory z .scalar) .scalar) => x < 2 ^ 31 && y < 2 ^ 31 && z < 2 ^ 31
  | _ => true

/-! ### Powers -/

/-- No temporary in it. -/
def plain : Expr → Bool
  | .add l r _ | .sub l r _ | .mul l r _ | .div l r _ => plain l && plain r
  | .mulAdd l r c _ => plain l && plain r && plain c
  | .pow b _ _ => plain b
  | .temp _ | .mulAddPM _ _ _ | .mulAddMT _ _ => false
  | _ => true

theorem plain_ok {e : Expr} (h : plain e = true) (cur : Option Ty) : e.Temps cur := by
  induction e with
  | add l r t ihl ihr | sub l r t ihl ihr | mul l r t ihl ihr | div l r t ihl ihr =>
    obtain ⟨h1, h2⟩ := Bool.and_eq_true_iff.1 h
    exact ⟨ihl h1, ihr h2⟩
  | mulAdd l r c t ihl ihr ihc =>
    obtain ⟨h0, h3⟩ := Bool.and_eq_true_iff.1 h
    obtain ⟨h1, h2⟩ := Bool.and_eq_true_iff.1 h0
    exact ⟨ihl h1, ihr h2, ihc h3⟩
  | pow b n t ih => exact ih h
  | temp t => cases h
  | mulAddPM a b t => cases h
  | mulAddMT a b => cases h
  | _ => trivial

def contMul (a x y : Expr) : Bool :=
  (x = .temp .scalar && y = .temp .scalar) || (a ≠ .temp .scalar && ((x = .temp .scalar && y = a) || (x = a && y = .temp .scalar)))

theorem contMul_iff {a x y : Expr} : contMul a x y = true ↔ ContMul a x y := by
  unfold contMul ContMul
  simp only [Bool.or_eq_true_iff, Bool.and_eq_true_iff, decide_eq_true_eq]

def cont (a : Expr) : Stmt → Bool
  | .assign (.temp .scalar) (.mul x y .scalar) => contMul a x y
  | _ => false

theorem cont_iff {a : Expr} {c : Stmt} : cont a c = true ↔ Cont a c := by
  constructor
  · intro h
    unfold cont at h
    split at h
    · exact ⟨_, _, contMul_iff.1 h, rfl⟩
    · cases h
  · rintro ⟨x, y, h, rfl⟩
    exact contMul_iff.2 h

/-- The statement after the ones that continue the power of `a`, of which there were `n`. -/
def powerEnds (a : Expr) : ℕ → List Stmt → Bool
  | n, [] => n < 62
  | n, c :: cs =>
    if cont a c then powerEnds a (n + 1) cs
    else n < 62 && match c with
      | .assign _ (.mul x y .scalar) => n = 0 || contMul a x y
      | _ => true

def powers : List Stmt → Bool
  | [] => true
  | c :: cs =>
    (match c with
      | .assign (.temp .scalar) (.mul a b .scalar) => a ≠ b || ((a = .temp .scalar || plain a) && powerEnds a 0 cs)
      | _ => true) && powers cs

theorem powerEnds_ok {a : Expr} : ∀ {cs : List Stmt} {n : ℕ}, powerEnds a n cs = true → ∀ tail rest, cs = tail ++ rest → (∀ c ∈ tail, Cont a c) →
    n + tail.length < 62 ∧ ∀ l x y rest', rest = .assign l (.mul x y .scalar) :: rest' → 1 ≤ n + tail.length → ContMul a x y
  | [], n, h, tail, rest, e, _ => by
    obtain ⟨rfl, rfl⟩ := List.append_eq_nil_iff.1 e.symm
    exact ⟨of_decide_eq_true h, fun l x y rest' e => by cases e⟩
  | c :: cs, n, h, tail, rest, e, ht => by
    unfold powerEnds at h
    split at h
    · next hc =>
      cases tail with
      | nil =>
        rw [List.nil_append] at e
        refine ⟨?_, fun l x y rest' e' _ => ?_⟩
        · have := (powerEnds_ok h [] cs rfl (by simp)).1
          simp only [List.length_nil] at this ⊢
          omega
        · rw [← e] at e'
          obtain ⟨rfl, -⟩ := List.cons.inj e'
          obtain ⟨x', y', h1, h2⟩ := cont_iff.1 hc
          cases h2
          exact h1
      | cons d tail =>
        obtain ⟨rfl, e2⟩ := List.cons.inj e
        obtain ⟨h1, h2⟩ := powerEnds_ok h tail rest e2 fun c hc => ht c (List.mem_cons_of_mem _ hc)
        rw [List.length_cons]
        exact ⟨by omega, fun l x y rest' e' _ => h2 l x y rest' e' (by omega)⟩
    · next hc =>
      obtain ⟨h1, h2⟩ := Bool.and_eq_true_iff.1 h
      cases tail with
      | nil =>
        rw [List.nil_append] at e
        refine ⟨by simpa using of_decide_eq_true h1, fun l x y rest' e' hn => ?_⟩
        rw [← e] at e'
        obtain ⟨rfl, -⟩ := List.cons.inj e'
        simp only [Bool.or_eq_true_iff, decide_eq_true_eq] at h2
        rw [List.length_nil, add_zero] at hn
        exact contMul_iff.1 (h2.resolve_left (by omega))
      | cons d tail =>
        obtain ⟨rfl, -⟩ := List.cons.inj e
        exact absurd (cont_iff.2 (ht c List.mem_cons_self)) hc

theorem powers_at : ∀ {stmts : List Stmt}, powers stmts = true → ∀ pre a rest, stmts = pre ++ sqStmt a :: rest →
    PlainBase a ∧ powerEnds a 0 rest = true
  | [], _, pre, a, rest, e => by simp at e
  | c :: cs, h, pre, a, rest, e => by
    obtain ⟨h1, h2⟩ := Bool.and_eq_true_iff.1 h
    cases pre with
    | nil =>
      obtain ⟨rfl, rfl⟩ := List.cons.inj e
      simp only [sqStmt, Bool.or_eq_true_iff, Bool.and_eq_true_iff, decide_eq_true_eq] at h1
      obtain ⟨h3, h4⟩ := h1.resolve_left (not_not.2 rfl)
      exact ⟨h3.imp_right plain_ok, h4⟩
    | cons d pre =>
      obtain ⟨rfl, e2⟩ := List.cons.inj e
      exact powers_at h2 pre a rest e2

/-! ### Products -/

def asMMM : Stmt → Option (ℕ × ℕ × ℕ)
  | .assign (.memory x .scalar) (.mul (.memory y .scalar) (.memory z .scalar) .scalar) => some (x, y, z)
  | _ => none

def ascends (x y : ℕ × ℕ × ℕ) : Bool := x.1 ≤ y.1 && x.2.1 ≤ y.2.1 && x.2.2 ≤ y.2.2

/-- Three numbers on a line. -/
def even3 (x y z : ℕ) : Bool := x + z = 2 * y

def even (x y z : ℕ × ℕ × ℕ) : Bool := even3 x.1 y.1 z.1 && even3 x.2.1 y.2.1 z.2.1 && even3 x.2.2 y.2.2 z.2.2

/-- The first products: the offsets do not go down, or are not on a line. -/
def fine : List Stmt → Bool
  | c :: d :: e :: cs =>
    match asMMM c, asMMM d, asMMM e with
    | some x, some y, some z => ascends x y || !even x y z || match cs with
      | f :: g :: _ => match asMMM f, asMMM g with
        | some u, some v => !even y z u || !even z u v
        | _, _ => true
      | _ => true
    | _, _, _ => true
  | _ => true

def noDescent : List Stmt → Bool
  | [] => true
  | c :: cs => fine (c :: cs) && noDescent cs

theorem noDescent_at : ∀ {stmts : List Stmt}, noDescent stmts = true → ∀ pre rest, stmts = pre ++ rest → fine rest = true
  | [], _, pre, rest, e => by
    obtain ⟨rfl, rfl⟩ := List.append_eq_nil_iff.1 e.symm
    rfl
  | c :: cs, h, pre, rest, e => by
    obtain ⟨h1, h2⟩ := Bool.and_eq_true_iff.1 h
    cases pre with
    | nil =>
      rw [List.nil_append] at e
      rw [← e]
      exact h1
    | cons d pre => exact noDescent_at h2 pre rest (List.cons.inj e).2

theorem progression_even {start : ℕ × ℕ × ℕ} {z : ℤ × ℤ × ℤ} {offs : List (ℕ × ℕ × ℕ)} (h : Progression start z offs) {i : ℕ} {x y w : ℕ × ℕ × ℕ}
    (hx : offs[i]? = some x) (hy : offs[i + 1]? = some y) (hw : offs[i + 2]? = some w) : even x y w = true := by
  obtain ⟨a1, a2, a3⟩ := h _ _ hx
  obtain ⟨b1, b2, b3⟩ := h _ _ hy
  obtain ⟨c1, c2, c3⟩ := h _ _ hw
  push_cast at *
  simp only [even, even3, Bool.and_eq_true_iff, decide_eq_true_eq]
  refine ⟨⟨?_, ?_⟩, ?_⟩ <;> (zify; linarith)

theorem noDescent_ok {stmts : List Stmt} (h : noDescent stmts = true) : NoDescent stmts := by
  intro pre offs rest start z e h5 hp
  obtain ⟨x0, x1, x2, x3, x4, offs, rfl⟩ : ∃ x0 x1 x2 x3 x4 l, offs = x0 :: x1 :: x2 :: x3 :: x4 :: l := by
    rcases offs with _ | ⟨x0, _ | ⟨x1, _ | ⟨x2, _ | ⟨x3, _ | ⟨x4, l⟩⟩⟩⟩⟩
    · simp at h5
    · simp at h5
    · simp at h5
    · simp at h5
    · simp at h5
    · exact ⟨_, _, _, _, _, _, rfl⟩
  rw [List.append_assoc] at e
  have hf := noDescent_at h pre _ e
  have e1 : even x0 x1 x2 = true := progression_even (i := 0) hp rfl rfl rfl
  have e2 : even x1 x2 x3 = true := progression_even (i := 1) hp rfl rfl rfl
  have e3 : even x2 x3 x4 = true := progression_even (i := 2) hp rfl rfl rfl
  simp only [List.map_cons, List.cons_append, fine, mmm, asMMM, e1, e2, e3, Bool.not_true, Bool.or_false, ascends, Bool.and_eq_true_iff, decide_eq_true_eq] at hf
  obtain ⟨a1, a2, a3⟩ := hp 0 x0 rfl
  obtain ⟨b1, b2, b3⟩ := hp 1 x1 rfl
  push_cast at *
  exact ⟨by linarith [hf.1.1], by linarith [hf.1.2], by linarith [hf.2]⟩

/-! ### Together -/

def mergeable (stmts : List Stmt) : Bool :=
  noLonely none stmts && stmts.all bounds && powers stmts && noDescent stmts && stmts.length < 2 ^ 31

theorem mergeable_ok {stmts : List Stmt} (h : mergeable stmts = true) (checks : Bool) : Mergeable checks stmts := by
  simp only [mergeable, Bool.and_eq_true_iff, List.all_eq_true, decide_eq_true_eq] at h
  obtain ⟨⟨⟨⟨h1, h2⟩, h3⟩, h4⟩, h5⟩ := h
  refine ⟨?_, ?_, ?_, ?_, ?_, ?_, .inr ?_, .inr ⟨⟨h5, ?_⟩, noDescent_ok h4⟩⟩
  · exact noLonely_ok (before := []) h1
  · intro o t off hm
    simpa [bounds] using h2 _ hm
  · intro l p t m t' c t'' hm
    simpa [bounds] using h2 _ hm
  · intro l m t b c t' t'' hm
    have := h2 _ hm
    simpa [bounds] using this
  · intro a ha
    obtain ⟨pre, rest, e⟩ := List.append_of_mem ha
    exact (powers_at h3 pre a rest e).1
  · rintro pre run a l x y rest e ⟨tail, rfl, ht⟩ h2' -
    have e' : stmts = pre ++ sqStmt a :: (tail ++ .assign l (.mul x y .scalar) :: rest) := by rw [e]; simp
    refine (powerEnds_ok (powers_at h3 _ _ _ e').2 tail _ rfl ht).2 l x y rest rfl ?_
    rw [List.length_cons] at h2'
    omega
  · rintro pre run a rest e ⟨tail, rfl, ht⟩
    have e' : stmts = pre ++ sqStmt a :: (tail ++ rest) := by rw [e]; simp
    have := (powerEnds_ok (powers_at h3 _ _ _ e').2 tail _ rfl ht).1
    rw [List.length_cons]
    omega
  · intro x hm
    have := h2 _ hm
    simpa [bounds, mmm, and_assoc] using this

end Verif.Sol.Checks
