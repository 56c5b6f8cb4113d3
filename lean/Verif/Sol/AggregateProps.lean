import Verif.Sol.Aggregate

/-!
# Replacing runs of statements

After register allocation a temporary is read by the statement that follows its assignment and by no other (`Temps`). Statements can then
be replaced as long as memory, transcript and the temporary that is still to be read are the same (`Repl`).
-/

namespace Verif.Sol

/-! ### Types -/

/-- Operands have the types that the rendered function takes. -/
def Expr.Typed : Expr → Prop
  | .add l r t | .sub l r t => (l.type = t ∧ r.type = t) ∧ l.Typed ∧ r.Typed
  | .mul l r t => (l.type = .scalar ∧ r.type = t) ∧ l.Typed ∧ r.Typed
  | .div l r t => (t = .scalar ∧ l.type = .scalar ∧ r.type = .scalar) ∧ l.Typed ∧ r.Typed
  | .mulAdd l r c t => (l.type = t ∧ r.type = .scalar ∧ c.type = t) ∧ l.Typed ∧ r.Typed ∧ c.Typed
  | .mulAddPM target _ t => target.type = t ∧ target.Typed
  | .pow b _ t => (t = .scalar ∧ b.type = .scalar) ∧ b.Typed
  | _ => True

def Stmt.Typed : Stmt → Prop
  | .assign l r => l.type = r.type ∧ r.Typed
  | .updateHash e _ => e.Typed
  | _ => True

/-- What can stand as arguments of a function: everything but a call that returns a point. -/
def Expr.Operand : Expr → Prop
  | .memory _ _ | .transcript _ _ | .inst _ _ | .tmpBuf _ _ | .point _ _ | .scalar _ | .temp _ => True
  | .mulAdd l r c t => t = .scalar ∧ l.Operand ∧ r.Operand ∧ c.Operand
  | _ => False

/-- What can stand on the right side of an assignment. -/
def Expr.Flat : Expr → Prop
  | .add l r _ | .sub l r _ | .mul l r _ | .div l r _ => l.Operand ∧ r.Operand
  | .mulAdd l r c _ => l.Operand ∧ r.Operand ∧ c.Operand
  | .mulAddPM target _ _ => target.Operand
  | .pow b _ _ => b.Operand
  | _ => True

/-- A statement that the generator can write down and the compiler accepts: no call that returns a point is an argument. -/
def Stmt.Flat : Stmt → Prop
  | .assign l r => (l.isMemory = true ∨ l.isTemp = true) ∧ r.Flat
  | .updateHash e _ => e.Operand
  | _ => True

/-! ### Temporaries -/

/-- The expression reads no other temporary than the one that `cur` says is there. -/
def Expr.Temps (cur : Option Ty) : Expr → Prop
  | .temp t => cur = some t
  | .add l r _ | .sub l r _ | .mul l r _ | .div l r _ => l.Temps cur ∧ r.Temps cur
  | .mulAdd l r c _ => l.Temps cur ∧ r.Temps cur ∧ c.Temps cur
  | .mulAddPM target _ _ => target.Temps cur
  | .mulAddMT _ _ => cur = some .scalar
  | .pow b _ _ => b.Temps cur
  | _ => True

def Stmt.Temps (cur : Option Ty) : Stmt → Prop
  | .assign _ r => r.Temps cur
  | .updateHash e _ => e.Temps cur
  | _ => True

/-- The temporary after the statement. -/
def Stmt.after : Stmt → Option Ty
  | .assign (.temp t) _ => some t
  | _ => none

def after (cur : Option Ty) : List Stmt → Option Ty
  | [] => cur
  | c :: cs => after c.after cs

/-- Temporaries are read by the next statement only. -/
def Temps : Option Ty → List Stmt → Prop
  | _, [] => True
  | cur, c :: cs => c.Temps cur ∧ Temps c.after cs

theorem after_append (a b : List Stmt) : ∀ cur, after cur (a ++ b) = after (after cur a) b := by
  induction a with
  | nil => intro cur; rfl
  | cons c cs ih => intro cur; exact ih _

theorem temps_append {a b : List Stmt} : ∀ {cur}, Temps cur (a ++ b) ↔ Temps cur a ∧ Temps (after cur a) b := by
  induction a with
  | nil => intro cur; simp [Temps, after]
  | cons c cs ih =>
    intro cur
    simp only [List.cons_append, Temps, after, ih, and_assoc]

/-- The same variables, except for temporaries that are not read again. -/
structure TEq (cur : Option Ty) (s s' : St) : Prop where
  m : s'.m = s.m
  abs : s'.abs = s.abs
  t0 : cur ≠ none → s'.t0 = s.t0
  t1 : cur = some .point → s'.t1 = s.t1

theorem TEq.refl (cur : Option Ty) (s : St) : TEq cur s s := ⟨rfl, rfl, fun _ => rfl, fun _ => rfl⟩

theorem TEq.trans {cur : Option Ty} {a b c : St} (h : TEq cur a b) (g : TEq cur b c) : TEq cur a c :=
  ⟨g.m.trans h.m, g.abs.trans h.abs, fun hc => (g.t0 hc).trans (h.t0 hc), fun hc => (g.t1 hc).trans (h.t1 hc)⟩

theorem load_teq {cur : Option Ty} {E : Env} {s s' : St} (h : TEq cur s s') (i : ℕ) : E.load s' i = E.load s i := by simp only [Env.load, h.m]

theorem pm_teq {cur : Option Ty} {E : Env} {s s' : St} (h : TEq cur s s') : ∀ n op t, frMulAddPM E s' n op t = frMulAddPM E s n op t
  | 0, _, _ => rfl
  | n + 1, op, t => by simp only [frMulAddPM, load_teq h, pm_teq h n]

theorem epm_teq {cur : Option Ty} {E : Env} {s s' : St} (h : TEq cur s s') : ∀ n op x y, eccMulAddPM E s' n op x y = eccMulAddPM E s n op x y
  | 0, _, _, _ => rfl
  | n + 1, op, x, y => by simp only [eccMulAddPM, load_teq h, epm_teq h n]

theorem mt_teq {cur : Option Ty} {E : Env} {s s' : St} (h : TEq cur s s') (b : Word) : ∀ n op t, frMulAddMT E s' b n op t = frMulAddMT E s b n op t
  | 0, _, _ => rfl
  | n + 1, op, t => by simp only [frMulAddMT, load_teq h, mt_teq h b n]

theorem eval_teq {cur : Option Ty} {E : Env} {s s' : St} (h : TEq cur s s') {e : Expr} (he : e.Temps cur) : eval E s' e = eval E s e := by
  induction e with
  | memory o t => cases t <;> simp only [eval, Env.readMem, load_teq h]
  | temp t =>
    have he : cur = some t := he
    subst he
    cases t
    · simp only [eval, readTemp, h.t0 (by simp)]
    · simp only [eval, readTemp, h.t0 (by simp), h.t1 rfl]
  | add l r t ihl ihr | sub l r t ihl ihr | mul l r t ihl ihr | div l r t ihl ihr => simp only [eval, ihl he.1, ihr he.2]
  | mulAdd l r c t ihl ihr ihc => simp only [eval, ihl he.1, ihr he.2.1, ihc he.2.2]
  | pow b n t ih => simp only [eval, ih he]
  | mulAddPM target op t ih =>
    simp only [eval, ih he]
    congr 1
    funext v
    cases t <;> cases v <;> simp only [opPM, pm_teq h, epm_teq h]
  | mulAddMT m op =>
    have he : cur = some .scalar := he
    subst he
    simp only [eval, load_teq h, mt_teq h, h.t0 (by simp)]
  | _ => rfl

theorem evalRhs_teq {cur : Option Ty} {E : Env} {s s' : St} (h : TEq cur s s') {e : Expr} (he : e.Temps cur) :
    OptRel (fun a b => TEq cur a.1 b.1 ∧ a.2 = b.2) (evalRhs E s e) (evalRhs E s' e) := by
  by_cases ho : ∃ o, e = .hash o
  · obtain ⟨o, rfl⟩ := ho
    simp only [evalRhs, h.abs]
    show OptRel _ ((squeezeChallenge E.D s.abs o).bind _) ((squeezeChallenge E.D s.abs o).bind _)
    cases squeezeChallenge E.D s.abs o with
    | none => trivial
    | some r => exact ⟨⟨h.m, rfl, h.t0, h.t1⟩, rfl⟩
  · push Not at ho
    rw [evalRhs_of_ne ho, evalRhs_of_ne ho, eval_teq h he]
    cases eval E s e with
    | none => trivial
    | some v => exact ⟨h, rfl⟩

theorem save_teq {E : Env} {s s' : St} {cur : Option Ty} (h : TEq cur s s') (i : ℕ) (w : Word) : OptRel (TEq cur) (E.save s i w) (E.save s' i w) := by
  unfold Env.save
  split
  · exact ⟨by simp only [h.m], h.abs, h.t0, h.t1⟩
  · trivial

theorem TEq.weaken {cur : Option Ty} {s s' : St} (h : TEq cur s s') : TEq none s s' := ⟨h.m, h.abs, fun h => absurd rfl h, fun h => by cases h⟩

theorem OptRel.mono {α β : Type} {R S : α → β → Prop} {x : Option α} {y : Option β} (h : OptRel R x y) (hRS : ∀ a b, R a b → S a b) : OptRel S x y := by
  cases x <;> cases y
  · trivial
  · exact h.elim
  · exact h.elim
  · exact hRS _ _ h

theorem put_teq {cur : Option Ty} {E : Env} {s s' : St} (h : TEq cur s s') (l : Expr) (v : Val) (r : Expr) :
    OptRel (TEq (Stmt.assign l r).after) (put E s l v) (put E s' l v) := by
  cases l with
  | memory o t =>
    cases t <;> cases v
    · exact save_teq h.weaken _ _
    · trivial
    · trivial
    · exact OptRel.bind (save_teq h.weaken _ _) fun a b hab => save_teq hab _ _
  | temp t =>
    cases t <;> cases v
    · exact ⟨h.m, h.abs, fun _ => rfl, fun hc => by cases hc⟩
    · trivial
    · trivial
    · exact ⟨h.m, h.abs, fun _ => rfl, fun _ => rfl⟩
  | _ => cases v <;> trivial

theorem absorb_teq {cur : Option Ty} {s s' : St} (h : TEq cur s s') (off : ℕ) (t : Ty) (v : Val) : OptRel (TEq cur) (absorb s off t v) (absorb s' off t v) := by
  cases t <;> cases v
  · simp only [absorb, h.abs]
    rename_i w
    cases updateHashScalar w s.abs off with
    | none => trivial
    | some a => exact ⟨h.m, rfl, h.t0, h.t1⟩
  · trivial
  · trivial
  · simp only [absorb, h.abs]
    rename_i x y
    cases updateHashPoint x y s.abs off with
    | none => trivial
    | some a => exact ⟨h.m, rfl, h.t0, h.t1⟩

theorem hashRounds_teq {cur : Option Ty} {E : Env} (a b c d : ℕ) (t : Ty) : ∀ (l : List ℕ) {s s' : St}, TEq cur s s' →
    OptRel (TEq cur) (hashRounds E a b c d t l s) (hashRounds E a b c d t l s')
  | [], _, _, h => h
  | i :: is, s, s', h => by
    simp only [hashRounds]
    show OptRel _ ((readArr E.proof (a + i * b) t).bind _) ((readArr E.proof (a + i * b) t).bind _)
    rcases readArr E.proof (a + i * b) t with _ | v
    · trivial
    · show OptRel _ ((absorb s (c + i * d) t v).bind _) ((absorb s' (c + i * d) t v).bind _)
      exact OptRel.bind (absorb_teq h _ _ _) fun x y hxy => hashRounds_teq a b c d t is hxy

theorem mulRounds_teq {cur : Option Ty} {E : Env} (a b : ℕ × ℕ × ℕ) : ∀ (l : List ℕ) {s s' : St}, TEq cur s s' →
    OptRel (TEq cur) (mulRounds E a b l s) (mulRounds E a b l s')
  | [], _, _, h => h
  | i :: is, s, s', h => by
    simp only [mulRounds, load_teq h]
    rcases E.load s (a.2.1 + i * b.2.1) with _ | x
    · trivial
    · rcases E.load s (a.2.2 + i * b.2.2) with _ | y
      · trivial
      · show OptRel _ ((E.save s (a.1 + i * b.1) (mulmod x y)).bind _) ((E.save s' (a.1 + i * b.1) (mulmod x y)).bind _)
        exact OptRel.bind (save_teq h _ _) fun x y hxy => mulRounds_teq a b is hxy

theorem exec_teq {cur : Option Ty} {E : Env} {s s' : St} (h : TEq cur s s') {c : Stmt} (hc : c.Temps cur) :
    OptRel (TEq c.after) (exec E s c) (exec E s' c) := by
  cases c with
  | assign l r =>
    refine OptRel.bind (evalRhs_teq h hc) fun a b hab => ?_
    obtain ⟨a1, a2⟩ := a
    obtain ⟨b1, b2⟩ := b
    obtain ⟨h1, h2⟩ := hab
    dsimp only at h1 h2
    subst h2
    exact put_teq h1 l a2 r
  | updateHash e off =>
    simp only [exec, eval_teq h hc]
    rcases eval E s e with _ | v
    · trivial
    · exact (absorb_teq h off e.type v).mono fun a b hab => hab.weaken
  | loop a b c d e t =>
    simp only [exec]
    split
    · exact OptRel.bind (hashRounds_teq _ _ _ _ _ _ h.weaken) fun x y hxy => ⟨hxy.m, hxy.abs, fun _ => rfl, fun hc => by cases hc⟩
    · trivial
  | mulLoop a b n t =>
    cases t
    · exact OptRel.bind (mulRounds_teq _ _ _ h.weaken) fun x y hxy => ⟨hxy.m, hxy.abs, fun _ => rfl, fun hc => by cases hc⟩
    · trivial

theorem execAll_teq {E : Env} : ∀ {cs : List Stmt} {cur : Option Ty} {s s' : St}, TEq cur s s' → Temps cur cs →
    OptRel (TEq (after cur cs)) (execAll E s cs) (execAll E s' cs)
  | [], _, _, _, h, _ => h
  | _ :: _, _, _, _, h, hc => OptRel.bind (exec_teq h hc.1) fun _ _ hab => execAll_teq hab hc.2

theorem execAll_append {E : Env} (a b : List Stmt) : ∀ s, execAll E s (a ++ b) = (execAll E s a).bind fun s => execAll E s b := by
  induction a with
  | nil => intro s; rfl
  | cons c cs ih =>
    intro s
    show (exec E s c).bind _ = ((exec E s c).bind _).bind _
    rw [Option.bind_assoc]
    congr 1
    funext x
    exact ih x

/-! ### Replacement -/

/-- `b` can replace `a` wherever the discipline of temporaries holds. -/
def Repl (a b : List Stmt) : Prop :=
  ∀ cur, Temps cur a → Temps cur b ∧ after cur b = after cur a ∧
    ∀ (E : Env) (s s' : St), TEq cur s s' → OptRel (TEq (after cur a)) (execAll E s a) (execAll E s' b)

theorem Repl.refl (a : List Stmt) : Repl a a := fun _ h => ⟨h, rfl, fun _ _ _ hs => execAll_teq hs h⟩

theorem Repl.append {a b c d : List Stmt} (h : Repl a b) (g : Repl c d) : Repl (a ++ c) (b ++ d) := by
  intro cur hc
  obtain ⟨h1, h2⟩ := temps_append.1 hc
  obtain ⟨h3, h4, h5⟩ := h cur h1
  obtain ⟨h6, h7, h8⟩ := g _ h2
  refine ⟨temps_append.2 ⟨h3, h4 ▸ h6⟩, by rw [after_append, after_append, h4, h7], fun E s s' hs => ?_⟩
  rw [execAll_append, execAll_append, after_append]
  exact OptRel.bind (h5 E s s' hs) fun x y hxy => h8 E x y hxy

theorem OptRel.comp {α β γ : Type} {R : α → β → Prop} {S : β → γ → Prop} {T : α → γ → Prop} {x : Option α} {y : Option β} {z : Option γ}
    (h : OptRel R x y) (g : OptRel S y z) (hT : ∀ a b c, R a b → S b c → T a c) : OptRel T x z := by
  cases x <;> cases y <;> cases z
  · trivial
  · exact g.elim
  · exact h.elim
  · exact h.elim
  · exact h.elim
  · exact h.elim
  · exact g.elim
  · exact hT _ _ _ h g

theorem Repl.trans {a b c : List Stmt} (h : Repl a b) (g : Repl b c) : Repl a c := by
  intro cur hc
  obtain ⟨h1, h2, h3⟩ := h cur hc
  obtain ⟨g1, g2, g3⟩ := g cur h1
  refine ⟨g1, g2.trans h2, fun E s s' hs => ?_⟩
  exact OptRel.comp (h3 E s s' hs) (g3 E s' s' (TEq.refl _ _)) fun x y z hxy hyz => hxy.trans (h2 ▸ hyz)

/-- Runs of statements with `P` are replaced by single statements with `Q`; all other statements are kept. -/
inductive Thin (P Q : Stmt → Prop) : List Stmt → List Stmt → Prop
  | nil : Thin P Q [] []
  | keep (c : Stmt) {a b : List Stmt} : Thin P Q a b → Thin P Q (c :: a) (c :: b)
  | block {run : List Stmt} {d : Stmt} {a b : List Stmt} : run ≠ [] → (∀ c ∈ run, P c) → Q d → Thin P Q a b → Thin P Q (run ++ a) (d :: b)

variable {P Q : Stmt → Prop}

theorem Thin.refl : ∀ a, Thin P Q a a
  | [] => .nil
  | c :: cs => .keep c (Thin.refl cs)

theorem Thin.append {a b c d : List Stmt} (h : Thin P Q a b) (g : Thin P Q c d) : Thin P Q (a ++ c) (b ++ d) := by
  induction h with
  | nil => exact g
  | keep x _ ih => exact .keep x ih
  | block h1 h2 h3 _ ih =>
    rw [List.append_assoc]
    exact .block h1 h2 h3 ih

theorem Thin.single {run : List Stmt} {d : Stmt} (h1 : run ≠ []) (h2 : ∀ c ∈ run, P c) (h3 : Q d) : Thin P Q run [d] := by
  have := Thin.block h1 h2 h3 (.nil (P := P) (Q := Q))
  rwa [List.append_nil] at this

theorem Thin.mem {a b : List Stmt} (h : Thin P Q a b) : ∀ c ∈ b, c ∈ a ∨ Q c := by
  induction h with
  | nil => simp
  | keep x _ ih =>
    intro c hc
    rcases List.mem_cons.1 hc with rfl | hc
    · exact .inl (List.mem_cons_self ..)
    · exact (ih c hc).imp_left (List.mem_cons_of_mem _)
  | block _ _ h3 _ ih =>
    intro c hc
    rcases List.mem_cons.1 hc with rfl | hc
    · exact .inr h3
    · exact (ih c hc).imp_left fun h => List.mem_append_right _ h

theorem Thin.length_le {a b : List Stmt} (h : Thin P Q a b) : b.length ≤ a.length := by
  induction h with
  | nil => simp
  | keep x _ ih => simpa using ih
  | @block run _ _ _ h1 _ _ _ ih =>
    have := List.length_pos_of_ne_nil h1
    simp only [List.length_cons, List.length_append]
    omega

/-- The statements that follow a place in the result follow the same place in the program. -/
theorem Thin.split {a b : List Stmt} (h : Thin P Q a b) : ∀ {x y : List Stmt}, b = x ++ y → ∃ x0 y0, a = x0 ++ y0 ∧ Thin P Q x0 x ∧ Thin P Q y0 y := by
  induction h with
  | nil =>
    intro x y he
    obtain ⟨rfl, rfl⟩ := List.append_eq_nil_iff.1 he.symm
    exact ⟨[], [], rfl, .nil, .nil⟩
  | @keep c a b hab ih =>
    intro x y he
    cases x with
    | nil => exact ⟨[], c :: a, rfl, .nil, by rw [← show c :: b = y from he]; exact .keep c hab⟩
    | cons z x =>
      simp only [List.cons_append, List.cons.injEq] at he
      obtain ⟨rfl, he⟩ := he
      obtain ⟨x0, y0, rfl, h1, h2⟩ := ih he
      exact ⟨c :: x0, y0, rfl, .keep c h1, h2⟩
  | @block run d a b g1 g2 g3 hab ih =>
    intro x y he
    cases x with
    | nil => exact ⟨[], run ++ a, rfl, .nil, by rw [← show d :: b = y from he]; exact .block g1 g2 g3 hab⟩
    | cons z x =>
      simp only [List.cons_append, List.cons.injEq] at he
      obtain ⟨rfl, he⟩ := he
      obtain ⟨x0, y0, rfl, h1, h2⟩ := ih he
      exact ⟨run ++ x0, y0, by rw [List.append_assoc], .block g1 g2 g3 h1, h2⟩

/-- Statements without `Q` in the result are the statements of the program. -/
theorem Thin.same {a b : List Stmt} (h : Thin P Q a b) (hQ : ∀ c ∈ b, ¬ Q c) : a = b := by
  induction h with
  | nil => rfl
  | keep c _ ih => rw [ih fun d hd => hQ d (List.mem_cons_of_mem _ hd)]
  | block _ _ h3 _ _ => exact absurd h3 (hQ _ (List.mem_cons_self ..))

/-- A part of the result without `Q` is a part of the program. -/
theorem Thin.middle {a x y z : List Stmt} (h : Thin P Q a (x ++ y ++ z)) (hQ : ∀ c ∈ y, ¬ Q c) :
    ∃ x0 z0, a = x0 ++ y ++ z0 ∧ Thin P Q x0 x ∧ Thin P Q z0 z := by
  obtain ⟨w, z0, rfl, h1, h2⟩ := h.split rfl
  obtain ⟨x0, y0, rfl, h3, h4⟩ := h1.split rfl
  obtain rfl := h4.same hQ
  exact ⟨x0, z0, rfl, h3, h2⟩

/-- The last statements of the program, if they are without `P`, are the last statements of the result. -/
theorem Thin.suffix {a b : List Stmt} (h : Thin P Q a b) : ∀ {x y : List Stmt}, a = x ++ y → (∀ c ∈ y, ¬ P c) → ∃ x1, b = x1 ++ y := by
  induction h with
  | nil =>
    intro x y he hP
    obtain ⟨rfl, rfl⟩ := List.append_eq_nil_iff.1 he.symm
    exact ⟨[], rfl⟩
  | @keep c a b hab ih =>
    intro x y he hP
    cases x with
    | nil =>
      have he : c :: a = y := he
      subst he
      obtain ⟨x1, h1⟩ := ih (x := []) (y := a) rfl fun d hd => hP d (List.mem_cons_of_mem _ hd)
      have hlen := hab.length_le
      have : x1 = [] := List.length_eq_zero_iff.1 (by rw [h1] at hlen; simp at hlen; exact List.length_eq_zero_iff.2 hlen)
      subst this
      exact ⟨[], by rw [h1]; rfl⟩
    | cons z x =>
      simp only [List.cons_append, List.cons.injEq] at he
      obtain ⟨rfl, he⟩ := he
      obtain ⟨x1, rfl⟩ := ih he hP
      exact ⟨c :: x1, rfl⟩
  | @block run d a b g1 g2 g3 hab ih =>
    intro x y he hP
    rcases List.append_eq_append_iff.1 he with ⟨w, rfl, rfl⟩ | ⟨w, rfl, rfl⟩
    · obtain ⟨x1, rfl⟩ := ih rfl hP
      exact ⟨d :: x1, rfl⟩
    · cases w with
      | nil =>
        obtain ⟨x1, rfl⟩ := ih (x := []) rfl hP
        exact ⟨d :: x1, rfl⟩
      | cons v w => exact absurd (g2 v (by simp)) (hP v (by simp))

/-- Both: the replacement keeps the results and is made of such runs. -/
structure Rep (P Q : Stmt → Prop) (a b : List Stmt) : Prop where
  repl : Repl a b
  thin : Thin P Q a b

theorem Rep.refl (a : List Stmt) : Rep P Q a a := ⟨Repl.refl a, Thin.refl a⟩

theorem Rep.append {a b c d : List Stmt} (h : Rep P Q a b) (g : Rep P Q c d) : Rep P Q (a ++ c) (b ++ d) := ⟨h.repl.append g.repl, h.thin.append g.thin⟩

theorem Rep.cons {c : Stmt} {a b : List Stmt} (h : Rep P Q a b) : Rep P Q (c :: a) (c :: b) := (Rep.refl [c]).append h

/-! ### The driver -/

/-- The optimizer is idle before `c`: the statement before `c` was skipped, or its run ended because of `c`. -/
inductive Idle {σ : Type} (O : Optimizer σ) (Inv : List Stmt → σ → List Stmt → Prop) : List Stmt → Stmt → Prop
  | nil (c : Stmt) : Idle O Inv [] c
  | skip {pre : List Stmt} {x : Stmt} (c : Stmt) : Idle O Inv pre x → O.start x = none → Idle O Inv (pre ++ [x]) c
  | run {pre : List Stmt} {s : σ} {run : List Stmt} {c : Stmt} : Inv pre s run → O.merge s c = some .abort ∨ O.merge s c = some .complete →
      Idle O Inv (pre ++ run) c

/-- What has to be known about an optimizer for a given program: `Inv pre s run` relates its state to the run of statements it has taken
and to the statements before. -/
structure Sound {σ : Type} (O : Optimizer σ) (prog : List Stmt) (Inv : List Stmt → σ → List Stmt → Prop) (P Q : Stmt → Prop) : Prop where
  start : ∀ pre c rest s, prog = pre ++ c :: rest → Idle O Inv pre c → O.start c = some s → Inv pre s [c]
  proceed : ∀ pre s run c rest s', prog = pre ++ run ++ c :: rest → Inv pre s run → O.merge s c = some (.proceed s') → Inv pre s' (run ++ [c])
  abort : ∀ pre s run c rest u, prog = pre ++ run ++ c :: rest → Inv pre s run → O.merge s c = some .abort → O.unresolved s = some u → Rep P Q run u
  complete : ∀ pre s run c rest, prog = pre ++ run ++ c :: rest → Inv pre s run → O.merge s c = some .complete → Rep P Q run [O.toStatement s]
  done : ∀ pre s run, prog = pre ++ run → Inv pre s run → O.canComplete s = true → Rep P Q run [O.toStatement s]
  undone : ∀ pre s run u, prog = pre ++ run → Inv pre s run → O.canComplete s = false → O.unresolved s = some u → Rep P Q run u

theorem drive_rep {σ : Type} {O : Optimizer σ} {prog : List Stmt} {Inv : List Stmt → σ → List Stmt → Prop} (h : Sound O prog Inv P Q) :
    ∀ (cs : List Stmt),
      (∀ pre q, prog = pre ++ cs → (∀ c rest, cs = c :: rest → Idle O Inv pre c) → drive O none cs = some q → Rep P Q cs q) ∧
      (∀ pre s run q, prog = pre ++ run ++ cs → Inv pre s run → drive O (some s) cs = some q → Rep P Q (run ++ cs) q) := by
  intro cs
  induction cs with
  | nil =>
    refine ⟨fun pre q _ _ hq => ?_, fun pre s run q hp hi hq => ?_⟩
    · cases hq
      exact Rep.refl []
    · rw [List.append_nil] at hp ⊢
      unfold drive at hq
      split at hq
      · next hc =>
        cases hq
        exact h.done pre s run hp hi hc
      · next hc => exact h.undone pre s run q hp hi (by simpa using hc) hq
  | cons c cs ih =>
    obtain ⟨ihN, ihS⟩ := ih
    -- the statement is processed as if the optimizer were idle
    have hidle : ∀ pre q, prog = pre ++ c :: cs → Idle O Inv pre c → (drive O none (c :: cs)) = some q → Rep P Q (c :: cs) q := by
      intro pre q hp hi hq
      unfold drive at hq
      split at hq
      · next s hs => exact ihS pre s [c] q (by simp [hp]) (h.start pre c cs s hp hi hs) hq
      · next hs =>
        simp only [Option.bind_eq_bind, Option.bind_eq_some_iff, Option.pure_def, Option.some.injEq] at hq
        obtain ⟨q', hq', rfl⟩ := hq
        exact (ihN (pre ++ [c]) q' (by simp [hp]) (fun d _ _ => .skip d hi hs) hq').cons
    refine ⟨fun pre q hp hi hq => hidle pre q hp (hi c cs rfl) hq, fun pre s run q hp hi hq => ?_⟩
    have hrest : ∀ (u q' : List Stmt), Rep P Q run u → (O.merge s c = some .abort ∨ O.merge s c = some .complete) → drive O none (c :: cs) = some q' →
        Rep P Q (run ++ c :: cs) (u ++ q') := fun u q' hu hm hq' =>
      hu.append (hidle (pre ++ run) q' hp (.run hi hm) hq')
    unfold drive at hq
    simp only [Option.bind_eq_bind, Option.bind_eq_some_iff] at hq
    obtain ⟨act, hact, hq⟩ := hq
    cases act with
    | proceed s' =>
      have := ihS pre s' (run ++ [c]) q (by simp [hp]) (h.proceed pre s run c cs s' hp hi hact) hq
      simpa using this
    | abort =>
      simp only [Option.bind_eq_some_iff] at hq
      obtain ⟨u, hu, hq⟩ := hq
      have hr := h.abort pre s run c cs u hp hi hact hu
      split at hq
      · next s' hs' =>
        simp only [Option.bind_eq_some_iff, Option.pure_def, Option.some.injEq] at hq
        obtain ⟨q', hq', rfl⟩ := hq
        exact hrest u q' hr (.inl hact) (by unfold drive; simp only [hs', hq'])
      · next hs' =>
        simp only [Option.bind_eq_some_iff, Option.pure_def, Option.some.injEq] at hq
        obtain ⟨q', hq', rfl⟩ := hq
        exact hrest u (c :: q') hr (.inl hact) (by unfold drive; simp only [hs', hq', Option.bind_eq_bind, Option.bind_some, Option.pure_def])
    | complete =>
      have hr := h.complete pre s run c cs hp hi hact
      simp only at hq
      split at hq
      · next s' hs' =>
        simp only [Option.bind_eq_some_iff, Option.pure_def, Option.some.injEq] at hq
        obtain ⟨q', hq', rfl⟩ := hq
        exact hrest [_] q' hr (.inr hact) (by unfold drive; simp only [hs', hq'])
      · next hs' =>
        simp only [Option.bind_eq_some_iff, Option.pure_def, Option.some.injEq] at hq
        obtain ⟨q', hq', rfl⟩ := hq
        exact hrest [_] (c :: q') hr (.inr hact) (by unfold drive; simp only [hs', hq', Option.bind_eq_bind, Option.bind_some, Option.pure_def])

theorem Sound.rep {σ : Type} {O : Optimizer σ} {prog q : List Stmt} {Inv : List Stmt → σ → List Stmt → Prop} (h : Sound O prog Inv P Q)
    (hq : drive O none prog = some q) : Rep P Q prog q :=
  (drive_rep h prog).1 [] q rfl (fun c _ _ => .nil c) hq

/-- A replacement of the statements does not change the result. -/
theorem Repl.run {p : Prog} {q : List Stmt} (h : Repl p.stmts q) (ht : Temps none p.stmts) (hf : ∀ e ∈ p.finals, e.Temps none) (c : Call) :
    { p with stmts := q }.run c = p.run c := by
  obtain ⟨-, -, h3⟩ := h none ht
  have := h3 (c.env p.size) _ _ (TEq.refl none (St.init p.absorbingLength))
  simp only [Prog.run, Prog.runFrom]
  show (execAll (c.env p.size) _ q).bind _ = (execAll (c.env p.size) _ p.stmts).bind _
  revert this
  rcases execAll (c.env p.size) (St.init p.absorbingLength) p.stmts with _ | a <;>
    rcases execAll (c.env p.size) (St.init p.absorbingLength) q with _ | b
  · exact fun _ => rfl
  · exact fun h => h.elim
  · exact fun h => h.elim
  · intro h
    show p.finals.mapM (eval (c.env p.size) b) = p.finals.mapM (eval (c.env p.size) a)
    have := mapM_congr_opt (f := eval (c.env p.size) b) (g := eval (c.env p.size) a) (h := id) (l := p.finals) fun e he => eval_teq (TEq.weaken h) (hf e he)
    rwa [List.map_id] at this

/-- An optimizer that does not panic: the pass returns. -/
theorem drive_total {σ : Type} {O : Optimizer σ} (hm : ∀ s c, (O.merge s c).isSome) (hu : ∀ s c, O.merge s c = some .abort → (O.unresolved s).isSome)
    (hc : ∀ s, O.canComplete s = false → (O.unresolved s).isSome) : ∀ (cs : List Stmt), (∀ s, (drive O s cs).isSome)
  | [], none => rfl
  | [], some s => by
    unfold drive
    split
    · rfl
    · next h => exact hc s (by simpa using h)
  | c :: cs, none => by
    have ih := drive_total hm hu hc cs
    unfold drive
    split
    · exact ih _
    · obtain ⟨q, hq⟩ := Option.isSome_iff_exists.1 (ih none)
      simp [hq]
  | c :: cs, some s => by
    have ih := drive_total hm hu hc cs
    obtain ⟨act, hact⟩ := Option.isSome_iff_exists.1 (hm s c)
    unfold drive
    simp only [hact, Option.bind_eq_bind, Option.bind_some]
    cases act with
    | proceed s' => exact ih _
    | abort =>
      obtain ⟨u, hu⟩ := Option.isSome_iff_exists.1 (hu s c hact)
      simp only [hu, Option.bind_some]
      split
      · next s' _ =>
        obtain ⟨q, hq⟩ := Option.isSome_iff_exists.1 (ih (some s'))
        simp [hq]
      · obtain ⟨q, hq⟩ := Option.isSome_iff_exists.1 (ih none)
        simp [hq]
    | complete =>
      dsimp only
      split
      · next s' _ =>
        obtain ⟨q, hq⟩ := Option.isSome_iff_exists.1 (ih (some s'))
        simp [hq]
      · obtain ⟨q, hq⟩ := Option.isSome_iff_exists.1 (ih none)
        simp [hq]

end Verif.Sol
