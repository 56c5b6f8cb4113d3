import Verif.Sol.GenRun

/-!
# Squeezed values are not marked as constants

`Gen.squeeze` stops when the sponge returns a value marked as a constant. It never does: the last layer of the permutation multiplies
results of `mul_add_constant`.
-/

namespace Verif.Sol
open Verif.Circuit Verif.Ecc

def Ends {α : Type} (x : Gen α) (Q : α → Prop) : Prop := ∀ k a k', x.1 k = some (a, k') → Q a

variable {α β : Type} {rate : ℕ}

theorem Ends.triv (x : Gen α) : Ends x fun _ => True := fun _ _ _ _ => trivial

theorem Ends.pure {a : α} {Q : α → Prop} (h : Q a) : Ends (return a) Q := fun k b k' hk => by
  obtain ⟨rfl, -⟩ := Gen.pure_some hk
  exact h

theorem Ends.bind {x : Gen α} {f : α → Gen β} {P : α → Prop} {Q : β → Prop} (h : Ends x P) (hf : ∀ a, P a → Ends (f a) Q) : Ends (x >>= f) Q :=
  fun k b k' hk => by
    obtain ⟨a, k1, h1, h2⟩ := Gen.bind_some hk
    exact hf a (h _ _ _ h1) _ _ _ h2

theorem Ends.mono {x : Gen α} {P Q : α → Prop} (h : Ends x P) (hq : ∀ a, P a → Q a) : Ends x Q := fun k a k' hk => hq a (h k a k' hk)

theorem Ends.fail {Q : α → Prop} : Ends Gen.fail Q := fun _ _ _ h => by cases h

theorem Ends.scalar (e : Expr) (v : N) : Ends (Gen.scalar e v) fun r => r.isConst = false := .bind (.triv _) fun _ _ => .pure rfl

theorem live_mul {a : SVal} (ha : a.isConst = false) (k : N) : Ends (a.mul (.const k)) fun r => r.isConst = false := by
  unfold SVal.mul
  rw [ha]
  split
  · next h => cases h.1
  split
  · next h => cases h.1
  split
  · exact .pure ha
  · exact .scalar _ _

theorem live_add {a b : SVal} (hb : b.isConst = false) : Ends (a.add b) fun r => r.isConst = false := by
  unfold SVal.add
  rw [hb]
  split
  · next h => cases h.2
  split
  · exact .pure hb
  split
  · next h => cases h.1
  · exact .scalar _ _

theorem live_sum : ∀ (l : List (SVal × N)) (acc : SVal), (∀ x ∈ l, x.1.isConst = false) → l ≠ [] ∨ acc.isConst = false →
    Ends (SVal.sumLoop l acc) fun r => r.isConst = false
  | [], _, _, ha => .pure (ha.resolve_left (· rfl))
  | (x, k) :: l, acc, hl, _ => .bind (live_mul (hl _ List.mem_cons_self) k) fun _ hm => .bind (live_add hm) fun _ hs =>
      live_sum l _ (fun y hy => hl y (List.mem_cons_of_mem _ hy)) (.inr hs)

theorem Ends.tab {Q : α → Prop} : ∀ {n : ℕ} {f : Fin n → Gen α}, (∀ i, Ends (f i) Q) → Ends (Api.tabM genChip f : Gen _) fun g => ∀ i, Q (g i)
  | 0, _, _ => .pure fun i => i.elim0
  | _ + 1, _, h => .bind (h 0) fun _ ha => .bind (Ends.tab fun i => h i.succ) fun _ hl => .pure fun i => Fin.cases ha hl i

theorem live_sbox (ks : Fin (rate + 1) → N) (s : Fin (rate + 1) → SVal) :
    Ends (Api.sboxFull genChip ks s : Gen _) fun (s : Fin (rate + 1) → SVal) => ∀ i, (s i).isConst = false :=
  Ends.tab (Q := fun a : SVal => a.isConst = false) fun _ => .bind (.triv _) fun _ _ => .bind (.triv _) fun _ _ => .pure rfl

theorem live_mds (mds : Fin (rate + 1) → Fin (rate + 1) → N) {s : Fin (rate + 1) → SVal} (hs : ∀ i, (s i).isConst = false) :
    Ends (Api.applyMds genChip mds s : Gen _) fun (s : Fin (rate + 1) → SVal) => ∀ i, (s i).isConst = false :=
  Ends.tab (Q := fun a : SVal => a.isConst = false) fun i => live_sum _ _ (fun x hx => by
    obtain ⟨j, rfl⟩ := (List.mem_ofFn' _ _).1 hx
    exact hs j) (.inl (by rw [List.ofFn_succ]; exact List.cons_ne_nil _ _))

theorem live_permutation (ps : Api.PoseidonSpec N rate) (inputs : List SVal) (s : Fin (rate + 1) → SVal) :
    Ends (Api.permutation genChip ps inputs s : Gen _) fun (s : Fin (rate + 1) → SVal) => ∀ i, (s i).isConst = false :=
  .bind (.triv _) fun _ _ => .bind (.triv _) fun _ _ => by
    have hj : ∀ half s, Ends (do
        let s ← (Api.fullRounds genChip ps.mds ((ps.start.drop 1).take half) s : Gen (Fin (rate + 1) → SVal))
        let kl ← (Api.unwrap genChip ps.start.getLast? : Gen (Fin (rate + 1) → N))
        let s ← (Api.sboxFull genChip kl s : Gen (Fin (rate + 1) → SVal))
        let s ← (Api.applyMds genChip ps.preSparse s : Gen (Fin (rate + 1) → SVal))
        let s ← (Api.partialRounds genChip (ps.partials.zip ps.sparse) s : Gen (Fin (rate + 1) → SVal))
        let s ← (Api.fullRounds genChip ps.mds ps.ends s : Gen (Fin (rate + 1) → SVal))
        let s ← (Api.sboxFull genChip (fun _ => 0) s : Gen (Fin (rate + 1) → SVal))
        (Api.applyMds genChip ps.mds s : Gen (Fin (rate + 1) → SVal)) : Gen _) fun (s : Fin (rate + 1) → SVal) => ∀ i, (s i).isConst = false := fun _ _ =>
      .bind (.triv _) fun _ _ => .bind (.triv _) fun _ _ => .bind (.triv _) fun _ _ => .bind (.triv _) fun _ _ => .bind (.triv _) fun _ _ =>
      .bind (.triv _) fun _ _ => .bind (live_sbox _ _) fun _ h => live_mds _ h
    dsimp only
    split
    · exact .bind (.triv _) fun _ _ => hj _ _
    · exact .bind (.triv _) fun _ _ => hj _ _

theorem live_loop (ps : Api.PoseidonSpec N rate) : ∀ (l : List (List SVal)) (off : ℕ) (s : Fin (rate + 1) → SVal),
    off = 0 ∨ (∀ i, (s i).isConst = false) →
    Ends (Api.squeezeLoop genChip ps l off s : Gen _) fun (r : ℕ × (Fin (rate + 1) → SVal)) => r.1 = 0 ∨ ∀ i, (r.2 i).isConst = false
  | [], _, _, h => .pure h
  | _ :: l, _, _, _ => .bind (live_permutation ps _ _) fun _ h => live_loop ps l _ _ (.inr h)

/-- The check of the model never fires. -/
theorem squeeze_live (ps : Api.PoseidonSpec N rate) (st : Api.Sponge SVal rate) :
    Ends (Api.spongeSqueeze genChip ps st : Gen _) fun (r : SVal × Api.Sponge SVal rate) => r.1.isConst = false :=
  .bind (.triv _) fun _ _ => .bind (live_loop ps _ 0 _ (.inl rfl)) fun r hr => .bind (P := fun s : Fin (rate + 1) → SVal => ∀ i, (s i).isConst = false) (by
    unfold Api.squeezeEnd
    split
    · exact live_permutation ps _ _
    · next h => exact .pure (hr.resolve_left h)) fun _ h => .pure (h _)

end Verif.Sol
