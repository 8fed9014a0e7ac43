import Verif.PromiseModel
/-
Helper lemmas for threads with promises.
-/
namespace Verif.Promise
open Verif

/-- Everything waited for has been set, and no thread is beyond its end. -/
structure Inv (prog : Nat → List Act) (pc : Pcs) : Prop where
  le : ∀ u, pc u ≤ (prog u).length
  got : ∀ u k v j, k < pc u → (prog u)[k]? = some (.get v j) → j < pc v

theorem Inv.start (prog : Nat → List Act) : Inv prog fun _ => 0 :=
  ⟨fun _ => Nat.zero_le _, fun _ _ _ _ h => absurd h (Nat.not_lt_zero _)⟩

theorem Inv.advance {prog : Nat → List Act} {pc : Pcs} (h : Inv prog pc) (u : Nat) (a : Act)
    (ha : (prog u)[pc u]? = some a) (hg : ∀ v k, a = .get v k → k < pc v) :
    Inv prog fun v => if v = u then pc u + 1 else pc v := by
  have hlt : pc u < (prog u).length := by
    rcases Nat.lt_or_ge (pc u) (prog u).length with h' | h'
    · exact h'
    · rw [List.getElem?_eq_none h'] at ha; cases ha
  have hmono : ∀ v, pc v ≤ if v = u then pc u + 1 else pc v := by
    intro v
    split
    · rename_i e; rw [e]; omega
    · exact Nat.le_refl _
  refine ⟨?_, ?_⟩
  · intro v
    by_cases hv : v = u
    · subst hv; simp only [if_true]; omega
    · simp only [if_neg hv]; exact h.le v
  · intro w k v j hk hget
    show j < if v = u then pc u + 1 else pc v
    refine Nat.lt_of_lt_of_le ?_ (hmono v)
    by_cases hw : w = u
    · subst hw
      rw [if_pos rfl] at hk
      rcases Nat.lt_or_eq_of_le (Nat.lt_succ_iff.mp hk) with hk | hk
      · exact h.got w k v j hk hget
      · subst hk
        rw [ha] at hget
        exact hg v j (Option.some.inj hget)
    · rw [if_neg hw] at hk
      exact h.got w k v j hk hget

/-- If no thread can be about to read an object of a thread that has returned, no schedule reads such an object. -/
theorem run_safe (prog : Nat → List Act)
    (hsafe : ∀ pc, Inv prog pc → ∀ u v, (prog u)[pc u]? = some (.read v) → pc v < (prog v).length)
    (us : List Nat) : ∀ pc, Inv prog pc → ∃ pc', run prog pc us = .ok pc' ∧ Inv prog pc' := by
  induction us with
  | nil => intro pc h; exact ⟨pc, rfl, h⟩
  | cons u us ih =>
    intro pc h
    have hstep : ∃ pc', step prog pc u = .ok pc' ∧ Inv prog pc' := by
      unfold step
      cases ha : (prog u)[pc u]? with
      | none => exact ⟨pc, rfl, h⟩
      | some a =>
        cases a with
        | set => exact ⟨_, rfl, h.advance u _ ha fun _ _ e => by cases e⟩
        | work => exact ⟨_, rfl, h.advance u _ ha fun _ _ e => by cases e⟩
        | get v k =>
          by_cases hk : k < pc v
          · refine ⟨fun w => if w = u then pc u + 1 else pc w, by simp only; rw [if_pos hk], h.advance u _ ha ?_⟩
            intro v' k' e
            cases e
            exact hk
          · exact ⟨pc, by simp only; rw [if_neg hk], h⟩
        | read v =>
          have := hsafe pc h u v ha
          refine ⟨fun w => if w = u then pc u + 1 else pc w, ?_, h.advance u _ ha fun _ _ e => by cases e⟩
          simp only
          rw [if_neg (by omega)]
    obtain ⟨pc', h1, h2⟩ := hstep
    obtain ⟨pc'', h3, h4⟩ := ih pc' h2
    refine ⟨pc'', ?_, h4⟩
    unfold run
    rw [h1]
    exact h3

/-! ### positions in the programs -/

theorem pairs_length (n k : Nat) :
    ((List.range n).flatMap fun i => [Act.get (i + 1) k, Act.read (i + 1)]).length = 2 * n := by
  induction n with
  | zero => rfl
  | succ n ih => rw [List.range_succ, List.flatMap_append, List.length_append, ih]; simp; omega

theorem pairs_get (n k i : Nat) (hi : i < n) :
    ((List.range n).flatMap fun i => [Act.get (i + 1) k, Act.read (i + 1)])[2 * i]? = some (.get (i + 1) k) ∧
    ((List.range n).flatMap fun i => [Act.get (i + 1) k, Act.read (i + 1)])[2 * i + 1]? = some (.read (i + 1)) := by
  induction n with
  | zero => omega
  | succ n ih =>
    rw [List.range_succ, List.flatMap_append]
    rcases Nat.lt_or_eq_of_le (Nat.lt_succ_iff.mp hi) with h | h
    · rw [List.getElem?_append_left (by rw [pairs_length]; omega),
        List.getElem?_append_left (by rw [pairs_length]; omega)]
      exact ih h
    · subst h
      rw [List.getElem?_append_right (by rw [pairs_length]; omega),
        List.getElem?_append_right (by rw [pairs_length]; omega), pairs_length]
      constructor
      · rw [show 2 * i - 2 * i = 0 by omega]; rfl
      · rw [show 2 * i + 1 - 2 * i = 1 by omega]; rfl

end Verif.Promise
