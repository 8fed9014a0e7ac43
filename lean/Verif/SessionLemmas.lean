import Verif.SessionModel
/-!
The order of the steps does not matter.
-/
namespace Verif.Session
open Verif

/-- Two different steps from the same state can be joined. -/
theorem diamond {s t u : St} (h1 : Step s t) (h2 : Step s u) : t = u ∨ ∃ v, Step t v ∧ Step u v := by
  cases h1 with
  | sendA =>
    cases h2 with
    | sendA => exact Or.inl rfl
    | sendB => exact Or.inr ⟨_, .sendB, .sendA⟩
    | recvB => exact Or.inr ⟨_, .recvB, .sendA⟩
  | sendB =>
    cases h2 with
    | sendA => exact Or.inr ⟨_, .sendA, .sendB⟩
    | sendB => exact Or.inl rfl
    | recvA => exact Or.inr ⟨_, .recvA, .sendB⟩
  | recvA =>
    cases h2 with
    | sendB => exact Or.inr ⟨_, .sendB, .recvA⟩
    | recvA => exact Or.inl rfl
    | recvB => exact Or.inr ⟨_, .recvB, .recvA⟩
  | recvB =>
    cases h2 with
    | sendA => exact Or.inr ⟨_, .sendA, .recvB⟩
    | recvA => exact Or.inr ⟨_, .recvA, .recvB⟩
    | recvB => exact Or.inl rfl
  | ot =>
    cases h2 with
    | ot => exact Or.inl rfl

theorem strip {s f : St} (hr : Reach s f) (hf : Stuck f) : ∀ {t}, Step s t → Reach t f := by
  induction hr with
  | refl => intro t h; exact absurd h (hf t)
  | head h1 hr ih =>
    intro t h
    rcases diamond h h1 with e | ⟨v, hv1, hv2⟩
    · rw [e]; exact hr
    · exact .head hv1 (ih hf hv2)

/-- If one run ends in `f`, every run does. -/
theorem confluent {s t : St} (ht : Reach s t) : ∀ {f}, Reach s f → Stuck f → Reach t f := by
  induction ht with
  | refl => intro f h _; exact h
  | head h1 _ ih => intro f hf hs; exact ih (strip hf hs h1) hs

theorem Reach.trans {s t u : St} (h1 : Reach s t) : Reach t u → Reach s u := by
  induction h1 with
  | refl => exact id
  | head h _ ih => exact fun h2 => .head h (ih h2)

theorem final_stuck : Stuck ⟨[], [], [], []⟩ := by
  intro t h
  cases h

theorem eq_of_stuck {s t : St} (h : Reach s t) (hs : Stuck s) : s = t := by
  cases h with
  | refl => rfl
  | head h _ => exact absurd h (hs _)

theorem completes_of_run {a b : List Act} (h : Reach ⟨a, b, [], []⟩ ⟨[], [], [], []⟩) : Completes a b := by
  intro s hs hst
  exact eq_of_stuck (confluent hs h final_stuck) hst

theorem fails_of_run {a b : List Act} {s : St} (h : Reach ⟨a, b, [], []⟩ s) (hs : Stuck s) (hn : ¬ Final s) :
    Fails a b := by
  intro t ht hf
  unfold Final at hf hn
  subst hf
  exact hn (eq_of_stuck (confluent h ht final_stuck) hs)

/-- A script that can be run to its end without what follows. -/
def Pre (a b : List Act) : Prop := ∀ a' b', Reach ⟨a ++ a', b ++ b', [], []⟩ ⟨a', b', [], []⟩

theorem Pre.nil : Pre [] [] := fun _ _ => .refl

theorem Pre.append {a b c d : List Act} (h1 : Pre a b) (h2 : Pre c d) : Pre (a ++ c) (b ++ d) := by
  intro a' b'
  rw [List.append_assoc, List.append_assoc]
  exact (h1 _ _).trans (h2 _ _)

theorem Pre.exchange (i j : Nat) {a b : List Act} (h : Pre a b) :
    Pre (.send i :: .recv j :: a) (.send j :: .recv i :: b) := fun a' b' =>
  .head .sendA (.head .sendB (.head .recvA (.head .recvB (h a' b'))))

theorem Pre.ot (k : Proto) (r : Bool) (n : Nat) {a b : List Act} (h : Pre a b) :
    Pre (.ot k r n :: a) (.ot k (!r) n :: b) := fun a' b' => .head .ot (h a' b')

theorem Pre.completes {a b : List Act} (h : Pre a b) : Completes a b := by
  have := h [] []
  rw [List.append_nil, List.append_nil] at this
  exact completes_of_run this

/-- Two OT operations that do not fit. -/
theorem stuck_ot {k k' : Proto} {r r' : Bool} {n n' : Nat} {a b : List Act} (h : ¬ (k = k' ∧ r' = !r ∧ n = n')) :
    Stuck ⟨.ot k r n :: a, .ot k' r' n' :: b, [], []⟩ := by
  intro t ht
  generalize hs : (⟨.ot k r n :: a, .ot k' r' n' :: b, [], []⟩ : St) = s at ht
  cases ht <;> simp at hs
  rename_i k₁ r₁ n₁ _ _
  obtain ⟨⟨⟨rfl, rfl, rfl⟩, _⟩, ⟨rfl, rfl, rfl⟩, _⟩ := hs
  exact h ⟨rfl, rfl, rfl⟩

theorem Pre.fails {a b a' b' : List Act} {k k' : Proto} {r r' : Bool} {n n' : Nat} (h : Pre a b)
    (hne : ¬ (k = k' ∧ r' = !r ∧ n = n')) : Fails (a ++ .ot k r n :: a') (b ++ .ot k' r' n' :: b') :=
  fails_of_run (h _ _) (stuck_ot hne) (by unfold Final; simp)

end Verif.Session
