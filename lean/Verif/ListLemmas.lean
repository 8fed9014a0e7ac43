/-
General lemmas on lists that are used by several models. No model content.
-/
namespace Verif

theorem flatMap_congr' {α β : Type} {l : List α} {f g : α → List β}
    (h : ∀ a ∈ l, f a = g a) : l.flatMap f = l.flatMap g := by
  induction l with
  | nil => rfl
  | cons a l ih =>
    rw [List.flatMap_cons, List.flatMap_cons, h a (List.mem_cons_self ..),
      ih fun b hb => h b (List.mem_cons_of_mem _ hb)]

theorem filterMap_congr' {α β : Type} {l : List α} {f g : α → Option β}
    (h : ∀ a ∈ l, f a = g a) : l.filterMap f = l.filterMap g := by
  induction l with
  | nil => rfl
  | cons a l ih =>
    rw [List.filterMap_cons, List.filterMap_cons, h a (List.mem_cons_self ..),
      ih fun b hb => h b (List.mem_cons_of_mem _ hb)]

theorem foldl_range_congr {α : Type} (n : Nat) (f g : α → Nat → α) (a : α)
    (h : ∀ x i, i < n → f x i = g x i) : (List.range n).foldl f a = (List.range n).foldl g a := by
  induction n with
  | zero => rfl
  | succ n ih =>
    rw [List.range_succ, List.foldl_append, List.foldl_append,
      ih (fun x i hi => h x i (Nat.lt_succ_of_lt hi))]
    simp [h _ n (Nat.lt_succ_self n)]

theorem mod_mul_eq_iff (p q a b : Nat) (ha : 0 < a) :
    p % (b * a) = q % (b * a) ↔ (p / a % b = q / a % b ∧ p % a = q % a) := by
  have hp : p % (b * a) = p % a + a * (p / a % b) := by rw [Nat.mul_comm, Nat.mod_mul]
  have hq : q % (b * a) = q % a + a * (q / a % b) := by rw [Nat.mul_comm, Nat.mod_mul]
  have h1 := Nat.mod_lt p ha
  have h2 := Nat.mod_lt q ha
  rw [hp, hq]
  constructor
  · intro h
    have h3 : p % a = q % a := by
      have := congrArg (· % a) h
      simpa [Nat.add_mul_mod_self_left] using this
    rw [h3] at h
    exact ⟨Nat.eq_of_mul_eq_mul_left ha (Nat.add_left_cancel h), h3⟩
  · rintro ⟨h3, h4⟩; rw [h3, h4]

/-- A list without repetitions is not longer than a list containing it. -/
theorem length_le_of_nodup_subset {α : Type} [DecidableEq α] {l₁ l₂ : List α} (h : l₁.Nodup)
    (hs : ∀ x ∈ l₁, x ∈ l₂) : l₁.length ≤ l₂.length := by
  induction l₁ generalizing l₂ with
  | nil => simp
  | cons a l₁ ih =>
    obtain ⟨h1, h2⟩ := List.nodup_cons.mp h
    have ha := hs a (List.mem_cons_self ..)
    have := ih (l₂ := l₂.erase a) h2 (by
      intro x hx
      have hne : x ≠ a := fun e => h1 (e ▸ hx)
      exact (List.mem_erase_of_ne hne).mpr (hs x (List.mem_cons_of_mem _ hx)))
    rw [List.length_erase_of_mem ha] at this
    have := List.length_pos_of_mem ha
    simp only [List.length_cons]
    omega

end Verif
