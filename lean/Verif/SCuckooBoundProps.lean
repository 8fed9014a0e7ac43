import Verif.SCuckooProps
/-
Property theorems C97: the accesses of SimpleCuckoo that are outside of its arrays (frontend/cuckoo/SimpleCuckoo.cpp:133-192).
-/
namespace Verif.SCuckoo
open Verif Verif.Cuckoo

/-- C97: a hash number outside of the row of an item, an item without a row and a table without bins are never used silently in a
round; such an access is undefined behaviour of the model. -/
theorem C97_outside (c : Table) (idx h k : Nat) (before after : List (Nat × Nat))
    (hh : (c.rows.getD idx []).length ≤ h ∨ c.rows.length ≤ idx ∨ c.bins = []) :
    rounds (k + 1) c (before ++ (idx, h) :: after) = .ub := by
  have ha : addrOk c idx h = false := by
    unfold addrOk
    rcases hh with hh | hh | hh
    · have : ¬ h < (c.rows.getD idx []).length := by omega
      simp only [this, decide_false, Bool.and_false, Bool.false_and]
    · have : ¬ idx < c.rows.length := by omega
      simp only [this, decide_false, Bool.false_and]
    · simp [hh]
  unfold rounds
  rw [if_neg (by simp), if_neg]
  intro ⟨h1, _⟩
  rw [List.all_eq_true] at h1
  have := h1 (idx, h) (by simp)
  simp [ha] at this

/-- C97: a batch with an index that the table was not made for, or with too few hash values for an item, is undefined behaviour. -/
theorem C97_bad_batch (c : Table) (items : List (Nat × List Nat)) (ws : Nat) (p : Nat × List Nat) (hp : p ∈ items)
    (hb : c.rows.length ≤ p.1 ∨ p.2.length < c.numHashes) : insertBatch c items ws = .ub := by
  have key : ∀ (items : List (Nat × List Nat)) (c : Table), p ∈ items →
      (c.rows.length ≤ p.1 ∨ p.2.length < c.numHashes) → loadRows c items = .ub := by
    intro items
    induction items with
    | nil => intro c hp; simp at hp
    | cons q items ih =>
      intro c hp hb
      obtain ⟨i, hs⟩ := q
      unfold loadRows
      split
      · rename_i h
        rcases List.mem_cons.mp hp with rfl | hp
        · simp only at hb; omega
        · refine ih _ hp ?_
          simpa using hb
      · rfl
  unfold insertBatch
  rw [key items c hp hb]
  split <;> rfl

example : rounds 1 (init new 2 2 3) [(0, 2)] = .ub ∧ rounds 1 (init new 2 2 3) [(0, 1)] ≠ .ub ∧
    insertBatch (init new 2 2 3) [(2, [1, 1])] 1 = .ub ∧ insertBatch (init new 2 2 3) [(1, [1, 1])] 1 ≠ .ub := by
  decide +kernel

end Verif.SCuckoo
