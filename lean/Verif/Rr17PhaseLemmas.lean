import Verif.Rr17PhaseModel
import Verif.KkrtLemmas
/-
Helper lemmas for the phasing model.
-/
namespace Verif.Rr17
open Verif Part

theorem shiftRight_eq (v : Block) {n : Nat} (hn : n ≤ 64) : shiftRight v n = v >>> n := by
  apply BitVec.eq_of_getLsbD_eq
  intro i hi
  simp only [shiftRight, srli64, slli64, srli8bytes, BitVec.getLsbD_or, BitVec.getLsbD_append,
    BitVec.getLsbD_ushiftRight, BitVec.getLsbD_shiftLeft, BitVec.getLsbD_extractLsb', BitVec.getLsbD_zero]
  by_cases h1 : i < 64
  · by_cases h2 : n + i < 64
    · simp [h1, h2]; omega
    · have : i - (64 - n) < 64 := by omega
      have e : 64 + (i - (64 - n)) = n + i := by omega
      simp [h1, h2, this, e]
      omega
  · have hz : ¬ 64 + (i - 64 - (64 - n)) < 64 := by omega
    by_cases h2 : n + (i - 64) < 64
    · have e : 64 + (n + (i - 64)) = n + i := by omega
      simp [h1, h2, e, hz]
    · simp [h1, h2, hz]
      apply BitVec.getLsbD_of_ge; omega

theorem shiftRight_toNat (v : Block) {n : Nat} (hn : n ≤ 64) : (shiftRight v n).toNat = v.toNat / 2 ^ n := by
  rw [shiftRight_eq v hn, BitVec.toNat_ushiftRight, Nat.shiftRight_eq_div_pow]

theorem low64 (v : Block) : (v.extractLsb' 0 64).toNat = v.toNat % 2 ^ 64 := by
  simp [BitVec.extractLsb'_toNat]

theorem le_two_pow_log2ceil (n : Nat) : n ≤ 2 ^ log2ceil n := by
  unfold log2ceil
  split
  · simpa using by omega
  · have := @Nat.lt_log2_self (n - 1)
    omega

theorem two_pow_log2ceil_lt (n : Nat) (hn : 0 < n) : 2 ^ log2ceil n < 2 * n := by
  unfold log2ceil
  split
  · simp; omega
  · have := Nat.log2_self_le (n := n - 1) (by omega)
    rw [Nat.pow_succ]
    omega

theorem log2ceil_le (n : Nat) (hn : n < 2 ^ 64) : log2ceil n ≤ 64 := by
  unfold log2ceil
  split
  · omega
  · have : Nat.log2 (n - 1) < 64 := (Nat.log2_lt (by omega)).mpr (by omega)
    omega

theorem phaseStep_none (N B : Nat) (inputs : List Block) (st : List Block × List (Nat × Nat)) (i : Nat) :
    phaseStep none N B inputs st i =
      (st.1.set i (phase N B (st.1.getD i 0)).2, st.2 ++ [((phase N B (st.1.getD i 0)).1, i)]) := rfl

/-- The loop in the caller's vector, for different indices. -/
theorem foldl_none (N B : Nat) (inputs : List Block) (order : List Nat) (hn : order.Nodup)
    (buf : List Block) (acc : List (Nat × Nat)) (hr : ∀ i ∈ order, i < buf.length) :
    (order.foldl (phaseStep none N B inputs) (buf, acc)).2 =
        acc ++ order.map (fun i => ((phase N B (buf.getD i 0)).1, i)) ∧
    (order.foldl (phaseStep none N B inputs) (buf, acc)).1.length = buf.length ∧
    ∀ k, (order.foldl (phaseStep none N B inputs) (buf, acc)).1.getD k 0 =
      if k ∈ order then (phase N B (buf.getD k 0)).2 else buf.getD k 0 := by
  induction order generalizing buf acc with
  | nil => simp
  | cons i rest ih =>
    obtain ⟨h1, h2⟩ := List.nodup_cons.mp hn
    have hi : i < buf.length := hr i (List.mem_cons_self ..)
    rw [List.foldl_cons, phaseStep_none]
    obtain ⟨a, b, c⟩ := ih h2 (buf.set i (phase N B (buf.getD i 0)).2)
      (acc ++ [((phase N B (buf.getD i 0)).1, i)]) (by
        intro j hj; rw [List.length_set]; exact hr j (List.mem_cons_of_mem _ hj))
    refine ⟨?_, ?_, ?_⟩
    · rw [a, List.append_assoc, List.map_cons, List.singleton_append]
      congr 2
      apply List.map_congr_left
      intro j hj
      have : j ≠ i := fun e => h1 (e ▸ hj)
      rw [Kkrt.getD_set _ _ _ _ _ hi, if_neg this]
    · rw [b, List.length_set]
    · intro k
      rw [c k, Kkrt.getD_set _ _ _ _ _ hi]
      by_cases hk : k = i
      · subst hk
        rw [if_neg h1, if_pos rfl, if_pos (List.mem_cons_self ..)]
      · rw [if_neg hk]
        simp only [List.mem_cons, hk, false_or]

/-- The loop with hashing, for different indices. -/
theorem foldl_some (h : Block → Block) (N B : Nat) (inputs : List Block) (order : List Nat) (hn : order.Nodup)
    (buf : List Block) (acc : List (Nat × Nat)) (hr : ∀ i ∈ order, i < buf.length) :
    (order.foldl (phaseStep (some h) N B inputs) (buf, acc)).2 =
        acc ++ order.map (fun i => ((phase N B (h (inputs.getD i 0))).1, i)) ∧
    (order.foldl (phaseStep (some h) N B inputs) (buf, acc)).1.length = buf.length ∧
    ∀ k, (order.foldl (phaseStep (some h) N B inputs) (buf, acc)).1.getD k 0 =
      if k ∈ order then (phase N B (h (inputs.getD k 0))).2 else buf.getD k 0 := by
  induction order generalizing buf acc with
  | nil => simp
  | cons i rest ih =>
    obtain ⟨h1, h2⟩ := List.nodup_cons.mp hn
    have hi : i < buf.length := hr i (List.mem_cons_self ..)
    have e : phaseStep (some h) N B inputs (buf, acc) i =
        (buf.set i (phase N B (h (inputs.getD i 0))).2, acc ++ [((phase N B (h (inputs.getD i 0))).1, i)]) := by
      have : (buf.set i (h (inputs.getD i 0))).getD i 0 = h (inputs.getD i 0) := by
        rw [Kkrt.getD_set _ _ _ _ _ hi, if_pos rfl]
      unfold phaseStep
      simp only [this, List.set_set]
    rw [List.foldl_cons, e]
    obtain ⟨a, b, c⟩ := ih h2 (buf.set i (phase N B (h (inputs.getD i 0))).2)
      (acc ++ [((phase N B (h (inputs.getD i 0))).1, i)]) (by
        intro j hj; rw [List.length_set]; exact hr j (List.mem_cons_of_mem _ hj))
    refine ⟨?_, ?_, ?_⟩
    · rw [a, List.append_assoc, List.map_cons, List.singleton_append]
    · rw [b, List.length_set]
    · intro k
      rw [c k, Kkrt.getD_set _ _ _ _ _ hi]
      by_cases hk : k = i
      · subst hk
        rw [if_neg h1, if_pos rfl, if_pos (List.mem_cons_self ..)]
      · rw [if_neg hk]
        simp only [List.mem_cons, hk, false_or]

end Verif.Rr17
