import Verif.PromiseLemmas
/-
Property C69: local objects shared between the threads of DKT through promises are read while they exist.
-/
namespace Verif.Promise
open Verif

theorem receiver_zero_length (n : Nat) : (receiver n 0).length = 4 * n + 4 := by
  unfold receiver
  simp only [if_pos, List.length_append, pairs_length, List.length_map, List.length_range, List.length_cons,
    List.length_nil]
  omega

theorem sender_zero_length (n : Nat) : (sender n 0).length = 3 * n + 3 := by
  unfold sender
  simp only [if_pos, List.length_append, pairs_length, List.length_map, List.length_range, List.length_cons,
    List.length_nil]
  omega

theorem receiver_other (n t : Nat) (h0 : t ≠ 0) (hn : t ≤ n) : receiver n t =
    [.set, .get 0 n, .read 0, .set, .get 0 (2 * n + 1), .read 0, .set, .get 0 (4 * n + 2), .work] := by
  unfold receiver
  rw [if_neg h0, if_pos hn]

theorem sender_other (n t : Nat) (h0 : t ≠ 0) (hn : t ≤ n) : sender n t =
    [.set, .get 0 (2 * n), .read 0, .set, .get 0 (3 * n + 1), .read 0, .work] := by
  unfold sender
  rw [if_neg h0, if_pos hn]

theorem lt_of_some {α : Type} {l : List α} {i : Nat} {a : α} (h : l[i]? = some a) : i < l.length := by
  rcases Nat.lt_or_ge i l.length with h' | h'
  · exact h'
  · rw [List.getElem?_eq_none h'] at h; cases h

/-- Thread 0 reads only objects of the other threads. -/
theorem receiver_zero_reads {n v k : Nat} (h : (receiver n 0)[k]? = some (.read v)) : v ≠ 0 ∧ v ≤ n := by
  have hm := List.mem_of_getElem? h
  unfold receiver at hm
  simp at hm
  omega

theorem sender_zero_reads {n v k : Nat} (h : (sender n 0)[k]? = some (.read v)) : v ≠ 0 ∧ v ≤ n := by
  have hm := List.mem_of_getElem? h
  unfold sender at hm
  simp at hm
  omega

/-- Thread 0 reads only before its last `set_value`. -/
theorem receiver_zero_read_pos {n v k : Nat} (h : (receiver n 0)[k]? = some (.read v)) : k < 4 * n + 2 := by
  rcases Nat.lt_or_ge k (4 * n + 2) with h' | h'
  · exact h'
  · exfalso
    have hlt := lt_of_some h
    rw [receiver_zero_length] at hlt
    unfold receiver at h
    rw [if_pos rfl, List.getElem?_append_right (by
      simp only [List.length_append, pairs_length, List.length_map, List.length_range, List.length_cons, List.length_nil]
      omega)] at h
    simp only [List.length_append, pairs_length, List.length_map, List.length_range, List.length_cons, List.length_nil] at h
    rcases (by omega : k - (n + (0 + 1) + n + (0 + 1) + 2 * n) = 0 ∨ k - (n + (0 + 1) + n + (0 + 1) + 2 * n) = 1) with e | e
    · rw [e] at h; cases h
    · rw [e] at h; cases h

theorem sender_zero_read_pos {n v k : Nat} (h : (sender n 0)[k]? = some (.read v)) : k < 3 * n + 1 := by
  rcases Nat.lt_or_ge k (3 * n + 1) with h' | h'
  · exact h'
  · exfalso
    have hlt := lt_of_some h
    rw [sender_zero_length] at hlt
    unfold sender at h
    rw [if_pos rfl, List.getElem?_append_right (by
      simp only [List.length_append, pairs_length, List.length_map, List.length_range, List.length_cons, List.length_nil]
      omega)] at h
    simp only [List.length_append, pairs_length, List.length_map, List.length_range, List.length_cons, List.length_nil] at h
    rcases (by omega : k - (2 * n + (0 + 1) + n) = 0 ∨ k - (2 * n + (0 + 1) + n) = 1) with e | e
    · rw [e] at h; cases h
    · rw [e] at h; cases h

/-- The other threads read only objects of thread 0, at two places. -/
theorem receiver_other_reads {n t v k : Nat} (h0 : t ≠ 0) (h : (receiver n t)[k]? = some (.read v)) :
    t ≤ n ∧ v = 0 ∧ (k = 2 ∨ k = 5) := by
  by_cases hn : t ≤ n
  · rw [receiver_other n t h0 hn] at h
    refine ⟨hn, ?_⟩
    match k, h with
    | 2, h => cases h; exact ⟨rfl, .inl rfl⟩
    | 5, h => cases h; exact ⟨rfl, .inr rfl⟩
    | 0, h => cases h
    | 1, h => cases h
    | 3, h => cases h
    | 4, h => cases h
    | 6, h => cases h
    | 7, h => cases h
    | 8, h => cases h
    | k + 9, h => cases h
  · unfold receiver at h
    rw [if_neg h0, if_neg hn] at h
    cases h

theorem sender_other_reads {n t v k : Nat} (h0 : t ≠ 0) (h : (sender n t)[k]? = some (.read v)) :
    t ≤ n ∧ v = 0 ∧ (k = 2 ∨ k = 5) := by
  by_cases hn : t ≤ n
  · rw [sender_other n t h0 hn] at h
    refine ⟨hn, ?_⟩
    match k, h with
    | 2, h => cases h; exact ⟨rfl, .inl rfl⟩
    | 5, h => cases h; exact ⟨rfl, .inr rfl⟩
    | 0, h => cases h
    | 1, h => cases h
    | 3, h => cases h
    | 4, h => cases h
    | 6, h => cases h
    | k + 7, h => cases h
  · unfold sender at h
    rw [if_neg h0, if_neg hn] at h
    cases h

/-- Where thread 0 waits for the vector of thread `i + 1`. -/
theorem receiver_zero_waits (n i : Nat) (hi : i < n) :
    (receiver n 0)[2 * n + 2 + 2 * i]? = some (.get (i + 1) 6) := by
  unfold receiver
  rw [if_pos rfl, List.getElem?_append_left (by
      simp only [List.length_append, pairs_length, List.length_map, List.length_range, List.length_cons,
        List.length_nil]
      omega), List.getElem?_append_right (by
      simp only [List.length_append, List.length_map, List.length_range, List.length_cons, List.length_nil]
      omega)]
  simp only [List.length_append, List.length_map, List.length_range, List.length_cons, List.length_nil]
  rw [show 2 * n + 2 + 2 * i - (n + (0 + 1) + n + (0 + 1)) = 2 * i by omega]
  exact (pairs_get n 6 i hi).1

/-- Where thread 0 of the sender waits for the hashes of thread `i + 1`. -/
theorem sender_zero_waits (n i : Nat) (hi : i < n) : (sender n 0)[2 * n + 1 + i]? = some (.get (i + 1) 3) := by
  unfold sender
  rw [if_pos rfl, List.getElem?_append_left (by
      simp only [List.length_append, pairs_length, List.length_map, List.length_range, List.length_cons,
        List.length_nil]
      omega), List.getElem?_append_right (by
      simp only [List.length_append, pairs_length, List.length_cons, List.length_nil]
      omega)]
  simp only [List.length_append, pairs_length, List.length_cons, List.length_nil]
  rw [show 2 * n + 1 + i - (2 * n + (0 + 1)) = i by omega]
  simp [hi]

/-- C69, receiver: for every number of threads and every schedule, no thread reads an object of a thread that has
returned. -/
theorem C69_receiver (n : Nat) (us : List Nat) : ∃ pc, run (receiver n) (fun _ => 0) us = .ok pc := by
  have hsafe : ∀ pc, Inv (receiver n) pc → ∀ u v, (receiver n u)[pc u]? = some (.read v) →
      pc v < (receiver n v).length := by
    intro pc hinv u v hr
    rcases Nat.lt_or_ge (pc v) (receiver n v).length with h | h
    · exact h
    · exfalso
      by_cases h0 : u = 0
      · subst h0
        obtain ⟨hv0, hvn⟩ := receiver_zero_reads hr
        have hlt := receiver_zero_read_pos hr
        rw [receiver_other n v hv0 hvn] at h
        have := hinv.got v 7 0 (4 * n + 2) (Nat.lt_of_lt_of_le (by simp) h) (by rw [receiver_other n v hv0 hvn]; rfl)
        omega
      · obtain ⟨hun, rfl, hk⟩ := receiver_other_reads h0 hr
        rw [receiver_zero_length] at h
        obtain ⟨i, rfl⟩ : ∃ i, u = i + 1 := ⟨u - 1, by omega⟩
        have := hinv.got 0 (2 * n + 2 + 2 * i) (i + 1) 6 (by omega) (receiver_zero_waits n i (by omega))
        omega
  obtain ⟨pc, h, _⟩ := run_safe (receiver n) hsafe us (fun _ => 0) (Inv.start _)
  exact ⟨pc, h⟩

/-- C69: schedules that let the threads of the receiver finish exist (two threads). -/
example : ∃ pc, run (receiver 1) (fun _ => 0) [1, 0, 0, 1, 1, 1, 0, 0, 1, 1, 1, 0, 0, 0, 1, 0, 1] = .ok pc ∧
    pc 0 = (receiver 1 0).length ∧ pc 1 = (receiver 1 1).length := ⟨_, rfl, rfl, rfl⟩

/-- C69, negation for the sender: thread 0 passes pointers to its local `sigmaE`, `sigma2Phi`, `sigmaGZ` and waits for
nobody afterwards; with two threads it can return before the other thread reads them. -/
theorem C69_sender : run (sender 1) (fun _ => 0) [1, 0, 0, 0, 1, 1, 1, 0, 0, 1, 0, 1] = .ub := rfl

/-- C69, sender: in every schedule all other reads are safe: a thread about to read an object of a thread that has
returned is about to read the second set of pointers. The full property is that there is no such thread. -/
theorem C69_sender_partial (n : Nat) (pc : Pcs) (us : List Nat)
    (h : run (sender n) (fun _ => 0) us = .ok pc) (u v : Nat) (hr : (sender n u)[pc u]? = some (.read v))
    (hgone : (sender n v).length ≤ pc v) : v = 0 ∧ pc u = 5 := by
  have hinv : ∀ (us : List Nat) (p q : Pcs), Inv (sender n) p → run (sender n) p us = .ok q → Inv (sender n) q := by
    intro us
    induction us with
    | nil => intro p q hp hq; cases hq; exact hp
    | cons w us ih =>
      intro p q hp hq
      unfold run step at hq
      cases ha : (sender n w)[p w]? with
      | none => rw [ha] at hq; exact ih p q hp hq
      | some a =>
        rw [ha] at hq
        cases a with
        | set => exact ih _ q (hp.advance w _ ha fun _ _ e => by cases e) hq
        | work => exact ih _ q (hp.advance w _ ha fun _ _ e => by cases e) hq
        | get v' k =>
          simp only at hq
          by_cases hk : k < p v'
          · rw [if_pos hk] at hq
            exact ih _ q (hp.advance w _ ha fun _ _ e => by cases e; exact hk) hq
          · rw [if_neg hk] at hq
            exact ih p q hp hq
        | read v' =>
          simp only at hq
          by_cases hk : (sender n v').length ≤ p v'
          · rw [if_pos hk] at hq; cases hq
          · rw [if_neg hk] at hq
            exact ih _ q (hp.advance w _ ha fun _ _ e => by cases e) hq
  have hi := hinv us _ pc (Inv.start _) h
  by_cases h0 : u = 0
  · subst h0
    exfalso
    obtain ⟨hv0, hvn⟩ := sender_zero_reads hr
    rw [sender_other n v hv0 hvn] at hgone
    have h4 := hi.got v 4 0 (3 * n + 1) (Nat.lt_of_lt_of_le (by simp) hgone) (by rw [sender_other n v hv0 hvn]; rfl)
    have hlt := sender_zero_read_pos hr
    omega
  · obtain ⟨hun, rfl, hk⟩ := sender_other_reads h0 hr
    refine ⟨rfl, ?_⟩
    rcases hk with hk | hk
    · exfalso
      rw [sender_zero_length] at hgone
      obtain ⟨i, rfl⟩ : ∃ i, u = i + 1 := ⟨u - 1, by omega⟩
      have := hi.got 0 (2 * n + 1 + i) (i + 1) 3 (by omega) (sender_zero_waits n i (by omega))
      omega
    · exact hk

end Verif.Promise
