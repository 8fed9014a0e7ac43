import Verif.PromiseEndLemmas
/-
Property theorems C156: the threads of DKT do not wait for each other for ever.
-/
namespace Verif.Promise
open Verif

theorem sum_const (f : Nat → Nat) (a b : Nat) (h0 : f 0 = a) (n : Nat)
    (hb : ∀ t, 0 < t → t ≤ n → f t = b) : ((List.range (n + 1)).map f).sum = a + n * b := by
  induction n with
  | zero => simp [h0]
  | succ n ih =>
    rw [List.range_succ, List.map_append, List.sum_append, ih fun t h1 h2 => hb t h1 (by omega)]
    simp only [List.map_cons, List.map_nil, List.sum_cons, List.sum_nil]
    rw [hb (n + 1) (by omega) (Nat.le_refl _), Nat.succ_mul]
    omega

/-- **C156, receiver.** `n + 1` threads. If every thread gets a turn in each of `13 * n + 4` rounds, in any order, all
threads get to their end, and no object of a thread that has returned is read. -/
theorem C156_receiver (n : Nat) (rounds : List (List Nat))
    (hr : ∀ r ∈ rounds, (∀ t, t ≤ n → t ∈ r) ∧ ∀ t ∈ r, t ≤ n) (hn : 13 * n + 4 ≤ rounds.length) :
    ∃ pc, run (receiver n) (fun _ => 0) rounds.flatten = .ok pc ∧ ∀ t, t ≤ n → (receiver n t).length ≤ pc t := by
  obtain ⟨pc, h⟩ := C69_receiver n rounds.flatten
  refine ⟨pc, h, ?_⟩
  have htodo : todo (receiver n) (n + 1) (fun _ => 0) = 13 * n + 4 := by
    unfold todo
    rw [sum_const (fun t => (receiver n t).length - 0) (4 * n + 4) 9 (by simp only [receiver_zero_length]; omega)
      n (fun t h1 h2 => by rw [receiver_other n t (by omega) h2]; rfl)]
    omega
  have := (receiver_ranked n).rounds rounds
    (fun r hm => ⟨fun t ht => (hr r hm).1 t (by omega), fun t ht => Nat.lt_succ_of_le ((hr r hm).2 t ht)⟩) h (by omega)
  exact fun t ht => this t (by omega)

/-- **C156, sender.** The same with `10 * n + 3` rounds, unless a thread reads an object of a thread that has returned (C69). -/
theorem C156_sender (n : Nat) (rounds : List (List Nat))
    (hr : ∀ r ∈ rounds, (∀ t, t ≤ n → t ∈ r) ∧ ∀ t ∈ r, t ≤ n) (hn : 10 * n + 3 ≤ rounds.length) :
    run (sender n) (fun _ => 0) rounds.flatten = .ub ∨
      ∃ pc, run (sender n) (fun _ => 0) rounds.flatten = .ok pc ∧ ∀ t, t ≤ n → (sender n t).length ≤ pc t := by
  cases h : run (sender n) (fun _ => 0) rounds.flatten with
  | throw => exact absurd h (run_not_throw _ _ _)
  | ub => left; rfl
  | ok pc =>
    right
    refine ⟨pc, rfl, ?_⟩
    have htodo : todo (sender n) (n + 1) (fun _ => 0) = 10 * n + 3 := by
      unfold todo
      rw [sum_const (fun t => (sender n t).length - 0) (3 * n + 3) 7 (by simp only [sender_zero_length]; omega)
        n (fun t h1 h2 => by rw [sender_other n t (by omega) h2]; rfl)]
      omega
    have := (sender_ranked n).rounds rounds
      (fun r hm => ⟨fun t ht => (hr r hm).1 t (by omega), fun t ht => Nat.lt_succ_of_le ((hr r hm).2 t ht)⟩) h (by omega)
    exact fun t ht => this t (by omega)

/-- The positions of two threads after a run. -/
def ends (o : Out Pcs) : Option (Nat × Nat) :=
  match o with
  | .ok pc => some (pc 0, pc 1)
  | _ => none

/-- Non-vacuity: two threads in turns. The receiver takes 17 rounds at most; the sender ends as well in this order. -/
example : ends (run (receiver 1) (fun _ => 0) (List.replicate 17 [0, 1]).flatten) = some (8, 9) ∧
    ends (run (sender 1) (fun _ => 0) (List.replicate 13 [0, 1, 1]).flatten) = some (6, 7) := by decide +kernel

end Verif.Promise
