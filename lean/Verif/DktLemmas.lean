import Mathlib.Tactic.Module
import Verif.DktModel
import Verif.PartProps
import Verif.ListLemmas
import Verif.KkrtLemmas
/-
Helper lemmas for the DKT model.
-/
namespace Verif.Dkt
open Verif Verif.Part

variable {S G : Type} [CommRing S] [AddCommGroup G] [Module S G] (E : Env S G)

theorem idxs_flatMap (n T : Nat) (hT : 0 < T) (hov : n * T < 2 ^ 64) :
    (List.range T).flatMap (idxs n T) = List.range n := C31_scaled_ranges n T hT hov

/-! ### table -/

theorem tfind_mem {m : List (Nat × Block × Nat)} {k : Nat} {e : Block × Nat} (h : tfind m k = some e) :
    (k, e) ∈ m := by
  unfold tfind at h
  obtain ⟨p, hp, rfl⟩ := Option.map_eq_some_iff.mp h
  have h1 := List.find?_some hp
  simp only [beq_iff_eq] at h1
  rw [← h1]
  exact List.mem_of_find?_eq_some hp

theorem tfind_isSome {m : List (Nat × Block × Nat)} {p : Nat × Block × Nat} (h : p ∈ m) :
    (tfind m p.1).isSome := by
  unfold tfind
  rw [Option.isSome_map, List.find?_isSome]
  exact ⟨p, h, by simp⟩

theorem tinsert_mono {m : List (Nat × Block × Nat)} {e : Block × Nat} {p : Nat × Block × Nat} (h : p ∈ m) :
    p ∈ tinsert m e := by
  unfold tinsert
  split
  · exact h
  · exact List.mem_append_left _ h

theorem tinsert_sub {m : List (Nat × Block × Nat)} {e : Block × Nat} {p : Nat × Block × Nat} (h : p ∈ tinsert m e) :
    p ∈ m ∨ p = (low e.1, e) := by
  unfold tinsert at h
  split at h
  · exact .inl h
  · simpa using h

theorem tinsert_self (m : List (Nat × Block × Nat)) (e : Block × Nat) : ∃ p ∈ tinsert m e, p.1 = low e.1 := by
  unfold tinsert
  split
  · rename_i e' h
    exact ⟨_, tfind_mem h, rfl⟩
  · exact ⟨(low e.1, e), by simp, rfl⟩

theorem foldl_tinsert (l : List (Block × Nat)) (m : List (Nat × Block × Nat)) :
    (∀ p ∈ m, p ∈ l.foldl tinsert m) ∧
    (∀ p ∈ l.foldl tinsert m, p ∈ m ∨ (p.2 ∈ l ∧ p.1 = low p.2.1)) ∧
    (∀ e ∈ l, ∃ p ∈ l.foldl tinsert m, p.1 = low e.1) := by
  induction l generalizing m with
  | nil => exact ⟨fun p h => h, fun p h => .inl h, fun e h => by cases h⟩
  | cons a l ih =>
    obtain ⟨h1, h2, h3⟩ := ih (tinsert m a)
    rw [List.foldl_cons]
    refine ⟨fun p h => h1 p (tinsert_mono h), ?_, ?_⟩
    · intro p hp
      rcases h2 p hp with h | h
      · rcases tinsert_sub h with h | rfl
        · exact .inl h
        · exact .inr ⟨List.mem_cons_self .., rfl⟩
      · exact .inr ⟨List.mem_cons_of_mem _ h.1, h.2⟩
    · intro e he
      rcases List.mem_cons.mp he with rfl | he
      · obtain ⟨p, hp, hk⟩ := tinsert_self m e
        exact ⟨p, h1 p hp, hk⟩
      · exact h3 e he

/-- If different entries have different keys, a lookup finds exactly the entries of the list. -/
theorem hit_iff (l : List (Block × Nat)) (b : Block) (i : Nat)
    (hnc : ∀ e ∈ l, ∀ e' ∈ l, low e.1 = low e'.1 → e = e') :
    hit (l.foldl tinsert []) b = some i ↔ (b, i) ∈ l := by
  obtain ⟨_, h2, h3⟩ := foldl_tinsert l []
  constructor
  · intro h
    unfold hit at h
    split at h
    · rename_i e he
      split at h
      · rename_i heq
        cases h
        rcases h2 _ (tfind_mem he) with h | h
        · cases h
        · have := h.1
          rw [← heq]
          exact this
      · cases h
    · cases h
  · intro h
    obtain ⟨p, hp, hk⟩ := h3 _ h
    have hs := tfind_isSome hp
    rw [hk] at hs
    obtain ⟨e, he⟩ := Option.isSome_iff_exists.mp hs
    rcases h2 _ (tfind_mem he) with h' | h'
    · cases h'
    · have := hnc e h'.1 (b, i) h h'.2.symm
      unfold hit
      rw [show low (b, i).1 = low b from rfl] at he
      rw [he, this]
      simp

/-! ### algebra -/

/-- `Kci` in a run with the honest sender. -/
theorem kci (Y : List Block) (T : Nat) (rr : RecvRand S) (Rs : S) (t i : Nat) :
    (0 - rr.rc i) • (Rs • E.gg) + Rs • msgM E Y T rr t i = Rs • lastPt E Y T t := by
  unfold msgM
  module

theorem zip_map_right' {α β γ : Type} (l : List α) (f : α → β) (g : α × β → γ) :
    (l.zip (l.map f)).map g = l.map fun a => g (a, f a) := by
  induction l with
  | nil => rfl
  | cons a l ih => simp [ih]

theorem mem_zip_zip {α β γ : Type} (l : List α) (f : α → β) (g : α → γ) {p : α × β × γ}
    (h : p ∈ l.zip ((l.map f).zip (l.map g))) : ∃ a ∈ l, p = (a, f a, g a) := by
  induction l with
  | nil => cases h
  | cons a l ih =>
    simp only [List.map_cons, List.zip_cons_cons, List.mem_cons] at h
    rcases h with rfl | h
    · exact ⟨a, List.mem_cons_self .., rfl⟩
    · obtain ⟨b, hb, e⟩ := ih h
      exact ⟨b, List.mem_cons_of_mem _ hb, e⟩

theorem hashVec_honest [DecidableEq G] (X Y : List Block) (T : Nat) (rr : RecvRand S) (sr : SendRand S) (t : Nat) :
    hashVec E Y T rr (sendHonest E X Y T rr sr).2 t =
      (idxs Y.length T t).map fun i =>
        (E.H (sr.Rs • lastPt E Y T t) (E.hp (Y.getD i 0)) (Y.getD i 0), i) := by
  unfold hashVec sendHonest send recvFirst
  simp only [List.map_map]
  rw [zip_map_right']
  apply List.map_congr_left
  intro i _
  simp only [Function.comp, recvHash]
  rw [kci]

theorem recvTests_honest [DecidableEq G] (X Y : List Block) (T : Nat) (rr : RecvRand S) (sr : SendRand S) :
    recvTests E Y T rr (sendHonest E X Y T rr sr).2 = true := by
  unfold recvTests
  rw [Bool.and_eq_true, decide_eq_true_iff]
  refine ⟨?_, ?_⟩
  · unfold sendHonest send
    simp only
    module
  · rw [List.all_eq_true]
    intro t _
    rw [Bool.and_eq_true, Bool.and_eq_true, beq_iff_eq, beq_iff_eq]
    refine ⟨⟨?_, ?_⟩, ?_⟩
    · simp [sendHonest, send, recvFirst]
    · simp [sendHonest, send, recvFirst]
    · rw [List.all_eq_true]
      intro p hp
      rw [decide_eq_true_iff]
      unfold sendHonest send recvFirst at hp ⊢
      simp only [List.map_map] at hp ⊢
      have : ∃ i, p = (i, sr.r2 • msgM E Y T rr t i, sr.Rs • msgM E Y T rr t i) := by
        obtain ⟨i, _, rfl⟩ := mem_zip_zip _ _ _ hp
        exact ⟨i, rfl⟩
      obtain ⟨i, rfl⟩ := this
      simp only
      module

end Verif.Dkt
