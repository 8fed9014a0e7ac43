import Verif.CollViewLemmas
import Verif.ParityLemmas
import Mathlib.Algebra.BigOperators.Fin
import Mathlib.Logic.Equiv.Fin.Basic
import Mathlib.Algebra.Order.Ring.Pow
/-
Balls thrown into bins: how likely it is that some bins are covered, and that all bins hit an odd number of times by some of the
balls are covered by the others. No part of the program; used by property C168.
-/
namespace Verif.Coll
open Finset

section count
variable {β P : Type} [Fintype β] [DecidableEq P]

/-- No bin is hit by more than the part `q` of the balls. -/
def Spread (bin : β → P) (q : ℝ) : Prop := ∀ p, ((univ.filter fun z => bin z = p).card : ℝ) ≤ q * Fintype.card β

theorem Spread.set {bin : β → P} {q : ℝ} (h : Spread bin q) (J : Finset P) :
    ((univ.filter fun z => bin z ∈ J).card : ℝ) ≤ J.card * (q * Fintype.card β) := by
  classical
  have e : (univ.filter fun z => bin z ∈ J) = J.biUnion fun p => univ.filter fun z => bin z = p := by
    ext z; simp
  rw [e]
  refine (Nat.cast_le.mpr card_biUnion_le).trans ?_
  rw [Nat.cast_sum, ← nsmul_eq_mul, ← sum_const]
  exact sum_le_sum fun p _ => h p

/-- A sum over the first ball and the others. -/
theorem sum_cons (M : Nat) (f : (Fin (M + 1) → β) → ℝ) : ∑ v, f v = ∑ z, ∑ v : Fin M → β, f (Fin.cons z v) := by
  rw [← (Fin.consEquiv fun _ : Fin (M + 1) => β).sum_comp, Fintype.sum_prod_type]
  rfl

theorem bernoulli (a d : ℝ) (ha : 0 ≤ a) (hd : 0 ≤ d) (j : Nat) : a ^ (j + 1) + (j + 1) * a ^ j * d ≤ (a + d) ^ (j + 1) := by
  induction j with
  | zero => simp
  | succ j ih =>
    have h1 := mul_le_mul_of_nonneg_right ih (add_nonneg ha hd)
    have h2 : 0 ≤ (j + 1 : ℝ) * a ^ j * d * d := by positivity
    rw [pow_succ (a + d) (j + 1)]
    push_cast
    have e : (a ^ (j + 1) + (j + 1) * a ^ j * d) * (a + d) = a ^ (j + 1 + 1) + (j + 1 + 1) * a ^ (j + 1) * d + (j + 1) * a ^ j * d * d := by
      rw [pow_succ a (j + 1), pow_succ a j]; ring
    linarith

/-- `M` balls cover the bins of `J`. -/
theorem cover_le {bin : β → P} {q : ℝ} (h : Spread bin q) (hq0 : 0 ≤ q) (hq1 : q ≤ 1) (M : Nat) (J : Finset P) :
    ∑ v : Fin M → β, (if ∀ p ∈ J, ∃ i, bin (v i) = p then 1 else 0 : ℝ) ≤ (Fintype.card β : ℝ) ^ M * (1 - (1 - q) ^ M) ^ J.card := by
  induction M generalizing J with
  | zero =>
    rcases J.eq_empty_or_nonempty with rfl | ⟨p, hp⟩
    · simp
    · have : ¬ ∀ p ∈ J, ∃ i : Fin 0, False := fun hh => (hh p hp).choose.elim0
      rw [sum_eq_zero]
      · have : J.card ≠ 0 := (card_pos.mpr ⟨p, hp⟩).ne'
        simp [this]
      · intro v _
        rw [if_neg]
        intro hh
        exact (hh p hp).choose.elim0
  | succ M ih =>
    set a : ℝ := 1 - (1 - q) ^ M with ha
    have hp0 : 0 ≤ (1 - q) ^ M := pow_nonneg (by linarith) _
    have hp1 : (1 - q) ^ M ≤ 1 := pow_le_one₀ (by linarith) (by linarith)
    have ha0 : 0 ≤ a := by linarith
    have ha1 : a ≤ 1 := by linarith
    have hstep : (1 - (1 - q) ^ (M + 1) : ℝ) = a + (1 - a) * q := by rw [ha, pow_succ]; ring
    rw [sum_cons, hstep]
    have h1 : ∀ z : β, ∑ v : Fin M → β, (if ∀ p ∈ J, ∃ i, bin ((Fin.cons z v : Fin (M + 1) → β) i) = p then 1 else 0 : ℝ) ≤
        (Fintype.card β : ℝ) ^ M * (a ^ J.card + if bin z ∈ J then a ^ (J.card - 1) - a ^ J.card else 0) := by
      intro z
      have hiff : ∀ v : Fin M → β, (∀ p ∈ J, ∃ i, bin ((Fin.cons z v : Fin (M + 1) → β) i) = p) ↔ ∀ p ∈ J.erase (bin z), ∃ i, bin (v i) = p := by
        intro v
        constructor
        · intro hh p hp
          obtain ⟨i, hi⟩ := hh p (mem_of_mem_erase hp)
          refine i.cases (motive := fun i => bin ((Fin.cons z v : Fin (M + 1) → β) i) = p → _) ?_ ?_ hi
          · intro e; exact absurd e.symm (ne_of_mem_erase hp)
          · intro i e; exact ⟨i, e⟩
        · intro hh p hp
          by_cases e : p = bin z
          · exact ⟨0, e.symm⟩
          · obtain ⟨i, hi⟩ := hh p (mem_erase.mpr ⟨e, hp⟩)
            exact ⟨i.succ, hi⟩
      have h2 := ih (J.erase (bin z))
      simp only [hiff]
      refine h2.trans (mul_le_mul_of_nonneg_left ?_ (by positivity))
      split
      · rename_i hz
        rw [card_erase_of_mem hz]; linarith
      · rename_i hz
        rw [erase_eq_of_notMem hz]; linarith
    refine (sum_le_sum fun z _ => h1 z).trans ?_
    rw [← mul_sum, pow_succ, mul_assoc]
    refine mul_le_mul_of_nonneg_left ?_ (by positivity)
    rw [sum_add_distrib, sum_const, card_univ, nsmul_eq_mul, ← sum_filter, sum_const, nsmul_eq_mul]
    have h3 := h.set J
    have h4 : 0 ≤ a ^ (J.card - 1) - a ^ J.card := by
      have := pow_le_pow_of_le_one ha0 ha1 (Nat.sub_le J.card 1); linarith
    have h5 : a ^ J.card + J.card * q * (a ^ (J.card - 1) - a ^ J.card) ≤ (a + (1 - a) * q) ^ J.card := by
      rcases Nat.eq_zero_or_pos J.card with e | hpos
      · simp [e]
      · obtain ⟨j, hj⟩ : ∃ j, J.card = j + 1 := ⟨J.card - 1, by omega⟩
        rw [hj, Nat.add_sub_cancel]
        have := bernoulli a ((1 - a) * q) ha0 (mul_nonneg (by linarith) hq0) j
        push_cast
        calc _ = a ^ (j + 1) + (j + 1) * a ^ j * ((1 - a) * q) := by rw [pow_succ]; ring
          _ ≤ _ := this
    have h6 : (Fintype.card β : ℝ) * a ^ J.card + (univ.filter fun z => bin z ∈ J).card * (a ^ (J.card - 1) - a ^ J.card) ≤
        Fintype.card β * (a ^ J.card + J.card * q * (a ^ (J.card - 1) - a ^ J.card)) := by
      have := mul_le_mul_of_nonneg_right h3 h4
      nlinarith
    exact h6.trans (mul_le_mul_of_nonneg_left h5 (by positivity))

/-- The bins hit an odd number of times, starting from the set `A`. -/
def oddFrom (A : Finset P) : List P → Finset P
  | [] => A
  | p :: l => oddFrom (if p ∈ A then A.erase p else insert p A) l

theorem mem_oddFrom (A : Finset P) (l : List P) (p : P) : p ∈ oddFrom A l ↔ ((if p ∈ A then 1 else 0) + l.count p) % 2 = 1 := by
  induction l generalizing A with
  | nil => simp only [oddFrom, List.count_nil]; split <;> simp_all
  | cons x l ih =>
    rw [oddFrom, ih, List.count_cons]
    by_cases hx : x ∈ A
    · rw [if_pos hx]
      by_cases e : x = p
      · subst e
        simp only [mem_erase, ne_eq, not_true_eq_false, false_and, if_false, hx, if_true, beq_self_eq_true]
        omega
      · have : (p ∈ A.erase x) ↔ p ∈ A := by rw [mem_erase]; exact ⟨fun h => h.2, fun h => ⟨fun e' => e e'.symm, h⟩⟩
        simp [this, e]
    · rw [if_neg hx]
      by_cases e : x = p
      · subst e
        simp only [mem_insert, true_or, if_true, hx, if_false, beq_self_eq_true]
        omega
      · have : (p ∈ insert x A) ↔ p ∈ A := by rw [mem_insert]; exact ⟨fun h => h.resolve_left fun e' => e e'.symm, fun h => .inr h⟩
        simp [this, e]

/-- Few bins outside `K` are hit an odd number of times. -/
theorem odd_le {bin : β → P} {q : ℝ} (h : Spread bin q) (hq0 : 0 ≤ q) (a : ℝ) (ha : 0 < a) (ha1 : a ≤ 1) (K : P → Bool) (κ : ℝ)
    (hK : ((univ.filter fun z => K (bin z) = true).card : ℝ) ≤ κ * Fintype.card β) (m : Nat) (k : Nat) (A : Finset P) (hm : A.card + k ≤ m) :
    ∑ v : Fin k → β, a ^ (oddFrom A ((List.ofFn fun i => bin (v i)).filter fun p => !K p)).card ≤
      (Fintype.card β : ℝ) ^ k * (a + (1 - a) * max κ 0 + m * q / a) ^ k * a ^ A.card := by
  induction k generalizing A with
  | zero => simp [oddFrom]
  | succ k ih =>
    rw [sum_cons]
    have hκ0 : 0 ≤ max κ 0 := le_max_right _ _
    have hK : ((univ.filter fun z => K (bin z) = true).card : ℝ) ≤ max κ 0 * Fintype.card β :=
      hK.trans (mul_le_mul_of_nonneg_right (le_max_left _ _) (by positivity))
    generalize max κ 0 = κ at hκ0 hK ih ⊢
    have ha1' : 0 ≤ 1 - a := by linarith
    have hc : 0 ≤ a + (1 - a) * κ + m * q / a := by positivity
    have h1 : ∀ z : β, ∑ v : Fin k → β, a ^ (oddFrom A ((List.ofFn fun i => bin ((Fin.cons z v : Fin (k + 1) → β) i)).filter fun p => !K p)).card ≤
        (Fintype.card β : ℝ) ^ k * (a + (1 - a) * κ + m * q / a) ^ k *
          (a ^ A.card * (a + ((if K (bin z) = true then 1 - a else 0) + if bin z ∈ A then 1 / a else 0))) := by
      intro z
      have e : ∀ v : Fin k → β, List.ofFn (fun i => bin ((Fin.cons z v : Fin (k + 1) → β) i)) = bin z :: List.ofFn fun i => bin (v i) := by
        intro v; rw [List.ofFn_succ]; rfl
      have hpos : 0 ≤ if bin z ∈ A then 1 / a else 0 := by split <;> positivity
      by_cases hz : K (bin z) = true
      · have e2 : ∀ l : List P, (bin z :: l).filter (fun p => !K p) = l.filter fun p => !K p := fun l => by
          rw [List.filter_cons, if_neg (by simp [hz])]
        simp only [e, e2]
        refine (ih A (by omega)).trans (mul_le_mul_of_nonneg_left ?_ (by positivity))
        rw [if_pos hz]
        have : 0 ≤ a ^ A.card * (if bin z ∈ A then 1 / a else 0) := mul_nonneg (by positivity) hpos
        nlinarith
      · have e2 : ∀ l : List P, (bin z :: l).filter (fun p => !K p) = bin z :: l.filter fun p => !K p := fun l => by
          rw [List.filter_cons, if_pos (by simp [hz])]
        simp only [e, e2, oddFrom]
        refine (ih _ ?_).trans (mul_le_mul_of_nonneg_left ?_ (by positivity))
        · split
          · have := card_erase_le (s := A) (a := bin z); omega
          · have := card_insert_le (bin z) A; omega
        · rw [if_neg hz, zero_add]
          split
          · rename_i hz
            rw [card_erase_of_mem hz]
            have : 0 < A.card := card_pos.mpr ⟨_, hz⟩
            obtain ⟨j, hj⟩ : ∃ j, A.card = j + 1 := ⟨A.card - 1, by omega⟩
            rw [hj, Nat.add_sub_cancel, pow_succ]
            have : a ^ j * a * (1 / a) = a ^ j := by field_simp
            have : 0 ≤ a ^ j * a * a := by positivity
            nlinarith
          · rename_i hz
            rw [card_insert_of_notMem hz, pow_succ, add_zero]
    refine (sum_le_sum fun z _ => h1 z).trans ?_
    rw [← mul_sum, ← mul_sum, sum_add_distrib, sum_add_distrib, sum_const, card_univ, nsmul_eq_mul, ← sum_filter, sum_const, nsmul_eq_mul,
      ← sum_filter, sum_const, nsmul_eq_mul]
    have h3 := h.set A
    have h4 : ((univ.filter fun z => bin z ∈ A).card : ℝ) * (1 / a) ≤ Fintype.card β * (m * q / a) := by
      have hAK : (A.card : ℝ) ≤ m := by exact_mod_cast (by omega : A.card ≤ m)
      have h5 : (A.card : ℝ) * (q * Fintype.card β) ≤ m * (q * Fintype.card β) := mul_le_mul_of_nonneg_right hAK (by positivity)
      have h6 := mul_le_mul_of_nonneg_right (h3.trans h5) (by positivity : 0 ≤ 1 / a)
      refine h6.trans (le_of_eq ?_)
      ring
    have h8 : ((univ.filter fun z => K (bin z) = true).card : ℝ) * (1 - a) ≤ Fintype.card β * ((1 - a) * κ) := by
      refine (mul_le_mul_of_nonneg_right hK ha1').trans (le_of_eq ?_)
      ring
    have h7 : (Fintype.card β : ℝ) * a + ((univ.filter fun z => K (bin z) = true).card * (1 - a) +
        (univ.filter fun z => bin z ∈ A).card * (1 / a)) ≤ Fintype.card β * (a + (1 - a) * κ + m * q / a) := by linarith
    calc _ ≤ (Fintype.card β : ℝ) ^ k * (a + (1 - a) * κ + m * q / a) ^ k * (a ^ A.card * (Fintype.card β * (a + (1 - a) * κ + m * q / a))) := by gcongr
      _ = _ := by ring

open Classical in
/-- All bins outside `K` that `k` balls hit an odd number of times are covered by `M` others. -/
theorem odd_cover_le {bin : β → P} {q : ℝ} (h : Spread bin q) (hq0 : 0 ≤ q) (hq1 : q ≤ 1) (a : ℝ) (ha : 0 < a) (ha1 : a ≤ 1)
    (K : P → Bool) (κ : ℝ) (hK : ((univ.filter fun z => K (bin z) = true).card : ℝ) ≤ κ * Fintype.card β) (M k : Nat)
    (hM : 1 - (1 - q) ^ M ≤ a) :
    ∑ v : Fin k → β, ∑ w : Fin M → β,
      (if ∀ p, (List.ofFn fun i => bin (v i)).count p % 2 = 1 → K p = true ∨ ∃ i, bin (w i) = p then 1 else 0 : ℝ) ≤
      (Fintype.card β : ℝ) ^ (k + M) * (a + (1 - a) * max κ 0 + k * q / a) ^ k := by
  have h1 : ∀ v : Fin k → β, ∑ w : Fin M → β,
      (if ∀ p, (List.ofFn fun i => bin (v i)).count p % 2 = 1 → K p = true ∨ ∃ i, bin (w i) = p then 1 else 0 : ℝ) ≤
      (Fintype.card β : ℝ) ^ M * a ^ (oddFrom ∅ ((List.ofFn fun i => bin (v i)).filter fun p => !K p)).card := by
    intro v
    have e : ∀ w : Fin M → β, (∀ p, (List.ofFn fun i => bin (v i)).count p % 2 = 1 → K p = true ∨ ∃ i, bin (w i) = p) ↔
        ∀ p ∈ oddFrom ∅ ((List.ofFn fun i => bin (v i)).filter fun p => !K p), ∃ i, bin (w i) = p := by
      intro w
      refine forall_congr' fun p => ?_
      rw [mem_oddFrom]
      by_cases hp : K p = true
      · have : ((List.ofFn fun i => bin (v i)).filter fun p => !K p).count p = 0 := by
          rw [List.count_eq_zero]
          intro hmem
          simpa [hp] using (List.mem_filter.mp hmem).2
        simp [hp, this]
      · rw [List.count_filter (by simp [hp])]
        simp [hp]
    simp only [e]
    refine (cover_le h hq0 hq1 M _).trans (mul_le_mul_of_nonneg_left ?_ (by positivity))
    have : (1 - q) ^ M ≤ 1 := pow_le_one₀ (by linarith) (by linarith)
    exact pow_le_pow_left₀ (by linarith) hM _
  refine (sum_le_sum fun v _ => h1 v).trans ?_
  rw [← mul_sum]
  have h2 := odd_le h hq0 a ha ha1 K κ hK k k ∅ (by simp)
  rw [card_empty, pow_zero, mul_one] at h2
  calc _ ≤ (Fintype.card β : ℝ) ^ M * ((Fintype.card β : ℝ) ^ k * (a + (1 - a) * max κ 0 + k * q / a) ^ k) := by gcongr
    _ = _ := by rw [pow_add]; ring

end count
end Verif.Coll
