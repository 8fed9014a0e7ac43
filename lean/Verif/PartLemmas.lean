import Verif.PartModel
/-
Helper lemmas about consecutive intervals.
-/
namespace Verif.Part

theorem interval_append {a b c : Nat} (h1 : a ≤ b) (h2 : b ≤ c) :
    interval a b ++ interval b c = interval a c := by
  unfold interval
  have : c - a = (b - a) + (c - b) := by omega
  rw [this, List.range_add, List.map_append, List.map_map]
  congr 1
  apply List.map_congr_left
  intro x _
  simp only [Function.comp]
  omega

/-- Consecutive intervals between increasing bounds. -/
theorem flatMap_interval (f : Nat → Nat) (T : Nat) (hmono : ∀ t, t < T → f t ≤ f (t + 1)) :
    (List.range T).flatMap (fun t => interval (f t) (f (t + 1))) = interval (f 0) (f T) := by
  have hm : ∀ t, t ≤ T → f 0 ≤ f t := by
    intro t
    induction t with
    | zero => intro _; exact Nat.le_refl _
    | succ t ih => intro ht; exact Nat.le_trans (ih (by omega)) (hmono t (by omega))
  have key : ∀ k, k ≤ T →
      (List.range k).flatMap (fun t => interval (f t) (f (t + 1))) = interval (f 0) (f k) := by
    intro k
    induction k with
    | zero => intro _; simp [interval]
    | succ k ih =>
      intro hk
      rw [List.range_succ, List.flatMap_append, ih (by omega)]
      simp only [List.flatMap_cons, List.flatMap_nil, List.append_nil]
      exact interval_append (hm k (by omega)) (hmono k (by omega))
  exact key T (Nat.le_refl _)

theorem interval_zero (n : Nat) : interval 0 n = List.range n := by
  unfold interval; simp

end Verif.Part
