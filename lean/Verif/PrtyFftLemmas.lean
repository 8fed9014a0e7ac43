import Verif.PrtyTreeNodes
import Verif.PrtyFftModel
/-!
# PRTY: helper lemmas for C150
-/
namespace Verif.PrtyFft
open Polynomial Verif.PrtyTree

variable {F : Type} [Field F]

theorem evalMain_nodes (deg : Nat) (x : Nat → F) (t : Nat → F[X])
    (ht : ∀ i : Nat, i < 2 * deg + 1 → t i = nodePoly deg x i) (q : F[X]) (res : Nat → F)
    (hd : 0 < deg) :
    ∃ r, evaluateMain deg t q res = some r ∧ ∀ k : Nat, k ≤ deg → r k = q.eval (x k) := by
  have ht0 : t 0 ≠ 0 := by rw [ht 0 (by omega)]; exact nodePoly_ne_zero _ _ _
  have hmem : ∀ i : Nat, i ∈ (List.range (2 * deg)).map (· + 1) ↔ 1 ≤ i ∧ i < 2 * deg + 1 := by
    intro i
    rw [List.mem_map]
    constructor
    · rintro ⟨j, hj, rfl⟩
      have := List.mem_range.mp hj
      omega
    · intro h
      exact ⟨i - 1, List.mem_range.mpr (by omega), by omega⟩
  have hlt : ∀ i ∈ (List.range (2 * deg)).map (· + 1), i < 2 * deg + 1 :=
    fun i hi => ((hmem i).mp hi).2
  have hgood : Good parent (fun k => k = 0) ((List.range (2 * deg)).map (· + 1)) := by
    refine Good.of_pairwise (R := (· < ·)) (fun a => Nat.lt_irrefl a)
      (fun a b h => Nat.lt_asymm h) ?_ ?_
    · rw [List.pairwise_map]
      exact List.pairwise_lt_range.imp fun h => by omega
    · intro i hi d hd'
      have h := (hmem i).mp hi
      have e : d = papa i := by simpa [parent] using hd'
      subst e
      by_cases h0 : papa i = 0
      · exact Or.inl h0
      · exact Or.inr ⟨(hmem _).mpr ⟨by omega, by unfold papa; omega⟩, by unfold papa; omega⟩
  obtain ⟨r, hr, hinv⟩ := runSteps_good (step := evalStep (2 * deg + 1) t)
    (Inv := fun ok (r : Nat → F[X]) => ∀ k, k < 2 * deg + 1 → ok k →
      nodePoly deg x k ∣ q - r k)
    (B := fun i => i < 2 * deg + 1) (fun ok ok' s h hk k h1 h' => h k h1 (hk k h'))
    (by
      intro ok s i hi hd hB
      refine ⟨put s i (s (papa i) % t i), ?_, ?_⟩
      · unfold evalStep
        rw [if_pos ⟨hB, by rw [ht i hB]; exact nodePoly_ne_zero _ _ _⟩]
      · intro k hk1 hk
        unfold put
        by_cases hki : k = i
        · subst hki
          rw [if_pos rfl]
          have h1 := hi (papa k) (by unfold papa; omega) (hd _ (by simp [parent]))
          have h2 : nodePoly deg x k ∣ s (papa k) - s (papa k) % t k := by
            rw [← ht k hk1]
            exact ⟨s (papa k) / t k, by
              linear_combination -(EuclideanDomain.div_add_mod (s (papa k)) (t k))⟩
          have h3 := dvd_add ((nodePoly_dvd hk1).trans h1) h2
          rwa [sub_add_sub_cancel] at h3
        · rw [if_neg hki]
          exact hi k hk1 (hk.resolve_right hki))
    hgood hlt (s := put (fun _ => 0) 0 (q % t 0))
    (by
      intro k _ hk
      subst hk
      unfold put
      rw [if_pos rfl, ← ht 0 (by omega)]
      exact ⟨q / t 0, by linear_combination -(EuclideanDomain.div_add_mod q (t 0))⟩)
  obtain ⟨r', hr', hinv'⟩ := runSteps_good (step := evalStep (2 * deg + 1) t)
    (deps := fun _ => []) (ok := fun _ => False)
    (Inv := fun ok (r : Nat → F[X]) => ∀ k, k < 2 * deg + 1 → ok k →
      (r k).degree < (nodePoly deg x k).degree)
    (B := fun i => i < 2 * deg + 1) (fun ok ok' s h hk k h1 h' => h k h1 (hk k h'))
    (by
      intro ok s i hi hd hB
      refine ⟨put s i (s (papa i) % t i), ?_, ?_⟩
      · unfold evalStep
        rw [if_pos ⟨hB, by rw [ht i hB]; exact nodePoly_ne_zero _ _ _⟩]
      · intro k hk1 hk
        unfold put
        by_cases hki : k = i
        · subst hki
          rw [if_pos rfl, ← ht k hk1]
          exact degree_mod_lt _ (by rw [ht k hk1]; exact nodePoly_ne_zero _ _ _)
        · rw [if_neg hki]
          exact hi k hk1 (hk.resolve_right hki))
    (Good.of_all (fun i _ d hd => absurd hd List.not_mem_nil)) hlt
    (s := put (fun _ => 0) 0 (q % t 0)) (fun k _ hk => hk.elim)
  have hrr : r' = r := by rw [hr] at hr'; exact (Option.some.inj hr').symm
  subst hrr
  refine ⟨fun k => if 1 ≤ k + deg ∧ k ≤ deg then (r' (k + deg)).coeff 0 else res k, ?_,
    fun k hk => ?_⟩
  · unfold evaluateMain mainInit
    rw [if_pos ht0, Option.bind_some, hr]
    rfl
  · show (if 1 ≤ k + deg ∧ k ≤ deg then (r' (k + deg)).coeff 0 else res k) = _
    rw [if_pos ⟨by omega, hk⟩]
    have hm : k + deg ∈ (List.range (2 * deg)).map (· + 1) := (hmem _).mpr (by omega)
    have h1 := hinv (k + deg) (by omega) (Or.inr hm)
    have h2 := hinv' (k + deg) (by omega) (Or.inr hm)
    rw [nodePoly_leaf (by omega), Nat.add_sub_cancel] at h1 h2
    rw [degree_X_sub_C] at h2
    have h3 : r' (k + deg) = C ((r' (k + deg)).coeff 0) :=
      eq_C_of_degree_le_zero (Nat.WithBot.lt_one_iff_le_zero.mp h2)
    rw [dvd_iff_isRoot, IsRoot, eval_sub, sub_eq_zero] at h1
    rw [h1, h3]
    simp

theorem interMain_nodes (deg : Nat) (x y a : Nat → F) (m old : Nat → F[X])
    (hm : ∀ i : Nat, i < 2 * deg + 1 → m i = nodePoly deg x i) (ho : ConstLeaves deg old)
    (ha : ∀ k : Nat, k ≤ deg → a k ≠ 0) (hd : 0 < deg) :
    ∃ q, interpolateMain deg m y a old = some q ∧ NodeOk deg x (fun k => y k * (a k)⁻¹) 0 q := by
  have hgood : Good children (fun k => deg ≤ k ∧ k < 2 * deg + 1) (List.range deg).reverse := by
    refine Good.of_pairwise (R := (· > ·)) (fun a => Nat.lt_irrefl a)
      (fun a b h => Nat.lt_asymm h) (List.pairwise_reverse.mpr List.pairwise_lt_range) ?_
    intro i hi d hd'
    rw [List.mem_reverse, List.mem_range] at hi
    have e : d = left i ∨ d = right i := by simpa [children] using hd'
    have hb : i < d ∧ d < 2 * deg + 1 := by
      rcases e with rfl | rfl
      · unfold left; omega
      · unfold right; omega
    by_cases h0 : deg ≤ d
    · exact Or.inl ⟨h0, hb.2⟩
    · exact Or.inr ⟨List.mem_reverse.mpr (List.mem_range.mpr (by omega)), hb.1⟩
  obtain ⟨t, ht, hinv⟩ := runSteps_good (step := interStep deg m)
    (Inv := fun ok (t : Nat → F[X]) => (∀ k, ok k →
      NodeOk deg x (fun k => y k * (a k)⁻¹) k (t k)))
    (B := fun i => i < deg) (fun ok ok' s h hk => fun k h' => h k (hk k h'))
    (by
      intro ok s i hi hd hB
      refine ⟨put s i (s (left i) * m (right i) + s (right i) * m (left i)), ?_, ?_⟩
      · unfold interStep
        rw [if_pos (by unfold right; omega)]
      · intro k hk
        unfold put
        by_cases hki : k = i
        · subst hki
          rw [if_pos rfl, hm _ (by unfold right; omega), hm _ (by unfold left; omega)]
          exact nodeOk_step hB (hi _ (hd _ (by simp [children])))
            (hi _ (hd _ (by simp [children])))
        · rw [if_neg hki]
          exact hi k (hk.resolve_right hki))
    hgood (fun i hi => List.mem_range.mp (List.mem_reverse.mp hi)) (s := interInit deg y a old)
    (by
      intro k hk
      obtain ⟨h1, h2⟩ : deg ≤ k ∧ k < 2 * deg + 1 := hk
      rw [interInit_leaf ho h1 h2]
      constructor
      · rw [nodePoly_leaf h1, degree_X_sub_C]
        exact lt_of_le_of_lt degree_C_le (by decide)
      · intro j hj
        rw [under_leaf h1] at hj
        rw [nodePoly_leaf h1, hj]
        simp)
  have hall : ∀ i : Nat, i < 2 * deg + 1 → NodeOk deg x (fun k => y k * (a k)⁻¹) i (t i) := by
    intro i hi
    refine hinv i ?_
    by_cases h : i < deg
    · exact Or.inr (List.mem_reverse.mpr (List.mem_range.mpr h))
    · exact Or.inl ⟨by omega, hi⟩
  refine ⟨t (left 0) * m (right 0) + t (right 0) * m (left 0), ?_, ?_⟩
  · unfold interpolateMain
    rw [if_neg (by omega)]
    unfold interpolate
    rw [if_pos ha, ht, Option.bind_some]
    unfold interStep
    rw [if_pos (by unfold right; omega), Option.map_some]
    unfold put
    rw [if_pos rfl]
  · rw [hm _ (by unfold right; omega), hm _ (by unfold left; omega)]
    exact nodeOk_step hd (hall _ (by unfold left; omega)) (hall _ (by unfold right; omega))

theorem fromBytes_toBytes (size n : Nat) : fromBytes (toBytes size n) = n % 256 ^ size := by
  induction size generalizing n with
  | zero => simp [toBytes, fromBytes, Nat.mod_one]
  | succ s ih =>
    have h1 : toBytes (s + 1) n = (n % 256) :: toBytes s (n / 256) := by
      unfold toBytes
      rw [List.range_succ_eq_map, List.map_cons, List.map_map]
      congr 1
      · simp
      · apply List.map_congr_left
        intro k _
        show n / 256 ^ (k + 1) % 256 = n / 256 / 256 ^ k % 256
        rw [Nat.pow_succ, Nat.mul_comm, ← Nat.div_div_eq_div_mul]
    rw [h1]
    show n % 256 + 256 * fromBytes (toBytes s (n / 256)) = _
    rw [ih, Nat.pow_succ, Nat.mul_comm (256 ^ s), Nat.mod_mul]

theorem toBytes_length (size n : Nat) : (toBytes size n).length = size := by simp [toBytes]

theorem flat_length (size : Nat) (f : Nat → Nat) (l : List Nat) :
    (l.flatMap fun i => toBytes size (f i)).length = l.length * size := by
  induction l with
  | nil => simp
  | cons a l ih =>
    rw [List.flatMap_cons, List.length_append, ih, toBytes_length, List.length_cons]
    ring

theorem flat_group (size : Nat) (f : Nat → Nat) (num i : Nat) (hi : i < num) :
    (((List.range num).flatMap fun i => toBytes size (f i)).drop (i * size)).take size =
      toBytes size (f i) := by
  obtain ⟨d, rfl⟩ : ∃ d, num = i + (d + 1) := ⟨num - i - 1, by omega⟩
  rw [List.range_add, List.flatMap_append, List.drop_append_of_le_length (by
    rw [flat_length, List.length_range]), List.drop_of_length_le (by
    rw [flat_length, List.length_range]), List.nil_append, List.range_succ_eq_map, List.map_cons,
    List.flatMap_cons, List.take_append_of_le_length (by rw [toBytes_length])]
  rw [List.take_of_length_le (by rw [toBytes_length])]
  simp

end Verif.PrtyFft
