import Verif.Rr16ProbLemmas
import Verif.XorLemmas
/-
Property C131: error probability of the RR16 protocol.
-/
namespace Verif.Rr16
open Verif Part MeasureTheory
open scoped ENNReal

section
variable {Ω : Type} [MeasurableSpace Ω] {μ : Measure Ω} {u : Ω → Nat × Bool → Block} {c : RunParams} {S R : List Block}

theorem lowMask_uniform (h : Random μ u c S R) (hbf : 0 < c.bf) {perm : List Nat} (hl : perm.length = c.bf) (hnd : perm.Nodup) :
    Coll.Uniform μ {x | x ∈ S ∨ x ∈ R} (2 ^ 64) fun ω x => lowMask c perm (u ω) x :=
  (h.strings.xorLists _ _ (points_independent hbf hl hnd h.independent)).mod (by positivity) (2 ^ 64) (pow_dvd_pow _ (by norm_num))

/-- C131. The probability that a run does not report exactly the common elements is at most `n²/2^64 + n(n-1)/2^65`. -/
theorem C131_error_partial (hf : Fine c S R) (h : Random μ u c S R) :
    μ {ω | ¬ Exact S R (runWith c (u ω) S R)} ≤
      ((c.n ^ 2 : ℕ) : ℝ≥0∞) * (2 ^ 64)⁻¹ + ENNReal.ofReal (c.n * (c.n - 1) / 2 ^ 65) := by
  obtain ⟨perm, _, hl, hnd, hrun⟩ := run_result hf
  have hm := lowMask_uniform h hf.pos hl hnd
  have hsub : {ω | ¬ Exact S R (runWith c (u ω) S R)} ⊆
      {ω | ∃ x ∈ S, ∃ y ∈ R, x ≠ y ∧ lowMask c perm (u ω) x = lowMask c perm (u ω) y} ∪
      {ω | ∃ i j : Fin R.length, i ≠ j ∧ lowMask c perm (u ω) R[i] = lowMask c perm (u ω) R[j]} := by
    intro ω hω
    by_contra hc
    rw [Set.mem_union, not_or] at hc
    simp only [Set.mem_ofPred_eq, not_exists, not_and] at hc hω
    obtain ⟨tab, e, h1, h2⟩ := hrun (u ω)
    apply hω
    rw [e]
    exact exact_of hf h1 h2 hc.1 hc.2
  refine (measure_mono hsub).trans ((measure_union_le _ _).trans (add_le_add ?_ ?_))
  · have hr : ∀ u (f : Finset Nat), u < 2 ^ 64 → (∀ v ∈ f, v < 2 ^ 64 ∧ u = v) → f.card ≤ 1 := by
      intro u f _ hf
      rw [Finset.card_le_one]
      intro a ha b hb
      rw [← (hf a ha).2, ← (hf b hb).2]
    refine (hm.relateds (by positivity) (· = ·) 1 hr S R (fun x hx => .inl hx) (fun x hx => .inr hx)).trans (le_of_eq ?_)
    rw [hf.sizeS, hf.sizeR]
    congr 2
    · ring
    · norm_num
  · refine (hm.same (by positivity) (fun i : Fin R.length => R[i]) (fun i j hij => Fin.ext ((List.Nodup.getElem_inj_iff hf.nodupR).mp hij))
      fun i => .inr (List.getElem_mem _)).trans (le_of_eq ?_)
    have hn : (R.length : ℝ) = c.n := by rw [hf.sizeR]
    rw [hn]
    congr 1
    push_cast
    ring

/-- C131 is false: only eight bytes of the masks are compared. If the sets are disjoint, an element that the sender does not have is
reported with at least this probability, for every `m` up to the size of the sets. -/
theorem C131_wrong (hf : Fine c S R) (h : Random μ u c S R) (hd : ∀ x ∈ S, x ∉ R) (m : Nat) (hm : m ≤ c.n) :
    ENNReal.ofReal (1 - Real.exp (-(2 * m * (2 * m - 1) / 2 ^ 65)) - 2 * m * (m - 1) / 2 ^ 65) ≤
      μ {ω | Wrong S R (runWith c (u ω) S R)} := by
  obtain ⟨perm, _, hl, hnd, hrun⟩ := run_result hf
  have hu := lowMask_uniform h hf.pos hl hnd
  have hS := hf.sizeS
  have hR := hf.sizeR
  have h1 := hu.cross (by positivity) (fun i : Fin m => S[i.val]'(by omega)) (fun i : Fin m => R[i.val]'(by omega))
    (fun i j hij => Fin.ext ((List.Nodup.getElem_inj_iff hf.nodupS).mp hij)) (fun i j hij => Fin.ext ((List.Nodup.getElem_inj_iff hf.nodupR).mp hij))
    (fun i j e => hd _ (List.getElem_mem _) (by rw [e]; exact List.getElem_mem _)) (fun i => .inl (List.getElem_mem _))
    (fun i => .inr (List.getElem_mem _))
  refine le_trans (le_of_eq ?_) (h1.trans (measure_mono ?_))
  · congr 1
    push_cast
    ring_nf
  · rintro ω ⟨i, j, e⟩
    obtain ⟨tab, er, h1, h2⟩ := hrun (u ω)
    have h3 := h2 _ (List.getElem_mem (by omega : j.val < R.length))
    rw [← e] at h3
    cases ef : find tab (lowMask c perm (u ω) (S[i.val]'(by omega))) with
    | none => exact absurd ef h3
    | some k =>
      obtain ⟨y, hy, _⟩ := h1 _ _ ef
      refine ⟨_, er, k, ?_, y, hy, fun hyS => hd y hyS (List.mem_of_getElem? hy)⟩
      have hperm : (c.tord.flatMap (part S c.T)).Perm S := by
        conv_rhs => rw [← flatMap_part S c.T hf.threads (by rw [hf.sizeS]; exact hf.noWrap)]
        exact hf.order'.flatMap_right _
      rw [List.mem_filterMap]
      exact ⟨_, hperm.mem_iff.mpr (List.getElem_mem (by omega)), ef⟩

theorem exp_lower (x : ℝ) (hx : 0 ≤ x) : x - x ^ 2 / 2 ≤ 1 - Real.exp (-x) := by
  have h1 := Real.quadratic_le_exp_of_nonneg hx
  have h2 : Real.exp (-x) ≤ (1 + x + x ^ 2 / 2)⁻¹ := by
    rw [Real.exp_neg]
    exact inv_anti₀ (by positivity) h1
  have h3 : (1 + x + x ^ 2 / 2)⁻¹ ≤ 1 - x + x ^ 2 / 2 := by
    rw [inv_le_iff_one_le_mul₀ (by positivity)]
    nlinarith [pow_nonneg hx 4]
  linarith

theorem exp_bound {x y z : ℝ} (hx : 0 ≤ x) (h : y < x - x ^ 2 / 2 - z) : y < 1 - Real.exp (-x) - z := by
  have h1 := exp_lower x hx
  linarith

/-- C131, from 4200 elements on this is more than `2^-40`. -/
theorem C131_not_40 (hf : Fine c S R) (h : Random μ u c S R) (hd : ∀ x ∈ S, x ∉ R) (hn : 4200 ≤ c.n) :
    (2 ^ 40 : ℝ≥0∞)⁻¹ < μ {ω | Wrong S R (runWith c (u ω) S R)} := by
  refine lt_of_lt_of_le ?_ (C131_wrong hf h hd 4200 hn)
  rw [show (2 ^ 40 : ℝ≥0∞) = ENNReal.ofReal (2 ^ 40) by rw [ENNReal.ofReal_pow (by norm_num)]; norm_num,
    ← ENNReal.ofReal_inv_of_pos (by positivity), ENNReal.ofReal_lt_ofReal_iff_of_nonneg (by positivity)]
  apply exp_bound <;> norm_num

/-- C131, with `2^20` elements it is more than `2^-25`. -/
theorem C131_million (hf : Fine c S R) (h : Random μ u c S R) (hd : ∀ x ∈ S, x ∉ R) (hn : 2 ^ 20 ≤ c.n) :
    (2 ^ 25 : ℝ≥0∞)⁻¹ < μ {ω | Wrong S R (runWith c (u ω) S R)} := by
  refine lt_of_lt_of_le ?_ (C131_wrong hf h hd (2 ^ 20) hn)
  rw [show (2 ^ 25 : ℝ≥0∞) = ENNReal.ofReal (2 ^ 25) by rw [ENNReal.ofReal_pow (by norm_num)]; norm_num,
    ← ENNReal.ofReal_inv_of_pos (by positivity), ENNReal.ofReal_lt_ofReal_iff_of_nonneg (by positivity)]
  apply exp_bound <;> norm_num

end

/-! ### non-vacuity -/

/-- The run of the example of C34. -/
def demoParams : RunParams where
  checked := true
  hash := demoHash
  bf := 8
  total := 20
  n := 2
  T := 2
  sampled := fun p => p == 0
  choice := fun p => p % 2 == 0
  zeros := [1, 3, 5, 7, 9]
  ones := [2, 4, 6, 8, 10]
  ord := [1, 0]
  tord := [0, 1]

example : Fine demoParams [2#128, 7] [1#128, 2] where
  lists := ⟨by decide, by decide, by decide⟩
  unopened := by decide
  chosen := by decide
  enough1 := by decide +kernel
  enough := by decide
  pos := by decide
  sizeS := rfl
  sizeR := rfl
  nodupS := by decide
  nodupR := by decide
  threads := by decide
  noWrap := by decide
  order := List.Perm.swap _ _ _
  order' := List.Perm.refl _

/-- Random strings exist, and the elements of the example have independent positions. -/
example : ∃ (Ω : Type) (_ : MeasurableSpace Ω) (μ : Measure Ω) (u : Ω → Nat × Bool → Block),
    Random μ u demoParams [2#128, 7] [1#128, 2] := by
  obtain ⟨μ, hμ⟩ := Coll.exists_uniform_any (Nat × Bool) (2 ^ 128) (by positivity)
  refine ⟨_, _, μ, fun ω p => BitVec.ofFin (ω p), hμ, ?_⟩
  apply Coll.independent_of_own
  intro x hx
  have hall : ∀ y ∈ {x : Block | x ∈ [2#128, 7] ∨ x ∈ [1#128, 2]}, y = 1#128 ∨ y = 2#128 ∨ y = 7#128 := by
    intro y hy
    simp only [Set.mem_ofPred_eq, List.mem_cons, List.not_mem_nil, or_false] at hy
    tauto
  rcases hall x hx with rfl | rfl | rfl
  · refine ⟨1, by decide +kernel, fun y hy hne => ?_⟩
    rcases hall y hy with rfl | rfl | rfl <;> first | exact absurd rfl hne | decide +kernel
  · refine ⟨2, by decide +kernel, fun y hy hne => ?_⟩
    rcases hall y hy with rfl | rfl | rfl <;> first | exact absurd rfl hne | decide +kernel
  · refine ⟨6, by decide +kernel, fun y hy hne => ?_⟩
    rcases hall y hy with rfl | rfl | rfl <;> first | exact absurd rfl hne | decide +kernel

/-- The other lemmas are about a run like this one. -/
example : Exact [2#128, 7] [1#128, 2] (runWith demoParams (fun q => demoMsgs q.1 q.2) [2#128, 7] [1#128, 2]) := by
  refine ⟨[1], by decide +kernel, by decide, fun i => ?_⟩
  match i with
  | 0 => simp
  | 1 => simp
  | i + 2 => simp

end Verif.Rr16
