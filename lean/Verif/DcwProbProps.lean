import Verif.DcwProbLemmas
import Verif.XorLemmas
/-
Property C128: error probability of the DCW protocol.
-/
namespace Verif.Dcw
open Verif MeasureTheory
open scoped ENNReal

section
variable {Ω : Type} [MeasurableSpace Ω] {μ : Measure Ω} {u : Ω → Nat × Bool → Block} {hashes : List (Block → Block)} {bf n : Nat}
  {S R : List Block}

/-- Without collisions the run is exact. -/
theorem exact_of (h : Random μ u hashes bf n S R) (choice : Nat → Bool) (ω : Ω) (hg : Good hashes bf (received (u ω) choice) R)
    (h1 : ∀ x ∈ S, ∀ y ∈ R, x ≠ y → maskNat hashes bf choice R (u ω) x ≠ maskNat hashes bf choice R (u ω) y)
    (h2 : ∀ x ∈ S, ∀ y ∈ S, x ≠ y → maskNat hashes bf choice R (u ω) x ≠ maskNat hashes bf choice R (u ω) y) :
    Exact S R (runWith hashes bf (u ω) choice n S R) := by
  have hlow : ∀ b : Block, (b.setWidth 64).toNat = low b := by
    intro b
    unfold low
    rw [BitVec.toNat_setWidth]
  have henc : ∀ x, encoding hashes bf (received (u ω) choice) x = xorAt (received (u ω) choice) (positions hashes bf x) := fun x =>
    (xorAt_eq _ _).symm
  obtain ⟨out, ho, ha, hb, hc⟩ := C32_correct hashes bf (fun p b => u ω (p, b)) (received (u ω) choice) choice n S R (fun p => rfl)
    (.inl h.pos) h.sizeS h.sizeR (fun x hx h0 => hg.1 x hx (by
      rw [← henc, ← hlow, h0]; rfl)) (hg.2.imp fun {x y} hne h0 => hne (by rw [← henc, ← henc, ← hlow, h0, hlow]))
  refine ⟨out, ho, hc ?_, fun i => ⟨fun hi => ?_, fun ⟨y, hy, hyS⟩ => ha i y hy hyS⟩⟩
  · rw [List.nodup_map_iff_inj_on h.nodupS]
    intro x hx y hy e
    by_contra hne
    apply h2 x hx y hy hne
    rw [← senderMask_nat, ← senderMask_nat, e]
  · obtain ⟨y, hy, x, hx, e⟩ := hb i hi
    refine ⟨y, hy, ?_⟩
    have hyR : y ∈ R := List.mem_of_getElem? hy
    by_contra hyS
    apply h1 x hx y hyR (fun e => hyS (e ▸ hx))
    rw [← senderMask_nat, e, encoding_nat hashes bf choice R (u ω) hyR]

/-- C128. The probability that a run does not report exactly the common elements, or ends with an exception, is at most
`n(n+1)/2^65 + 2n²/2^128`. -/
theorem C128_error (h : Random μ u hashes bf n S R) (choice : Nat → Bool) :
    μ {ω | ¬ Exact S R (runWith hashes bf (u ω) choice n S R)} ≤
      ENNReal.ofReal (n * (n + 1) / 2 ^ 65) + ((2 * n ^ 2 : ℕ) : ℝ≥0∞) * (2 ^ 128)⁻¹ := by
  have hm := masks_uniform h.strings _ h.independent choice R
  have hsub : {ω | ¬ Exact S R (runWith hashes bf (u ω) choice n S R)} ⊆
      {ω | ¬ Good hashes bf (received (u ω) choice) R} ∪
      ({ω | ∃ x ∈ S, ∃ y ∈ R, x ≠ y ∧ maskNat hashes bf choice R (u ω) x = maskNat hashes bf choice R (u ω) y} ∪
      {ω | ∃ x ∈ S, ∃ y ∈ S, x ≠ y ∧ maskNat hashes bf choice R (u ω) x = maskNat hashes bf choice R (u ω) y}) := by
    intro ω hω
    by_contra hc
    rw [Set.mem_union, Set.mem_union, not_or, not_or] at hc
    simp only [Set.mem_ofPred_eq, not_exists, not_and, not_not] at hc hω
    exact hω (exact_of h choice ω hc.1 hc.2.1 hc.2.2)
  refine (measure_mono hsub).trans ((measure_union_le _ _).trans (add_le_add ?_ ((measure_union_le _ _).trans ?_)))
  · rw [← h.sizeR]
    exact bad_le h.strings h.nodupR (h.independent.mono fun x hx => .inr hx) choice
  · have hr : ∀ u (f : Finset Nat), u < 2 ^ 128 → (∀ v ∈ f, v < 2 ^ 128 ∧ u = v) → f.card ≤ 1 := by
      intro u f _ hf
      rw [Finset.card_le_one]
      intro a ha b hb
      rw [← (hf a ha).2, ← (hf b hb).2]
    have h1 := hm.relateds (by positivity) (· = ·) 1 hr S R (fun x hx => .inl hx) (fun x hx => .inr hx)
    have h2 := hm.relateds (by positivity) (· = ·) 1 hr S S (fun x hx => .inl hx) (fun x hx => .inl hx)
    refine (add_le_add h1 h2).trans (le_of_eq ?_)
    rw [h.sizeS, h.sizeR, ← add_mul, ← Nat.cast_add]
    congr 2
    · ring
    · norm_num

/-- C128, the run fails: with probability at least `1 - exp(-n(n-1)/2^65)` two of the receiver's keys are equal, and there is no result
at all, however long the masks are. -/
theorem C128_fails (h : Random μ u hashes bf n S R) (choice : Nat → Bool) :
    ENNReal.ofReal (1 - Real.exp (-(n * (n - 1) / 2 ^ 65))) ≤ μ {ω | Fails (runWith hashes bf (u ω) choice n S R)} := by
  have hl := low_uniform h.strings _ (h.independent.mono (dom' := {x | x ∈ R}) fun x hx => .inr hx) choice R
  have h1 := hl.birthday (by positivity) (fun i : Fin R.length => R[i])
    (fun i j hij => Fin.ext ((List.Nodup.getElem_inj_iff h.nodupR).mp hij)) fun i => List.getElem_mem _
  have e : (2 * ((2 ^ 64 : Nat) : ℝ)) = 2 ^ 65 := by norm_num
  rw [e] at h1
  have hn : (R.length : ℝ) = n := by rw [h.sizeR]
  rw [← hn]
  refine h1.trans (measure_mono ?_)
  rintro ω ⟨i, j, hij, hc⟩
  apply run_fails
  intro hg
  have key : ∀ i j (hi : i < R.length) (hj : j < R.length), i < j →
      maskNat hashes bf choice R (u ω) R[i] % 2 ^ 64 ≠ maskNat hashes bf choice R (u ω) R[j] % 2 ^ 64 := by
    intro i j hi hj hlt h0
    rw [← low_enc hashes bf choice R (u ω) (List.getElem_mem hi), ← low_enc hashes bf choice R (u ω) (List.getElem_mem hj)] at h0
    exact List.pairwise_iff_getElem.mp hg.2 i j hi hj hlt h0
  rcases Nat.lt_or_gt_of_ne (fun e => hij (Fin.ext e) : i.val ≠ j.val) with hlt | hlt
  · exact key i.val j.val i.2 j.2 hlt hc
  · exact key j.val i.val j.2 i.2 hlt hc.symm

/-- A lower bound for `1 - exp(-x)`. -/
theorem lt_one_sub_exp {x y : ℝ} (hx : 0 < x) (hy : y < 1 - (x + 1)⁻¹) : y < 1 - Real.exp (-x) := by
  have h1 := Real.add_one_le_exp x
  have h2 : Real.exp (-x) ≤ (x + 1)⁻¹ := by
    rw [Real.exp_neg]
    exact inv_anti₀ (by positivity) h1
  linarith

/-- C128, from 6000 elements on this is more than `2^-40`. -/
theorem C128_not_40 (h : Random μ u hashes bf n S R) (choice : Nat → Bool) (hn : 6000 ≤ n) :
    (2 ^ 40 : ℝ≥0∞)⁻¹ < μ {ω | Fails (runWith hashes bf (u ω) choice n S R)} := by
  refine lt_of_lt_of_le ?_ (C128_fails h choice)
  rw [show (2 ^ 40 : ℝ≥0∞) = ENNReal.ofReal (2 ^ 40) by rw [ENNReal.ofReal_pow (by norm_num)]; norm_num,
    ← ENNReal.ofReal_inv_of_pos (by positivity), ENNReal.ofReal_lt_ofReal_iff_of_nonneg (by positivity)]
  have hn' : (6000 : ℝ) ≤ n := by exact_mod_cast hn
  have hx : (35994000 / 2 ^ 65 : ℝ) ≤ n * (n - 1) / 2 ^ 65 := by
    have : (35994000 : ℝ) ≤ n * (n - 1) := by nlinarith
    gcongr
  have h1 := lt_one_sub_exp (x := 35994000 / 2 ^ 65) (y := (2 ^ 40)⁻¹) (by norm_num) (by norm_num)
  refine lt_of_lt_of_le h1 (sub_le_sub_left (Real.exp_le_exp.mpr (neg_le_neg hx)) 1)

/-- C128, with `2^20` elements it is more than `2^-26`. -/
theorem C128_million (h : Random μ u hashes bf n S R) (choice : Nat → Bool) (hn : 2 ^ 20 ≤ n) :
    (2 ^ 26 : ℝ≥0∞)⁻¹ < μ {ω | Fails (runWith hashes bf (u ω) choice n S R)} := by
  refine lt_of_lt_of_le ?_ (C128_fails h choice)
  rw [show (2 ^ 26 : ℝ≥0∞) = ENNReal.ofReal (2 ^ 26) by rw [ENNReal.ofReal_pow (by norm_num)]; norm_num,
    ← ENNReal.ofReal_inv_of_pos (by positivity), ENNReal.ofReal_lt_ofReal_iff_of_nonneg (by positivity)]
  have hn' : (2 ^ 20 : ℝ) ≤ n := by exact_mod_cast hn
  have hx : (2 ^ 20 * (2 ^ 20 - 1) / 2 ^ 65 : ℝ) ≤ n * (n - 1) / 2 ^ 65 := by
    have : (2 ^ 20 * (2 ^ 20 - 1) : ℝ) ≤ n * (n - 1) := by nlinarith
    gcongr
  have h1 := lt_one_sub_exp (x := 2 ^ 20 * (2 ^ 20 - 1) / 2 ^ 65) (y := (2 ^ 26)⁻¹) (by norm_num) (by norm_num)
  refine lt_of_lt_of_le h1 (sub_le_sub_left (Real.exp_le_exp.mpr (neg_le_neg hx)) 1)

end

/-! ### non-vacuity -/

/-- Random strings exist, and the elements of the example of C32 have independent positions. -/
example : ∃ (Ω : Type) (_ : MeasurableSpace Ω) (μ : Measure Ω) (u : Ω → Nat × Bool → Block),
    Random μ u demoHashes 24 3 [1#128, 2, 5] [5#128, 9, 2] := by
  obtain ⟨μ, hμ⟩ := Coll.exists_uniform_any (Nat × Bool) (2 ^ 128) (by positivity)
  refine ⟨_, _, μ, fun ω p => BitVec.ofFin (ω p), hμ, by decide, rfl, rfl, by decide, by decide, ?_⟩
  apply Coll.independent_of_own
  intro x hx
  have hall : ∀ y ∈ {x : Block | x ∈ [1#128, 2, 5] ∨ x ∈ [5#128, 9, 2]}, y = 1#128 ∨ y = 2#128 ∨ y = 5#128 ∨ y = 9#128 := by
    intro y hy
    simp only [Set.mem_ofPred_eq, List.mem_cons, List.not_mem_nil, or_false] at hy
    tauto
  rcases hall x hx with rfl | rfl | rfl | rfl
  · refine ⟨2, by decide +kernel, fun y hy hne => ?_⟩
    rcases hall y hy with rfl | rfl | rfl | rfl <;> first | exact absurd rfl hne | decide +kernel
  · refine ⟨4, by decide +kernel, fun y hy hne => ?_⟩
    rcases hall y hy with rfl | rfl | rfl | rfl <;> first | exact absurd rfl hne | decide +kernel
  · refine ⟨10, by decide +kernel, fun y hy hne => ?_⟩
    rcases hall y hy with rfl | rfl | rfl | rfl <;> first | exact absurd rfl hne | decide +kernel
  · refine ⟨0, by decide +kernel, fun y hy hne => ?_⟩
    rcases hall y hy with rfl | rfl | rfl | rfl <;> first | exact absurd rfl hne | decide +kernel

/-- And for every set size, so for those of `C128_not_40` and `C128_million` too. -/
example (n : Nat) (hn : n < 2 ^ 64 - 1) : ∃ (Ω : Type) (_ : MeasurableSpace Ω) (μ : Measure Ω) (u : Ω → Nat × Bool → Block)
    (S : List Block), Random μ u [fun _ => 0] (n + 1) n S S := by
  obtain ⟨μ, hμ⟩ := Coll.exists_uniform_any (Nat × Bool) (2 ^ 128) (by positivity)
  have hnd : ((List.range n).map fun i => BitVec.ofNat 128 (i + 1)).Nodup := by
    refine List.Nodup.map_on ?_ List.nodup_range
    intro a ha b hb h
    have ha := List.mem_range.1 ha
    have hb := List.mem_range.1 hb
    have := congrArg BitVec.toNat h
    rw [BitVec.toNat_ofNat, BitVec.toNat_ofNat, Nat.mod_eq_of_lt (by omega), Nat.mod_eq_of_lt (by omega)] at this
    omega
  have hpos : ∀ i, i < n → positions [fun _ => 0] (n + 1) (BitVec.ofNat 128 (i + 1)) = [i + 1, 0] := by
    intro i hi
    have e : ((0 : Block) ^^^ BitVec.ofNat 128 (i + 1)).toNat = i + 1 := by
      rw [show (0 : Block) = 0#128 from rfl, BitVec.zero_xor, BitVec.toNat_ofNat, Nat.mod_eq_of_lt (by omega)]
    simp only [positions, List.flatMap_cons, List.flatMap_nil, List.append_nil, e]
    rw [Nat.mod_eq_of_lt (show i + 1 < 2 ^ 64 by omega), Nat.mod_eq_of_lt (show i + 1 < n + 1 by omega),
      Nat.div_eq_of_lt (show i + 1 < 2 ^ 64 by omega), Nat.zero_mod]
  refine ⟨_, _, μ, fun ω p => BitVec.ofFin (ω p), (List.range n).map fun i => BitVec.ofNat 128 (i + 1),
    hμ, by omega, by simp, by simp, hnd, hnd, ?_⟩
  apply Coll.independent_of_own
  have hall : ∀ y ∈ {x : Block | x ∈ ((List.range n).map fun i => BitVec.ofNat 128 (i + 1)) ∨
      x ∈ ((List.range n).map fun i => BitVec.ofNat 128 (i + 1))}, ∃ i, i < n ∧ y = BitVec.ofNat 128 (i + 1) := by
    intro y hy
    simp only [Set.mem_ofPred_eq, or_self, List.mem_map, List.mem_range] at hy
    obtain ⟨i, hi, rfl⟩ := hy
    exact ⟨i, hi, rfl⟩
  intro x hx
  obtain ⟨i, hi, rfl⟩ := hall x hx
  refine ⟨i + 1, by rw [hpos i hi]; simp, fun y hy hne => ?_⟩
  obtain ⟨j, hj, rfl⟩ := hall y hy
  have : j ≠ i := fun h => hne (by rw [h])
  rw [hpos j hj]
  simp [List.count_cons, this]

end Verif.Dcw
