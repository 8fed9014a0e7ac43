import Verif.KkrtOrderLemmas
import Verif.XorLemmas
/-
Property C133: what the receiver of the KKRT protocol learns.
-/
namespace Verif.Kkrt
open Verif Cuckoo MeasureTheory
open scoped ENNReal

section
variable {Ω Λ : Type} [MeasurableSpace Ω] [MeasurableSpace Λ] {μ : Measure Ω} {ν : Measure Λ} {g : Ω → Pt → Nat} {rand : Λ → Nat → Nat}
  {aes : Block → Block} {mb step nb : Nat} {ask : Nat → Option Block} {sched : List Nat}

/-- C133 for a receiver that asks for any one element per bin, and for a fixed order: the view has the same distribution for two
lists of the sender that have the same elements at the places of elements for which the receiver asked in one of their bins. -/
theorem C133_fixed_order {S S' : List Block} (hu : Coll.Uniform μ (domain nb S.length) (2 ^ 128) g) (hb : 0 < nb) (hnb : nb < 2 ^ 64)
    (hstep : 0 < step) (hs : Schedule nb sched) (hne : S ≠ []) (hn : S.length < 2 ^ 32) (hd : S.Nodup) (hd' : S'.Nodup)
    (h : SameFor (Known aes nb ask) S S') (rnd : Nat → Nat) (r : Nat → Nat) (msgs : List (List Nat)) :
    μ {ω | Sees aes mb step nb ask rnd sched S (oprf g ω) (junkOf g mb ω) r msgs} =
      μ {ω | Sees aes mb step nb ask rnd sched S' (oprf g ω) (junkOf g mb ω) r msgs} := by
  have hlen : S.length = S'.length := h.length_eq
  obtain ⟨perm, inv, e, hp, _⟩ := permInit_ok rnd S.length hn
  refine same_sent hlen hu hb hnb hstep hs hne hd hd' e (by rw [← hlen]; exact e) (fun i hi => ?_) r msgs
  have ha := (hp.left i hi).1
  have ha' : perm.getD i 0 < S'.length := by omega
  unfold sentAt
  rw [getD_eq ha, getD_eq ha']
  exact (List.forall₂_iff_get.mp h).2 _ ha ha'

/-- C133 for a receiver that asks for any one element per bin. If the order is chosen by the sender as in the code, two sets of the
sender that have the same elements for which the receiver asked in one of their bins give the receiver every view with nearly the same
probability; the lists may have any order. -/
theorem C133_any_queries {S S' : List Block} (hlen : S.length = S'.length) (hr : Coll.Uniform ν {t | t < S.length} (2 ^ 64) rand)
    (hu : Coll.Uniform μ (domain nb S.length) (2 ^ 128) g) (hb : 0 < nb) (hnb : nb < 2 ^ 64)
    (hstep : 0 < step) (hs : Schedule nb sched) (hne : S ≠ []) (hn : S.length < 2 ^ 32) (hd : S.Nodup) (hd' : S'.Nodup)
    (h : ∀ x, Known aes nb ask x → (x ∈ S ↔ x ∈ S')) (r : Nat → Nat) (msgs : List (List Nat)) :
    (1 - S.length * (S.length + 1) / 2 ^ 65) *
        ((ν.prod μ) {p | Sees aes mb step nb ask (rand p.1) sched S (oprf g p.2) (junkOf g mb p.2) r msgs}).toReal ≤
      Real.exp (S.length * (S.length + 1) / 2 ^ 65) *
        ((ν.prod μ) {p | Sees aes mb step nb ask (rand p.1) sched S' (oprf g p.2) (junkOf g mb p.2) r msgs}).toReal := by
  have : IsProbabilityMeasure μ := ⟨hu.univ⟩
  have : IsProbabilityMeasure ν := ⟨hr.univ⟩
  have hne' : S' ≠ [] := by
    intro e
    rw [e] at hlen
    exact hne (List.length_eq_zero_iff.mp hlen)
  have hsum := congrArg ENNReal.toReal (sum_same (mb := mb) hlen hn hu hb hnb hstep hs hne hd hd' h r msgs)
  rw [prob_sum hn hr hu hb hnb hstep hs hne, prob_sum (by omega) (by rw [← hlen]; exact hr) (by rw [← hlen]; exact hu) hb hnb hstep hs hne']
  rw [ENNReal.toReal_sum fun _ _ => measure_ne_top _ _, ENNReal.toReal_sum fun _ _ => measure_ne_top _ _] at hsum
  rw [ENNReal.toReal_sum fun _ _ => ENNReal.mul_ne_top (measure_ne_top _ _) (measure_ne_top _ _),
    ENNReal.toReal_sum fun _ _ => ENNReal.mul_ne_top (measure_ne_top _ _) (measure_ne_top _ _)]
  simp only [ENNReal.toReal_mul]
  rw [← hlen] at hsum ⊢
  have hf : (0 : ℝ) < (S.length.factorial : ℝ) := by exact_mod_cast S.length.factorial_pos
  generalize hA : (fun q => (μ {ω | Sees aes mb step nb ask (randFor S.length q) sched S (oprf g ω) (junkOf g mb ω) r msgs}).toReal) = A at hsum
  generalize hA' : (fun q => (μ {ω | Sees aes mb step nb ask (randFor S.length q) sched S' (oprf g ω) (junkOf g mb ω) r msgs}).toReal) = A'
    at hsum
  generalize hδ : ((S.length * (S.length + 1) / 2 ^ 65 : ℝ)) = δ
  have hq : ∀ q ∈ orders S.length, (1 - δ) / S.length.factorial ≤ (ν {l | ∃ inv, permInit (rand l) S.length = .ok (q, inv)}).toReal ∧
      (ν {l | ∃ inv, permInit (rand l) S.length = .ok (q, inv)}).toReal ≤ Real.exp δ / S.length.factorial := by
    intro q hq
    rw [← hδ]
    exact C117_order S.length hr hn q (mem_orders.mp hq)
  have hA0 : ∀ q, 0 ≤ A q := fun q => by rw [← hA]; exact ENNReal.toReal_nonneg
  have hA0' : ∀ q, 0 ≤ A' q := fun q => by rw [← hA']; exact ENNReal.toReal_nonneg
  have h1 : ∑ q ∈ orders S.length, (ν {l | ∃ inv, permInit (rand l) S.length = .ok (q, inv)}).toReal * A q ≤
      Real.exp δ / S.length.factorial * ∑ q ∈ orders S.length, A q := by
    rw [Finset.mul_sum]
    exact Finset.sum_le_sum fun q hq' => mul_le_mul_of_nonneg_right (hq q hq').2 (hA0 q)
  have h2 : (1 - δ) / S.length.factorial * ∑ q ∈ orders S.length, A' q ≤
      ∑ q ∈ orders S.length, (ν {l | ∃ inv, permInit (rand l) S.length = .ok (q, inv)}).toReal * A' q := by
    rw [Finset.mul_sum]
    exact Finset.sum_le_sum fun q hq' => mul_le_mul_of_nonneg_right (hq q hq').1 (hA0' q)
  have e1 : ∀ q, (μ {ω | Sees aes mb step nb ask (randFor S.length q) sched S (oprf g ω) (junkOf g mb ω) r msgs}).toReal = A q :=
    fun q => congrFun hA q
  have e2 : ∀ q, (μ {ω | Sees aes mb step nb ask (randFor S.length q) sched S' (oprf g ω) (junkOf g mb ω) r msgs}).toReal = A' q :=
    fun q => congrFun hA' q
  simp only [e1, e2] at hsum ⊢
  have hsA : 0 ≤ ∑ q ∈ orders S.length, A q := Finset.sum_nonneg fun q _ => hA0 q
  have hP : 0 ≤ ∑ q ∈ orders S.length, (ν {l | ∃ inv, permInit (rand l) S.length = .ok (q, inv)}).toReal * A q :=
    Finset.sum_nonneg fun q _ => mul_nonneg ENNReal.toReal_nonneg (hA0 q)
  have hP' : 0 ≤ ∑ q ∈ orders S.length, (ν {l | ∃ inv, permInit (rand l) S.length = .ok (q, inv)}).toReal * A' q :=
    Finset.sum_nonneg fun q _ => mul_nonneg ENNReal.toReal_nonneg (hA0' q)
  by_cases hd1 : 0 ≤ 1 - δ
  · calc _ ≤ (1 - δ) * (Real.exp δ / S.length.factorial * ∑ q ∈ orders S.length, A q) := mul_le_mul_of_nonneg_left h1 hd1
      _ = Real.exp δ * ((1 - δ) / S.length.factorial * ∑ q ∈ orders S.length, A' q) := by rw [hsum]; ring
      _ ≤ _ := mul_le_mul_of_nonneg_left h2 (Real.exp_pos δ).le
  · exact (mul_nonpos_of_nonpos_of_nonneg (by linarith) hP).trans (mul_nonneg (Real.exp_pos δ).le hP')

/-- An honest receiver asks for its own elements only. -/
theorem known_mem {R : List Block} {c' : Cuckoo} (hb : 0 < nb) (hP : Placed aes nb R c') {x : Block}
    (h : Known aes nb (asked c' R) x) : x ∈ R := by
  obtain ⟨k, _, hk⟩ := h
  unfold asked at hk
  split at hk
  · cases hk
  · rename_i hne
    injection hk with hk
    have hi := (hP.bins _ (binOf_lt hb x k) hne).1
    rw [← hk, getD_eq hi]
    exact List.getElem_mem _

/-- C133. What an honest receiver sees, the order of the items being chosen by the sender as in the code, has nearly the same
distribution for two sets of the sender of the same size with the same common elements. -/
theorem C133_hidden {S S' R : List Block} {c c' : Cuckoo} {n l : Nat} (hlen : S.length = S'.length)
    (hr : Coll.Uniform ν {t | t < S.length} (2 ^ 64) rand) (h : Random μ g aes mb step nb sched c c' S R n l)
    (hd : S.Nodup) (hd' : S'.Nodup) (hc : ∀ x ∈ R, x ∈ S ↔ x ∈ S') (r : Nat → Nat) (msgs : List (List Nat)) :
    (1 - S.length * (S.length + 1) / 2 ^ 65) * ((ν.prod μ) {p | Sees aes mb step nb (asked c' R) (rand p.1) sched S
        (oprf g p.2) (junkOf g mb p.2) r msgs}).toReal ≤
      Real.exp (S.length * (S.length + 1) / 2 ^ 65) * ((ν.prod μ) {p | Sees aes mb step nb (asked c' R) (rand p.1) sched S'
        (oprf g p.2) (junkOf g mb p.2) r msgs}).toReal :=
  C133_any_queries hlen hr h.uniform h.start.bins_pos h.bins h.step_pos h.schedule h.ne h.small hd hd'
    (fun x hx => hc x (known_mem h.start.bins_pos h.placed hx)) r msgs

/-- C133 for up to `2^20` items: the probabilities differ by a factor of at most `1 + 2^-23`. -/
theorem C133_million {S S' R : List Block} {c c' : Cuckoo} {n l : Nat} (hlen : S.length = S'.length) (hn : S.length ≤ 2 ^ 20)
    (hr : Coll.Uniform ν {t | t < S.length} (2 ^ 64) rand) (h : Random μ g aes mb step nb sched c c' S R n l)
    (hd : S.Nodup) (hd' : S'.Nodup) (hc : ∀ x ∈ R, x ∈ S ↔ x ∈ S') (r : Nat → Nat) (msgs : List (List Nat)) :
    ((ν.prod μ) {p | Sees aes mb step nb (asked c' R) (rand p.1) sched S (oprf g p.2) (junkOf g mb p.2) r msgs}).toReal ≤
      (1 + 1 / 2 ^ 23) *
        ((ν.prod μ) {p | Sees aes mb step nb (asked c' R) (rand p.1) sched S' (oprf g p.2) (junkOf g mb p.2) r msgs}).toReal := by
  have key := C133_hidden hlen hr h hd hd' hc r msgs
  generalize ((ν.prod μ) {p | Sees aes mb step nb (asked c' R) (rand p.1) sched S (oprf g p.2) (junkOf g mb p.2) r msgs}).toReal = x at key
  have hy : 0 ≤ ((ν.prod μ) {p | Sees aes mb step nb (asked c' R) (rand p.1) sched S' (oprf g p.2) (junkOf g mb p.2) r msgs}).toReal :=
    ENNReal.toReal_nonneg
  generalize ((ν.prod μ) {p | Sees aes mb step nb (asked c' R) (rand p.1) sched S' (oprf g p.2) (junkOf g mb p.2) r msgs}).toReal = y at key hy
  have hn' : (S.length : ℝ) ≤ 2 ^ 20 := by exact_mod_cast hn
  have hx0 : (0 : ℝ) ≤ S.length * (S.length + 1) / 2 ^ 65 := by positivity
  have hx : (S.length * (S.length + 1) / 2 ^ 65 : ℝ) ≤ 1 / 2 ^ 24 - 1 / 2 ^ 26 := by
    have : (S.length * (S.length + 1) : ℝ) ≤ 2 ^ 20 * (2 ^ 20 + 1) := by gcongr
    rw [div_le_iff₀ (by positivity)]
    linarith [show ((2 : ℝ) ^ 20 * (2 ^ 20 + 1)) ≤ (1 / 2 ^ 24 - 1 / 2 ^ 26) * 2 ^ 65 by norm_num]
  generalize (S.length * (S.length + 1) / 2 ^ 65 : ℝ) = δ at key hx hx0
  have hle := Real.exp_bound_div_one_sub_of_interval hx0 (lt_of_le_of_lt hx (by norm_num))
  have hpos : (0 : ℝ) < 1 - δ := by linarith [show (1 / 2 ^ 24 - 1 / 2 ^ 26 : ℝ) < 1 by norm_num]
  have h1 : Real.exp δ ≤ (1 - δ) * (1 + 1 / 2 ^ 23) := by
    refine hle.trans ?_
    rw [div_le_iff₀ hpos]
    nlinarith
  have h2 : (1 - δ) * x ≤ (1 - δ) * ((1 + 1 / 2 ^ 23) * y) := by
    calc _ ≤ Real.exp δ * y := key
      _ ≤ (1 - δ) * (1 + 1 / 2 ^ 23) * y := mul_le_mul_of_nonneg_right h1 hy
      _ = _ := by ring
  exact le_of_mul_le_mul_left h2 hpos

end

/-- C133, the condition on the elements for which the receiver asked is needed: one of the masks of such an element is the value that
the receiver has, cut to the length of the masks. -/
theorem C133_guess (F : Nat → Block → Nat) (aes : Block → Block) (mb nb : Nat) (junk : Nat → Nat → Nat) (ask : Nat → Option Block)
    (a : Nat) (x : Block) (h : Known aes nb ask x) :
    ∃ k b, k < 3 ∧ ask b = some x ∧ maskOf F aes mb nb junk a x k = F b x % 256 ^ mb := by
  classical
  obtain ⟨k, hk, hx⟩ := h
  have hex : ∃ j, binOf (itemHash aes x) j nb = binOf (itemHash aes x) k nb := ⟨k, rfl⟩
  have hj := Nat.find_spec hex
  have hle : Nat.find hex ≤ k := Nat.find_min' hex rfl
  refine ⟨Nat.find hex, binOf (itemHash aes x) k nb, by omega, hx, ?_⟩
  unfold maskOf
  rw [if_neg, hj]
  rintro ⟨i, hi, e⟩
  exact Nat.find_min hex hi (e.trans hj)

/-! ### non-vacuity -/

/-- The cuckoo table of the example for C26. -/
def demoTable : Cuckoo := Cuckoo.mk 3 200 [1, 2, 3, BitVec.allOnes 128] [emptyVal, pack 0 0, pack 1 0, pack 2 0, emptyVal] []

/-- Runs as in the hypotheses exist. -/
example : ∃ (Ω Λ : Type) (_ : MeasurableSpace Ω) (_ : MeasurableSpace Λ) (μ : Measure Ω) (ν : Measure Λ) (g : Ω → Pt → Nat)
    (rand : Λ → Nat → Nat), Coll.Uniform ν {t | t < 3} (2 ^ 64) rand ∧
      Random μ g (fun _ => 0) 4 2 5 [2, 5] exIndex demoTable [7, 3, 1] [1, 2, 3] 4 200 := by
  obtain ⟨μ, hu⟩ := Coll.exists_uniform_any Pt (2 ^ 128) (by positivity)
  obtain ⟨ν, hr⟩ := Coll.exists_uniform_any Nat (2 ^ 64) (by positivity)
  refine ⟨_, _, _, _, μ, ν, fun ω x => (ω x : Nat), fun ω x => (ω x : Nat), ⟨hr.meas, fun ω x _ => hr.lt ω x trivial, fun m pts hp _ v hv => hr.law m pts hp (fun _ => trivial) v hv⟩,
    ⟨⟨by decide +kernel, by decide, by decide, by decide⟩, by decide, by decide +kernel, by decide, by decide, by decide, by decide,
      by decide, ⟨by decide, by decide⟩, ?_⟩⟩
  exact ⟨hu.meas, fun ω x _ => hu.lt ω x trivial, fun m pts hp _ v hv => hu.law m pts hp (fun _ => trivial) v hv⟩

/-- Two sets with the same common elements in different orders. -/
example : ∀ x ∈ [1#128, 2, 3], x ∈ [7#128, 3, 1] ↔ x ∈ [1#128, 9, 3] := by
  intro x hx
  simp only [List.mem_cons, List.not_mem_nil, or_false] at hx
  rcases hx with rfl | rfl | rfl <;> decide

/-- The receiver asked for 1 in bin 1. -/
example : Known (fun _ => 0) 5 (asked demoTable [1, 2, 3]) 1#128 := ⟨0, by decide, by decide +kernel⟩

/-- The receiver did not ask for 7. -/
example : ¬ Known (fun _ => 0) 5 (asked demoTable [1, 2, 3]) 7#128 := by
  rintro ⟨k, hk, h⟩
  rcases (by omega : k = 0 ∨ k = 1 ∨ k = 2) with rfl | rfl | rfl
  · revert h; decide +kernel
  · revert h; decide +kernel
  · revert h; decide +kernel

end Verif.Kkrt
