import Verif.Rr17TotalProps
import Verif.Grr18ProbProps
/-
Property C175: GRR18 reports exactly the common elements, over the hash function and the OT values.
-/
namespace Verif.Grr18
open Verif MeasureTheory Coll
open Rr17
open Verif.Rr17b (binOf)
open scoped ENNReal

/-- Equal places of the OTs mean equal elements or a clash. -/
theorem low_rows {c : Cfg} {L : Nat} {h : Block → Block} {X Y : List Block} {sbins rbins : Nat → List Nat} (hT : 0 < c.T) (hov : c.B * c.T < 2 ^ 64)
    (hS : Placed c (hashed (some h) X) sbins) (hR : Placed c (hashed (some h) Y) rbins) {load : Nat → Nat} {d d' : Bool} {t b i k t' b' j k' : Nat}
    (ht : t < c.T) (hb : b ∈ c.binsOf t) (hi : i ∈ sbins b) (ht' : t' < c.T) (hb' : b' ∈ c.binsOf t') (hj : j ∈ rbins b') (hk : k < load b)
    (hk' : k' < load b') (hc : ¬ SomeClash h c.N c.B L X Y)
    (e : lowPt L (d, t, off c load t b + k, (otInputs (some h) c X).getD i 0) = lowPt L (d', t', off c load t' b' + k', (otInputs (some h) c Y).getD j 0)) :
    t = t' ∧ b = b' ∧ k = k' ∧ i < X.length ∧ j < Y.length ∧ X.getD i 0 = Y.getD j 0 := by
  let low : Block → Block := fun x => BitVec.ofNat 128 (x.toNat % 2 ^ L)
  obtain ⟨h1, h2⟩ := place_addr hS (binsOf_lt hT hov ht hb) hi
  obtain ⟨h3, h4⟩ := place_addr hR (binsOf_lt hT hov ht' hb') hj
  have hi' : i < X.length := by have := hS.len; simp [hashed] at this; omega
  have hj' : j < Y.length := by have := hR.len; simp [hashed] at this; omega
  have g1 : ∀ (Z : List Block) (n : Nat) (hn : n < Z.length), (hashed (some h) Z).getD n 0 = h (Z.getD n 0) := by
    intro Z n hn
    rw [Kkrt.getD_eq hn, Kkrt.getD_eq (l := hashed (some h) Z) (by simpa [hashed] using hn)]
    simp [hashed]
  have g2 : ∀ (Z : List Block) (n : Nat) (hn : n < Z.length), (otInputs (some h) c Z).getD n 0 = (phase c.N c.B (h (Z.getD n 0))).2 := by
    intro Z n hn
    rw [Kkrt.getD_eq hn, Kkrt.getD_eq (l := otInputs (some h) c Z) (by simpa [otInputs, hashed] using hn)]
    simp [otInputs, hashed]
  have g3 : ∀ (Z : List Block) (n : Nat) (hn : n < Z.length), ((otInputs (some h) c Z).map low).getD n 0 =
      BitVec.ofNat 128 ((phase c.N c.B (h (Z.getD n 0))).2.toNat % 2 ^ L) := by
    intro Z n hn
    rw [← g2 Z n hn, Kkrt.getD_eq (l := (otInputs (some h) c Z).map low) (by simpa [otInputs, hashed] using hn),
      Kkrt.getD_eq (l := otInputs (some h) c Z) (by simpa [otInputs, hashed] using hn)]
    simp [low]
  have e' : ((d, t, off c load t b + k, ((otInputs (some h) c X).map low).getD i 0) : OtPt) =
      (d', t', off c load t' b' + k', ((otInputs (some h) c Y).map low).getD j 0) := by
    rw [g3 X i hi', g3 Y j hj', ← g2 X i hi', ← g2 Y j hj']
    exact e
  obtain ⟨e1, e2, e3, e4⟩ := pt_eq hb hb' hk hk' e'
  refine ⟨e1, e2, e3, hi', hj', ?_⟩
  rw [g3 X i hi', g3 Y j hj'] at e4
  rw [g1 X i hi'] at h2
  rw [g1 Y j hj'] at h4
  by_contra hne
  refine hc ⟨X.getD i 0, ?_, Y.getD j 0, ?_, hne, h2.symm.trans (e2.trans h4), Rr17b.otOf_inj e4⟩
  · rw [Kkrt.getD_eq hi']; exact List.getElem_mem _
  · rw [Kkrt.getD_eq hj']; exact List.getElem_mem _

/-- If no load is more than `k`, there are at most `N k` masks. -/
theorem realCount_le {c : Cfg} {bins : Nat → List Nat} {load : Nat → Nat} (hT : 0 < c.T) (hov : c.B * c.T < 2 ^ 64) (hb : Holds c bins) (k : Nat)
    (hl : ∀ b, b < c.B → load b ≤ k) : realCount c load bins ≤ c.N * k := by
  have h1 : (realCount c (fun _ => k) bins) = c.N * k := by
    have := (holds_threads hT hov hb).length_eq
    rw [List.length_range, List.length_flatMap] at this
    rw [← this, ← List.sum_map_mul_right]
    unfold realCount numLocal
    congr 1
    apply List.map_congr_left
    intro t _
    rw [List.length_flatMap, List.sum_map_mul_right]
  rw [← h1]
  unfold realCount numLocal
  apply List.sum_le_sum
  intro t ht
  apply List.sum_le_sum
  intro b hb
  exact Nat.mul_le_mul_left _ (hl b (binsOf_lt hT hov (List.mem_range.mp ht) hb))

section
variable {Ω Ω' : Type} [MeasurableSpace Ω] [MeasurableSpace Ω'] {ν : Measure Ω} {μ : Measure Ω'} {h : Ω → Block → Block} {u : Ω' → OtPt → Block}

/-- C175, a given hash function with which no bin is too full and no two different elements have the same address and bits of OT input: over random OT
values a run fails with at most this probability. -/
theorem C175_given (hu : Uniform μ Set.univ (2 ^ 128) fun ω p => (u ω p).toNat) (c : Cfg) (L : Nat) (h : Block → Block) (X Y : List Block)
    (sbins rbins : Nat → List Nat) (sLoad rOwn : Nat → Nat) (s : Sched) (hn : Y.Nodup) (hr : Run c (some h) X Y sbins rbins sLoad rOwn s)
    (ho : ¬ Overfull c sbins) (ho' : ¬ Overfull c rbins) (h1 : ¬ SomeClash h c.N c.B L X Y) (h2 : ¬ SomeClash h c.N c.B L Y Y) :
    μ {ω | Fails c L h (u ω) X Y sbins rbins sLoad rOwn s} ≤
      ((realCount c (fun b => max (rOwn b) (sLoad b)) sbins + s.extra.toNat) * realCount c sLoad rbins : ℕ) * ((2 ^ (8 * c.ms) : ℕ) : ℝ≥0∞)⁻¹ +
        ENNReal.ofReal ((realCount c sLoad rbins : ℕ) * ((realCount c sLoad rbins : ℕ) + 1) / 2 ^ 65) := by
  have hw := error_via hu hr (lowPt L) (fun _ => rfl)
    (fun load d t b i k t' b' j k' p1 p2 p3 q1 q2 q3 hk hk' e => (low_rows hr.T hr.ov hr.S hr.R p1 p2 p3 q1 q2 q3 hk hk' h1 e).2.2.2.2.2)
  have hm := miss_via hu hr (lowPt L) (fun _ => rfl) (fun i j hi hj e => by
    obtain ⟨p1, p2, p3, p4⟩ := mem_rowData (List.Perm.refl _) (List.getElem_mem hi)
    obtain ⟨q1, q2, q3, q4⟩ := mem_rowData (List.Perm.refl _) (List.getElem_mem hj)
    obtain ⟨e1, e2, e3, e4, e5, e6⟩ := low_rows hr.T hr.ov hr.R hr.R p1 p2 p3 q1 q2 q3 p4 q4 h2 e
    rw [Kkrt.getD_eq e4, Kkrt.getD_eq e5] at e6
    have e7 := (List.Nodup.getElem_inj_iff hn).mp e6
    exact (List.Nodup.getElem_inj_iff (rowData_nodup sLoad hr.T hr.ov (hr.R.holds hr.B) (List.Perm.refl _))).mp
      (Prod.ext e1 (Prod.ext e2 (Prod.ext e7 e3))))
  refine le_trans (measure_mono ?_) ((measure_union_le _ _).trans (add_le_add hw hm))
  intro ω hω
  rcases hω with hω | hω | hω
  · exact absurd hω ho
  · exact absurd hω ho'
  · by_contra hno
    simp only [Set.mem_union, Set.mem_ofPred_eq, not_or] at hno
    obtain ⟨n1, n2⟩ := hno
    apply hω
    have e : ∀ Z : List Block, (Z.map fun x => (phase c.N c.B (h x)).2) = otInputs (some h) c Z := by
      intro Z
      unfold otInputs hashed
      rw [List.map_map]
      rfl
    rw [e, e]
    obtain ⟨_, _, _, _, hrun⟩ := run_rows hr
    obtain ⟨_, _, hout, _⟩ := hrun fun p => u ω (lowPt L p)
    refine ⟨_, hout, fun j => ⟨fun hj => ?_, fun ⟨hj, hx⟩ => ?_⟩⟩
    · by_contra hno
      exact n1 ⟨_, hout, j, hj, hno⟩
    · by_contra hno
      obtain ⟨i, hi, hij⟩ := List.getElem_of_mem hx
      refine n2 ⟨i, j, hi, hj, hij, ?_⟩
      rintro ⟨out', ho', hj'⟩
      rw [hout] at ho'
      injection ho' with ho'
      subst ho'
      exact hno hj'

/-- C175: over a random hash function and random OT values a run of GRR18, with any number of threads, ends with exactly the positions of the common
elements, except with at most this probability: a bin of one of the parties gets too many elements, two elements have the same bin and OT input, one of at
most `m` values sent equals one of at most `n` masks of the receiver by accident, or two masks of the receiver have the same 64 bit key or one has key 0. -/
theorem C175_total (hu : Uniform μ Set.univ (2 ^ 128) fun ω p => (u ω p).toNat) (hh : Uniform ν Set.univ (2 ^ 128) fun ω x => (h ω x).toNat) (c : Cfg)
    (L : Nat) (X Y : List Block) (sbins rbins : Ω → Nat → List Nat) (sLoad rOwn : Ω → Nat → Nat) (s : Ω → Sched) (hX : X.length = c.N)
    (hY : Y.length = c.N) (hn : X.Nodup) (hn' : Y.Nodup) (hB : 0 < c.B) (hN : c.N < 2 ^ 64) (hL : log2ceil c.N + L ≤ 128)
    (hS : ∀ ω, Filled c (binOf (h ω) c.N c.B) X (sbins ω)) (hR : ∀ ω, Filled c (binOf (h ω) c.N c.B) Y (rbins ω))
    (hr : ∀ ω, ¬ Overfull c (sbins ω) → ¬ Overfull c (rbins ω) → Run c (some (h ω)) X Y (sbins ω) (rbins ω) (sLoad ω) (rOwn ω) (s ω))
    (m n : Nat) (hm : ∀ ω, ¬ Overfull c (sbins ω) → ¬ Overfull c (rbins ω) →
      realCount c (fun b => max (rOwn ω b) (sLoad ω b)) (sbins ω) + (s ω).extra.toNat ≤ m)
    (hm' : ∀ ω, ¬ Overfull c (sbins ω) → ¬ Overfull c (rbins ω) → realCount c (sLoad ω) (rbins ω) ≤ n) :
    ∫⁻ ω, μ {ω' | Fails c L (h ω) (u ω') X Y (sbins ω) (rbins ω) (sLoad ω) (rOwn ω) (s ω)} ∂ν ≤
      ((m * n : ℕ) * ((2 ^ (8 * c.ms) : ℕ) : ℝ≥0∞)⁻¹ + ENNReal.ofReal ((n : ℕ) * ((n : ℕ) + 1) / 2 ^ 65)) +
      (2 * ENNReal.ofReal (BinSize.overflowProb c.B c.N c.M * (1 + c.B / 2 ^ 64) ^ c.N) +
        2 * ((c.N * c.N * ((2 ^ log2ceil c.N + c.B - 1) / c.B) : ℕ) * ((2 ^ (log2ceil c.N + L) : ℕ) : ℝ≥0∞)⁻¹)) := by
  have h1 := average_close (ν := ν)
    (fun ω => μ {ω' | Fails c L (h ω) (u ω') X Y (sbins ω) (rbins ω) (sLoad ω) (rOwn ω) (s ω)}) (fun _ => 0)
    (({ω | Overfull c (sbins ω)} ∪ {ω | Overfull c (rbins ω)}) ∪
      ({ω | SomeClash (h ω) c.N c.B L X Y} ∪ {ω | SomeClash (h ω) c.N c.B L Y Y}))
    ((m * n : ℕ) * ((2 ^ (8 * c.ms) : ℕ) : ℝ≥0∞)⁻¹ + ENNReal.ofReal ((n : ℕ) * ((n : ℕ) + 1) / 2 ^ 65))
    (Uniform.univ hh) (fun ω => (measure_mono (Set.subset_univ _)).trans hu.univ.le) (fun ω hω => ?_)
  · rw [lintegral_zero, zero_add] at h1
    refine h1.trans (add_le_add le_rfl ?_)
    have hc : ∀ P : List Block, P.length = c.N → ν {ω | SomeClash (h ω) c.N c.B L P Y} ≤
        (c.N * c.N * ((2 ^ log2ceil c.N + c.B - 1) / c.B) : ℕ) * ((2 ^ (log2ceil c.N + L) : ℕ) : ℝ≥0∞)⁻¹ := by
      intro P hP
      have := C124_error_partial hh c.N c.B L hN hB hL P Y
      rwa [hP, hY] at this
    refine (measure_union_le _ _).trans (add_le_add ?_ ?_)
    · rw [two_mul]
      exact (measure_union_le _ _).trans (add_le_add (C171_overfull hh c hB X hX hn sbins hS) (C171_overfull hh c hB Y hY hn' rbins hR))
    · rw [two_mul]
      exact (measure_union_le _ _).trans (add_le_add (hc X hX) (hc Y hY))
  · simp only [Set.mem_union, not_or, Set.mem_ofPred_eq] at hω
    obtain ⟨⟨o1, o2⟩, s1, s2⟩ := hω
    rw [zero_add]
    refine (C175_given hu c L (h ω) X Y (sbins ω) (rbins ω) (sLoad ω) (rOwn ω) (s ω) hn' (hr ω o1 o2) o1 o2 s1 s2).trans (add_le_add ?_ ?_)
    · gcongr
      · exact hm ω o1 o2
      · exact hm' ω o1 o2
    · apply ENNReal.ofReal_le_ofReal
      have : ((realCount c (sLoad ω) (rbins ω) : ℕ) : ℝ) ≤ n := by exact_mod_cast hm' ω o1 o2
      gcongr

/-- C175, loads up to the maximum bin size: if the receiver's own loads are at most the maximum bin size `M` and at most `e` dummy rows are added, the
bound is in terms of `N`, `B`, `M` and `e` alone. -/
theorem C175_loads (hu : Uniform μ Set.univ (2 ^ 128) fun ω p => (u ω p).toNat) (hh : Uniform ν Set.univ (2 ^ 128) fun ω x => (h ω x).toNat) (c : Cfg)
    (L e : Nat) (X Y : List Block) (sbins rbins : Ω → Nat → List Nat) (sLoad rOwn : Ω → Nat → Nat) (s : Ω → Sched) (hX : X.length = c.N)
    (hY : Y.length = c.N) (hn : X.Nodup) (hn' : Y.Nodup) (hB : 0 < c.B) (hN : c.N < 2 ^ 64) (hL : log2ceil c.N + L ≤ 128)
    (hS : ∀ ω, Filled c (binOf (h ω) c.N c.B) X (sbins ω)) (hR : ∀ ω, Filled c (binOf (h ω) c.N c.B) Y (rbins ω))
    (hr : ∀ ω, ¬ Overfull c (sbins ω) → ¬ Overfull c (rbins ω) → Run c (some (h ω)) X Y (sbins ω) (rbins ω) (sLoad ω) (rOwn ω) (s ω))
    (ho : ∀ ω b, b < c.B → rOwn ω b ≤ c.M) (he : ∀ ω, (s ω).extra ≤ e) :
    ∫⁻ ω, μ {ω' | Fails c L (h ω) (u ω') X Y (sbins ω) (rbins ω) (sLoad ω) (rOwn ω) (s ω)} ∂ν ≤
      (((c.N * c.M + e) * (c.N * c.M) : ℕ) * ((2 ^ (8 * c.ms) : ℕ) : ℝ≥0∞)⁻¹ +
        ENNReal.ofReal (((c.N * c.M : ℕ) : ℝ) * (((c.N * c.M : ℕ) : ℝ) + 1) / 2 ^ 65)) +
      (2 * ENNReal.ofReal (BinSize.overflowProb c.B c.N c.M * (1 + c.B / 2 ^ 64) ^ c.N) +
        2 * ((c.N * c.N * ((2 ^ log2ceil c.N + c.B - 1) / c.B) : ℕ) * ((2 ^ (log2ceil c.N + L) : ℕ) : ℝ≥0∞)⁻¹)) := by
  refine C175_total hu hh c L X Y sbins rbins sLoad rOwn s hX hY hn hn' hB hN hL hS hR hr _ _ (fun ω o1 o2 => ?_) (fun ω o1 o2 => ?_)
  · have hr := hr ω o1 o2
    refine Nat.add_le_add (realCount_le hr.T hr.ov (hr.S.holds hr.B) _ fun b hb => max_le (ho ω b hb) (hr.sM b hb)) ?_
    have := he ω
    omega
  · have hr := hr ω o1 o2
    exact realCount_le hr.T hr.ov (hr.R.holds hr.B) _ hr.sM

/-- The hash function terms of C175 with the parameters of the code: a quarter as many bins as elements (`binScaler = 4`), the bin size that `get_bin_size`
computes and the OT input length that `init` computes. -/
theorem quarter_bound (N B M statSec : Nat) (hN : N < 2 ^ 31) (hN8 : 8 ≤ N) (hB : B = N / 4) (hM : BinSize.Returns B N statSec (.ok M)) (hM8 : 8 ≤ M)
    (hs7 : 7 ≤ statSec) (hsec : statSec ≤ 2 ^ 32) :
    2 * ENNReal.ofReal (BinSize.overflowProb B N M * (1 + B / 2 ^ 64) ^ N) +
        2 * ((N * N * ((2 ^ log2ceil N + B - 1) / B) : ℕ) * ((2 ^ (log2ceil N + (initBits statSec N none).1) : ℕ) : ℝ≥0∞)⁻¹) ≤
      ((2 ^ (statSec - 7) : ℕ) : ℝ≥0∞)⁻¹ := by
  have hN64 : N < 2 ^ 64 := by omega
  have hB2 : 2 ≤ B := by omega
  -- the bins
  obtain ⟨M₀, h1, h2, _, h3, _⟩ := BinSize.C86_search B N statSec (by omega) hN (by omega)
  have hMM : M = M₀ := by
    have := BinSize.C86_unique B N statSec _ _ hM h1
    injection this
  subst hMM
  have hover := BinSize.C87_bits_partial B N statSec M (by omega) (by omega) h3 h2 hN (by
    calc 2 * (N - M - 1) ≤ 10 * (B - 1) := by omega
      _ ≤ (M + 2) * (B - 1) := Nat.mul_le_mul_right _ (by omega))
  have hgrow : (1 + (B : ℝ) / 2 ^ 64) ^ N ≤ 2 := by
    have hBN : (B : ℝ) ≤ N := by exact_mod_cast (by omega : B ≤ N)
    refine le_trans ?_ (Rr17b.grow_le N hN)
    gcongr
  have hp : (2 : ℝ) ^ (-((statSec : ℝ) - 0.0001)) ≤ 2 * (2 ^ statSec)⁻¹ := by
    rw [show -((statSec : ℝ) - 0.0001) = 0.0001 + (-(statSec : ℝ)) by ring, Real.rpow_add (by norm_num), Real.rpow_neg (by norm_num),
      Real.rpow_natCast]
    have : (2 : ℝ) ^ (0.0001 : ℝ) ≤ 2 := by
      calc (2 : ℝ) ^ (0.0001 : ℝ) ≤ (2 : ℝ) ^ (1 : ℝ) := Real.rpow_le_rpow_of_exponent_le (by norm_num) (by norm_num)
        _ = 2 := Real.rpow_one 2
    gcongr
  have h0 : 0 ≤ BinSize.overflowProb B N M := by
    unfold BinSize.overflowProb
    positivity
  have hx : BinSize.overflowProb B N M * (1 + (B : ℝ) / 2 ^ 64) ^ N ≤ 4 * (2 ^ statSec)⁻¹ := by
    have h5 : BinSize.overflowProb B N M * (1 + (B : ℝ) / 2 ^ 64) ^ N ≤ (2 * (2 ^ statSec)⁻¹) * 2 :=
      mul_le_mul (hover.trans hp) hgrow (by positivity) (by positivity)
    linarith
  have hover2 : ENNReal.ofReal (BinSize.overflowProb B N M * (1 + (B : ℝ) / 2 ^ 64) ^ N) ≤ 4 * ((2 ^ statSec : ℕ) : ℝ≥0∞)⁻¹ := by
    refine (ENNReal.ofReal_le_ofReal hx).trans (le_of_eq ?_)
    rw [ENNReal.ofReal_mul (by norm_num), ENNReal.ofReal_inv_of_pos (by positivity), ENNReal.ofReal_pow (by norm_num)]
    norm_num
  -- the clashes
  have h6 : (2 ^ log2ceil N + B - 1) / B ≤ 14 := by
    have := two_pow_log2ceil_lt N (by omega)
    rw [Nat.div_le_iff_le_mul_add_pred (by omega)]
    omega
  have h7 := le_two_pow_log2ceil N
  have h8 : N * N * ((2 ^ log2ceil N + B - 1) / B) ≤ 2 ^ log2ceil N * 2 ^ log2ceil N * 14 := Nat.mul_le_mul (Nat.mul_le_mul h7 h7) h6
  have h9 : (2 ^ (log2ceil N + (statSec + log2ceil N - 1)) : ℕ) = 2 ^ log2ceil N * 2 ^ log2ceil N * 2 ^ (statSec - 1) := by
    rw [← Nat.pow_add, ← Nat.pow_add]
    congr 1
    omega
  have hq : ((N * N * ((2 ^ log2ceil N + B - 1) / B) : ℕ) : ℝ≥0∞) * ((2 ^ (log2ceil N + (initBits statSec N none).1) : ℕ) : ℝ≥0∞)⁻¹ ≤
      14 * ((2 ^ (statSec - 1) : ℕ) : ℝ≥0∞)⁻¹ := by
    rw [C124_input_bits statSec N hN64 (by omega) hsec]
    simp only
    rw [h9]
    calc ((N * N * ((2 ^ log2ceil N + B - 1) / B) : ℕ) : ℝ≥0∞) * ((2 ^ log2ceil N * 2 ^ log2ceil N * 2 ^ (statSec - 1) : ℕ) : ℝ≥0∞)⁻¹
        ≤ ((2 ^ log2ceil N * 2 ^ log2ceil N * 14 : ℕ) : ℝ≥0∞) * ((2 ^ log2ceil N * 2 ^ log2ceil N * 2 ^ (statSec - 1) : ℕ) : ℝ≥0∞)⁻¹ := by gcongr
      _ = 14 * ((2 ^ (statSec - 1) : ℕ) : ℝ≥0∞)⁻¹ := by
          rw [Nat.cast_mul (2 ^ log2ceil N * 2 ^ log2ceil N) 14, Nat.cast_mul (2 ^ log2ceil N * 2 ^ log2ceil N) (2 ^ (statSec - 1)),
            ENNReal.mul_inv (.inr (ENNReal.natCast_ne_top _)) (.inl (ENNReal.natCast_ne_top _)), mul_comm ((2 ^ log2ceil N * 2 ^ log2ceil N : ℕ) : ℝ≥0∞),
            mul_assoc, ← mul_assoc ((2 ^ log2ceil N * 2 ^ log2ceil N : ℕ) : ℝ≥0∞), ENNReal.mul_inv_cancel (by simp) (ENNReal.natCast_ne_top _), one_mul]
          norm_num
  obtain ⟨k, rfl⟩ : ∃ k, statSec = k + 7 := ⟨statSec - 7, by omega⟩
  refine (add_le_add (mul_le_mul_right hover2 2) (mul_le_mul_right hq 2)).trans ?_
  have e1 : ((2 ^ (k + 7) : ℕ) : ℝ≥0∞)⁻¹ = 128⁻¹ * ((2 ^ k : ℕ) : ℝ≥0∞)⁻¹ := by
    rw [Nat.pow_add, Nat.cast_mul, ENNReal.mul_inv (.inr (ENNReal.natCast_ne_top _)) (.inl (ENNReal.natCast_ne_top _)), mul_comm]
    norm_num
  have e2 : ((2 ^ (k + 7 - 1) : ℕ) : ℝ≥0∞)⁻¹ = 64⁻¹ * ((2 ^ k : ℕ) : ℝ≥0∞)⁻¹ := by
    rw [show k + 7 - 1 = k + 6 by omega, Nat.pow_add, Nat.cast_mul, ENNReal.mul_inv (.inr (ENNReal.natCast_ne_top _)) (.inl (ENNReal.natCast_ne_top _)), mul_comm]
    norm_num
  rw [e1, e2, show k + 7 - 7 = k by omega, ← mul_assoc, ← mul_assoc, ← mul_assoc, ← mul_assoc, ← add_mul]
  calc (2 * 4 * 128⁻¹ + 2 * 14 * 64⁻¹) * ((2 ^ k : ℕ) : ℝ≥0∞)⁻¹ ≤ 1 * ((2 ^ k : ℕ) : ℝ≥0∞)⁻¹ := by
        gcongr
        have : (2 * 4 * 128⁻¹ + 2 * 14 * 64⁻¹ : ℝ≥0∞) = ENNReal.ofReal (1 / 2) := by
          rw [show (2 * 4 * 128⁻¹ + 2 * 14 * 64⁻¹ : ℝ≥0∞) = ((2 * 4 * 128⁻¹ + 2 * 14 * 64⁻¹ : NNReal) : ℝ≥0∞) by push_cast; norm_num,
            ENNReal.ofReal, ENNReal.coe_inj]
          ext
          rw [Real.coe_toNNReal _ (by norm_num)]
          norm_num
        rw [this]
        exact ENNReal.ofReal_le_one.mpr (by norm_num)
    _ = ((2 ^ k : ℕ) : ℝ≥0∞)⁻¹ := one_mul _

/-- C175, with the parameters of the code: the bins and the length of the OT inputs contribute at most `2^-(statSec - 7)`. -/
theorem C175_default (hu : Uniform μ Set.univ (2 ^ 128) fun ω p => (u ω p).toNat) (hh : Uniform ν Set.univ (2 ^ 128) fun ω x => (h ω x).toNat) (c : Cfg)
    (statSec e : Nat) (X Y : List Block) (sbins rbins : Ω → Nat → List Nat) (sLoad rOwn : Ω → Nat → Nat) (s : Ω → Sched) (hX : X.length = c.N)
    (hY : Y.length = c.N) (hn : X.Nodup) (hn' : Y.Nodup) (hN : c.N < 2 ^ 31) (hN8 : 8 ≤ c.N) (hB : c.B = c.N / 4)
    (hM : BinSize.Returns c.B c.N statSec (.ok c.M)) (hM8 : 8 ≤ c.M) (hs7 : 7 ≤ statSec) (hL : log2ceil c.N + (statSec + log2ceil c.N - 1) ≤ 128)
    (hS : ∀ ω, Filled c (binOf (h ω) c.N c.B) X (sbins ω)) (hR : ∀ ω, Filled c (binOf (h ω) c.N c.B) Y (rbins ω))
    (hr : ∀ ω, ¬ Overfull c (sbins ω) → ¬ Overfull c (rbins ω) → Run c (some (h ω)) X Y (sbins ω) (rbins ω) (sLoad ω) (rOwn ω) (s ω))
    (ho : ∀ ω b, b < c.B → rOwn ω b ≤ c.M) (he : ∀ ω, (s ω).extra ≤ e) :
    ∫⁻ ω, μ {ω' | Fails c (initBits statSec c.N none).1 (h ω) (u ω') X Y (sbins ω) (rbins ω) (sLoad ω) (rOwn ω) (s ω)} ∂ν ≤
      (((c.N * c.M + e) * (c.N * c.M) : ℕ) * ((2 ^ (8 * c.ms) : ℕ) : ℝ≥0∞)⁻¹ +
        ENNReal.ofReal (((c.N * c.M : ℕ) : ℝ) * (((c.N * c.M : ℕ) : ℝ) + 1) / 2 ^ 65)) + ((2 ^ (statSec - 7) : ℕ) : ℝ≥0∞)⁻¹ := by
  have hbits := C124_input_bits statSec c.N (by omega) (by omega) (by omega)
  exact (C175_loads hu hh c _ e X Y sbins rbins sLoad rOwn s hX hY hn hn' (by omega) (by omega) (by rw [hbits]; exact hL) hS hR hr ho he).trans
    (add_le_add le_rfl (quarter_bound c.N c.B c.M statSec hN hN8 hB hM hM8 hs7 (by omega)))

end

/-! ### non-vacuity -/

/-- Random values as assumed exist. -/
example : (∃ (Ω : Type) (_ : MeasurableSpace Ω) (μ : Measure Ω) (u : Ω → OtPt → Block), Uniform μ Set.univ (2 ^ 128) fun ω p => (u ω p).toNat) ∧
    ∃ (Ω : Type) (_ : MeasurableSpace Ω) (ν : Measure Ω) (h : Ω → Block → Block), Uniform ν Set.univ (2 ^ 128) fun ω x => (h ω x).toNat := by
  obtain ⟨μ, hμ⟩ := Coll.exists_uniform_any OtPt (2 ^ 128) (by positivity)
  obtain ⟨ν, hν⟩ := Coll.exists_uniform_any Block (2 ^ 128) (by positivity)
  exact ⟨⟨_, _, μ, fun ω x => BitVec.ofFin (ω x), hμ⟩, _, _, ν, fun ω x => BitVec.ofFin (ω x), hν⟩

/-- A run as assumed, for any hash function with which no bin is too full: one thread, loads that are the size of the bins, threads in order. -/
example (h : Block → Block) (X Y : List Block) (hX : X.length = 4) (hY : Y.length = 4) (c : Cfg)
    (hc : c = ⟨4, 2, 4, 1, 8, fun _ _ x => x, fun _ _ x => x⟩) :
    ∃ (sbins rbins : Nat → List Nat) (s : Sched), Filled c (binOf h c.N c.B) X sbins ∧ Filled c (binOf h c.N c.B) Y rbins ∧
      (¬ Overfull c sbins → ¬ Overfull c rbins → Run c (some h) X Y sbins rbins (fun _ => 4) (fun _ => 4) s) := by
  subst hc
  refine ⟨fun b => (List.range 4).filter fun i => binOf h 4 2 (X.getD i 0) == b, fun b => (List.range 4).filter fun i => binOf h 4 2 (Y.getD i 0) == b,
    ⟨[0], id, id, fun _ => List.range 4, fun _ => List.range 4, 0, fun _ => 0⟩, fun _ _ => List.Perm.refl _, fun _ _ => List.Perm.refl _, fun o1 o2 => ?_⟩
  have hl : ∀ (p : Nat → Bool), ((List.range 4).filter p).length ≤ 4 := fun p => (List.length_filter_le _ _).trans (by simp)
  have hS := Filled.toPlaced (c := ⟨4, 2, 4, 1, 8, fun _ _ x => x, fun _ _ x => x⟩) (h := h) (X := X) (fun _ _ => List.Perm.refl _) hX o1
  have hR := Filled.toPlaced (c := ⟨4, 2, 4, 1, 8, fun _ _ x => x, fun _ _ x => x⟩) (h := h) (X := Y) (fun _ _ => List.Perm.refl _) hY o2
  refine ⟨by decide, by decide, by decide, by decide, by decide, hS, hR, fun b _ => hl _, fun b _ => hl _, fun _ _ => by decide,
    fun _ _ => List.Perm.refl _, fun _ _ => List.Perm.refl _, List.Perm.refl _, fun _ => List.Perm.refl _, fun _ => List.Perm.refl _, by decide, ?_⟩
  have hrc := realCount_le (c := ⟨4, 2, 4, 1, 8, fun _ _ x => x, fun _ _ x => x⟩) (load := fun _ => max 4 4) (by decide) (by decide) (hS.holds (by decide)) 4
    (fun _ _ => by decide)
  exact lt_of_le_of_lt (Nat.mul_le_mul_right _ (Nat.add_le_add_right hrc _)) (by decide)

end Verif.Grr18
