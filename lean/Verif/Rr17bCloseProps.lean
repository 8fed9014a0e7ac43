import Verif.Rr17bCloseLemmas
import Verif.AverageLemmas
import Verif.DomProps
import Verif.BinSizeProps
/-
Property C170: what the receiver of RR17b learns when the elements are hashed.
-/
namespace Verif.Rr17b
open Verif Rr17 MeasureTheory Coll
open scoped ENNReal

/-- Average over all opening values and all orders of the records. -/
noncomputable def average (N : Nat) (F : (Fin N → Fin (2 ^ 128)) → Equiv.Perm (Fin N) → ℝ≥0∞) : ℝ≥0∞ :=
  (∑ r, ∑ σ, F r σ) / (Fintype.card (Fin N → Fin (2 ^ 128)) * Fintype.card (Equiv.Perm (Fin N)) : ℕ)

theorem average_le_one {N : Nat} {F : (Fin N → Fin (2 ^ 128)) → Equiv.Perm (Fin N) → ℝ≥0∞} (h : ∀ r σ, F r σ ≤ 1) : average N F ≤ 1 := by
  unfold average
  refine ENNReal.div_le_of_le_mul ?_
  rw [one_mul, Nat.cast_mul]
  refine (Finset.sum_le_sum fun r _ => Finset.sum_le_sum fun σ _ => h r σ).trans ?_
  simp only [Finset.sum_const, Finset.card_univ, nsmul_eq_mul, mul_one]
  exact le_rfl

theorem otOf_inj {h : Block → Block} {N B L : Nat} {x y : Block} (e : otOf h N B L x = otOf h N B L y) :
    (phase N B (h x)).2.toNat % 2 ^ L = (phase N B (h y)).2.toNat % 2 ^ L := by
  have e := congrArg BitVec.toNat e
  unfold otOf at e
  have hlt : ∀ v : Block, v.toNat % 2 ^ L < 2 ^ 128 := fun v => lt_of_le_of_lt (Nat.mod_le _ _) v.isLt
  rwa [BitVec.toNat_ofNat, BitVec.toNat_ofNat, Nat.mod_eq_of_lt (hlt _), Nat.mod_eq_of_lt (hlt _)] at e

theorem distinct_of {h : Block → Block} {N B L : Nat} {X : List Block} (hn : X.Nodup) (hc : ¬ SomeClash h N B L X X) :
    Distinct (binOf h N B) (otOf h N B L) X := by
  refine List.Nodup.map_on ?_ hn
  intro x hx y hy e
  simp only [Prod.mk.injEq] at e
  by_contra hne
  exact hc ⟨x, hx, y, hy, hne, e.1, otOf_inj e.2⟩

theorem box_bound (k N B w q : Nat) (hw : 0 < w) (hB : 0 < B) (hq : q * B ≤ w + B) :
    (k : ℝ≥0∞) * (((w * q : ℕ) : ℝ≥0∞) ^ N * (((w * w : ℕ) : ℝ≥0∞) ^ N)⁻¹) ≤ ENNReal.ofReal ((k : ℝ) / (B : ℝ) ^ N * (1 + B / (w : ℝ)) ^ N) := by
  have hw' : (0 : ℝ) < w := by exact_mod_cast hw
  have hB' : (0 : ℝ) < B := by exact_mod_cast hB
  have hlhs : (k : ℝ≥0∞) * (((w * q : ℕ) : ℝ≥0∞) ^ N * (((w * w : ℕ) : ℝ≥0∞) ^ N)⁻¹) =
      ENNReal.ofReal ((k : ℝ) * (((w * q : ℕ) : ℝ) ^ N * (((w * w : ℕ) : ℝ) ^ N)⁻¹)) := by
    rw [ENNReal.ofReal_mul (by positivity), ENNReal.ofReal_mul (by positivity), ENNReal.ofReal_inv_of_pos (by push_cast; positivity),
      ENNReal.ofReal_pow (by positivity), ENNReal.ofReal_pow (by positivity), ENNReal.ofReal_natCast, ENNReal.ofReal_natCast,
      ENNReal.ofReal_natCast]
  rw [hlhs]
  apply ENNReal.ofReal_le_ofReal
  have hq' : (q : ℝ) * B ≤ w + B := by exact_mod_cast hq
  have h5 : (q : ℝ) / w ≤ (1 + B / w) / B := by
    rw [div_le_div_iff₀ hw' hB', add_mul, one_mul, div_mul_cancel₀ _ hw'.ne']
    exact hq'
  have e6 : ((w * q : ℕ) : ℝ) ^ N * (((w * w : ℕ) : ℝ) ^ N)⁻¹ = ((q : ℝ) / w) ^ N := by
    rw [← div_eq_mul_inv, ← div_pow]
    congr 1
    push_cast
    rw [mul_div_mul_left _ _ hw'.ne']
  rw [e6]
  calc (k : ℝ) * ((q : ℝ) / w) ^ N ≤ (k : ℝ) * ((1 + B / w) / B) ^ N := by gcongr
    _ = _ := by rw [div_pow]; ring

/-- The bins of the addresses are not quite equally likely. -/
theorem grow_le (n : Nat) (hn : n < 2 ^ 31) : (1 + (n : ℝ) / 2 ^ 64) ^ n ≤ 2 := by
  have hn' : (n : ℝ) ≤ 2 ^ 31 := by exact_mod_cast hn.le
  have h1 : (n : ℝ) * ((n : ℝ) / 2 ^ 64) ≤ 1 / 2 := by
    calc (n : ℝ) * ((n : ℝ) / 2 ^ 64) ≤ 2 ^ 31 * (2 ^ 31 / 2 ^ 64) := by gcongr
      _ ≤ 1 / 2 := by norm_num
  have h2 : 1 + (n : ℝ) / 2 ^ 64 ≤ Real.exp ((n : ℝ) / 2 ^ 64) := by
    have := Real.add_one_le_exp ((n : ℝ) / 2 ^ 64)
    linarith
  calc (1 + (n : ℝ) / 2 ^ 64) ^ n ≤ Real.exp ((n : ℝ) / 2 ^ 64) ^ n := by gcongr
    _ = Real.exp ((n : ℝ) * ((n : ℝ) / 2 ^ 64)) := by rw [← Real.exp_nat_mul]
    _ ≤ Real.exp (1 / 2) := Real.exp_le_exp.mpr h1
    _ ≤ 2 := by
        have h3 : Real.exp (1 / 2) ^ 2 = Real.exp 1 := by rw [← Real.exp_nat_mul]; norm_num
        have h4 := Real.exp_one_lt_d9
        nlinarith [Real.exp_pos (1 / 2)]

theorem total_le (x : ℝ) (s : Nat) (hs : 5 ≤ s) (hx : x ≤ 4 * (2 ^ s)⁻¹) :
    2 * ENNReal.ofReal x + 4 * ((2 ^ (s - 2) : ℕ) : ℝ≥0∞)⁻¹ ≤ ((2 ^ (s - 5) : ℕ) : ℝ≥0∞)⁻¹ := by
  have e : ∀ k : Nat, ((2 ^ k : ℕ) : ℝ≥0∞)⁻¹ = ENNReal.ofReal ((2 ^ k : ℝ)⁻¹) := by
    intro k
    rw [ENNReal.ofReal_inv_of_pos (by positivity), ENNReal.ofReal_pow (by norm_num)]
    simp
  rw [e, e, show (2 : ℝ≥0∞) = ENNReal.ofReal 2 by simp, show (4 : ℝ≥0∞) = ENNReal.ofReal 4 by simp, ← ENNReal.ofReal_mul (by norm_num),
    ← ENNReal.ofReal_mul (by norm_num)]
  obtain ⟨k, rfl⟩ : ∃ k, s = k + 5 := ⟨s - 5, by omega⟩
  rw [show k + 5 - 2 = k + 3 by omega, show k + 5 - 5 = k by omega]
  refine (add_le_add (ENNReal.ofReal_le_ofReal (mul_le_mul_of_nonneg_left hx (by norm_num))) le_rfl).trans ?_
  rw [← ENNReal.ofReal_add (by positivity) (by positivity)]
  apply ENNReal.ofReal_le_ofReal
  rw [pow_add, pow_add, mul_inv, mul_inv]
  have : (0 : ℝ) < (2 ^ k)⁻¹ := by positivity
  nlinarith

section
variable {Ω Ω' : Type} [MeasurableSpace Ω] [MeasurableSpace Ω'] {ν : Measure Ω} {μ : Measure Ω'} {h : Ω → Block → Block} {g : Ω' → Pt → Nat}

/-- C170, elements not hashed to a smaller domain: for any function that gives the addresses, two sets of the sender with the same common elements, anywhere in
its list, give every event about the receiver's view the same probability. -/
theorem C170_plain (hu : Uniform μ Set.univ (2 ^ 160) g) (c : Cfg Nat) (aes : Block → Block) (X X' Y : List Block)
    (sbins sbins' : Nat → List Nat) (hX : X.length = c.N) (hX' : X'.length = c.N) (hn : X.Nodup) (hn' : X'.Nodup)
    (hT : 0 < c.T) (hd : c.T ∣ c.B) (hB : 0 < c.B) (hov : (c.B + c.T) * c.T < 2 ^ 64)
    (hS : Filled c (fun x => (phaseB aes c.B x).1) X sbins) (hS' : Filled c (fun x => (phaseB aes c.B x).1) X' sbins')
    (ho : ¬ Overfull c sbins) (ho' : ¬ Overfull c sbins')
    (A : List (Nat × Nat × Block)) (Q : List (Block × Block)) (hA : Asks c Y (fun x => (phaseB aes c.B x).2) (fun x => (phaseB aes c.B x).1) A)
    (hQ : ∀ q ∈ Q, q.1 ∈ Y) (hs : SameCommon X X' Y) (E : Set (View A Q)) :
    average c.N (fun r σ => μ {ω | view c X (fun x => (phaseB aes c.B x).2) (openings r) (orderList σ) sbins A Q (g ω) ∈ E}) =
      average c.N fun r σ => μ {ω | view c X' (fun x => (phaseB aes c.B x).2) (openings r) (orderList σ) sbins' A Q (g ω) ∈ E} := by
  have hdis : ∀ X : List Block, X.Nodup → Distinct (fun x => (phaseB aes c.B x).1) (fun x => (phaseB aes c.B x).2) X := by
    intro X hn
    refine List.Nodup.map_on ?_ hn
    intro x _ y _ e
    simp only [Prod.mk.injEq] at e
    exact e.2
  have hlt : ∀ x, (phaseB aes c.B x).1 < c.B := fun x => Nat.mod_lt _ hB
  unfold average
  rw [hidden_sum hu c X X' Y _ (fun x => (phaseB aes c.B x).1) sbins sbins' hX hX' hT hd hov (hS.placed hlt ho) (hS'.placed hlt ho')
    (hdis X hn) (hdis X' hn') (fun x _ y _ _ e => e) A Q hA hQ hs E]

/-- How likely it is that a bin gets more elements than it can hold, for a random hash function: at most this much more than for elements that go to
random bins (C87). -/
theorem C170_overfull (hu : Uniform ν Set.univ (2 ^ 128) fun ω x => (h ω x).toNat) (c : Cfg Nat) (hB : 0 < c.B) (X : List Block)
    (hX : X.length = c.N) (hn : X.Nodup) (bins : Ω → Nat → List Nat) (hb : ∀ ω, Filled c (binOf (h ω) c.N c.B) X (bins ω)) :
    ν {ω | Overfull c (bins ω)} ≤ ENNReal.ofReal (BinSize.overflowProb c.B c.N c.M * (1 + c.B / 2 ^ 64) ^ c.N) := by
  classical
  let bad := Finset.univ.filter fun a : Fin c.N → Fin c.B => ∃ b : Fin c.B, c.M < BinSize.load a b
  let S : Fin c.B → Finset Nat := fun r => (Finset.range (2 ^ 128)).filter fun v => v % 2 ^ 64 % c.B = r
  have hS : ∀ r, (S r).card ≤ 2 ^ 64 * ((2 ^ 64 + c.B - 1) / c.B) := by
    intro r
    refine fibre_card 64 0 c.B (by omega) (by omega) hB r 0 (S r) fun v hv => ?_
    obtain ⟨h1, h2⟩ := Finset.mem_filter.mp hv
    exact ⟨Finset.mem_range.mp h1, h2, by rw [Nat.pow_zero, Nat.mod_one]⟩
  let pts : Fin c.N → Block := fun i => X.getD i 0
  have hpts : Function.Injective pts := by
    intro i j e
    simp only [pts] at e
    rw [Kkrt.getD_eq (by omega), Kkrt.getD_eq (by omega)] at e
    exact Fin.ext ((List.Nodup.getElem_inj_iff hn).mp e)
  have hsub : {ω | Overfull c (bins ω)} ⊆ ⋃ a ∈ bad, {ω | ∀ i, (h ω (pts i)).toNat ∈ S (a i)} := by
    rintro ω ⟨b, hbB, hl⟩
    let a : Fin c.N → Fin c.B := fun i => ⟨binOf (h ω) c.N c.B (pts i), Nat.mod_lt _ hB⟩
    have hload : BinSize.load a ⟨b, hbB⟩ = (bins ω b).length := by
      rw [(hb ω b hbB).length_eq, ← BinSize.load_eq, BinSize.jobs, List.filter_map, List.length_map, ← List.map_coe_finRange_eq_range,
        List.filter_map, List.length_map]
      rfl
    refine Set.mem_biUnion (x := a) (Finset.mem_filter.mpr ⟨Finset.mem_univ _, ⟨b, hbB⟩, by rw [hload]; exact hl⟩) fun i => ?_
    refine Finset.mem_filter.mpr ⟨Finset.mem_range.mpr (BitVec.isLt _), ?_⟩
    show (h ω (pts i)).toNat % 2 ^ 64 % c.B = binOf (h ω) c.N c.B (pts i)
    unfold binOf phase addr
    rw [low64]
  refine (measure_mono hsub).trans ((measure_biUnion_finset_le _ _).trans ?_)
  have h1 : ∀ a ∈ bad, ν {ω | ∀ i, (h ω (pts i)).toNat ∈ S (a i)} ≤
      ((2 ^ 64 * ((2 ^ 64 + c.B - 1) / c.B) : ℕ) : ℝ≥0∞) ^ c.N * (((2 ^ 128 : ℕ) : ℝ≥0∞) ^ c.N)⁻¹ := by
    intro a _
    exact hu.box pts hpts (fun _ => trivial) (fun i => S (a i)) (fun i v hv => Finset.mem_range.mp (Finset.mem_filter.mp hv).1) _
      fun i => hS (a i)
  refine (Finset.sum_le_sum h1).trans ?_
  rw [Finset.sum_const, nsmul_eq_mul]
  have e2 : (2 ^ 128 : ℕ) = 2 ^ 64 * 2 ^ 64 := by rw [← Nat.pow_add]
  rw [e2]
  have e3 : (2 : ℝ) ^ 64 = ((2 ^ 64 : ℕ) : ℝ) := by norm_num
  rw [e3]
  have e4 : BinSize.overflowProb c.B c.N c.M = (bad.card : ℝ) / (c.B : ℝ) ^ c.N := by
    unfold BinSize.overflowProb
    have : bad = Finset.univ.filter fun a : Fin c.N → Fin c.B => ∃ b : Fin c.B, c.M < BinSize.load a b := by
      ext a
      simp only [bad, Finset.mem_filter]
    rw [this]
  rw [e4]
  exact box_bound bad.card c.N c.B (2 ^ 64) _ (by positivity) hB ((Nat.div_mul_le_self _ _).trans (Nat.sub_le _ _))

/-- C170, elements hashed to a smaller domain. Whatever an honest receiver decides from the hash function, its OT values, the commitments that it computes and
the sender's buffer, its probability is the same for two sets of the sender with the same common elements, anywhere in its list, up to the probabilities
that a bin gets too many elements and that two elements have the same address and OT input. -/
theorem C170_hashed (hu : Uniform μ Set.univ (2 ^ 160) g) (hh : Uniform ν Set.univ (2 ^ 128) fun ω x => (h ω x).toNat) (c : Cfg Nat) (L : Nat)
    (X X' Y : List Block) (sbins sbins' : Ω → Nat → List Nat) (hX : X.length = c.N) (hX' : X'.length = c.N) (hY : Y.length = c.N) (hn : X.Nodup)
    (hn' : X'.Nodup) (hT : 0 < c.T) (hd : c.T ∣ c.B) (hB : 0 < c.B) (hov : (c.B + c.T) * c.T < 2 ^ 64) (hN : c.N < 2 ^ 64)
    (hL : log2ceil c.N + L ≤ 128) (hS : ∀ ω, Filled c (binOf (h ω) c.N c.B) X (sbins ω))
    (hS' : ∀ ω, Filled c (binOf (h ω) c.N c.B) X' (sbins' ω))
    (A : Ω → List (Nat × Nat × Block)) (Q : Ω → List (Block × Block))
    (hA : ∀ ω, Asks c Y (otOf (h ω) c.N c.B L) (binOf (h ω) c.N c.B) (A ω))
    (hQ : ∀ ω, ∀ q ∈ Q ω, q.1 ∈ Y) (hs : SameCommon X X' Y) (E : ∀ ω, Set (View (A ω) (Q ω))) :
    ∫⁻ ω, average c.N (fun r σ =>
        μ {ω' | view c X (otOf (h ω) c.N c.B L) (openings r) (orderList σ) (sbins ω) (A ω) (Q ω) (g ω') ∈ E ω}) ∂ν ≤
      ∫⁻ ω, average c.N (fun r σ =>
        μ {ω' | view c X' (otOf (h ω) c.N c.B L) (openings r) (orderList σ) (sbins' ω) (A ω) (Q ω) (g ω') ∈ E ω}) ∂ν +
      (2 * ENNReal.ofReal (BinSize.overflowProb c.B c.N c.M * (1 + c.B / 2 ^ 64) ^ c.N) +
        4 * ((c.N * c.N * ((2 ^ log2ceil c.N + c.B - 1) / c.B) : ℕ) * ((2 ^ (log2ceil c.N + L) : ℕ) : ℝ≥0∞)⁻¹)) := by
  have h1 := average_close (ν := ν)
    (fun ω => average c.N fun r σ => μ {ω' | view c X (otOf (h ω) c.N c.B L) (openings r) (orderList σ) (sbins ω) (A ω) (Q ω) (g ω') ∈ E ω})
    (fun ω => average c.N fun r σ => μ {ω' | view c X' (otOf (h ω) c.N c.B L) (openings r) (orderList σ) (sbins' ω) (A ω) (Q ω) (g ω') ∈ E ω})
    (({ω | Overfull c (sbins ω)} ∪ {ω | Overfull c (sbins' ω)}) ∪
      (({ω | SomeClash (h ω) c.N c.B L X X} ∪ {ω | SomeClash (h ω) c.N c.B L X' X'}) ∪
        ({ω | SomeClash (h ω) c.N c.B L X Y} ∪ {ω | SomeClash (h ω) c.N c.B L X' Y}))) 0 (Uniform.univ hh)
    (fun ω => average_le_one fun r σ => (measure_mono (Set.subset_univ _)).trans hu.univ.le) (fun ω hω => ?_)
  · refine h1.trans (add_le_add le_rfl ?_)
    rw [zero_add]
    have ho := C170_overfull hh c hB X hX hn sbins hS
    have ho' := C170_overfull hh c hB X' hX' hn' sbins' hS'
    have hc : ∀ P R : List Block, P.length = c.N → R.length = c.N → ν {ω | SomeClash (h ω) c.N c.B L P R} ≤
        (c.N * c.N * ((2 ^ log2ceil c.N + c.B - 1) / c.B) : ℕ) * ((2 ^ (log2ceil c.N + L) : ℕ) : ℝ≥0∞)⁻¹ := by
      intro P R hP hR
      have := C124_error_partial hh c.N c.B L hN hB hL P R
      rwa [hP, hR] at this
    have c1 := hc X X hX hX
    have c2 := hc X' X' hX' hX'
    have c3 := hc X Y hX hY
    have c4 := hc X' Y hX' hY
    refine (measure_union_le _ _).trans (add_le_add ?_ ?_)
    · refine (measure_union_le _ _).trans ?_
      rw [two_mul]
      exact add_le_add ho ho'
    · refine (measure_union_le _ _).trans ?_
      rw [show (4 : ℝ≥0∞) = 2 + 2 by norm_num, add_mul, two_mul]
      exact add_le_add ((measure_union_le _ _).trans (add_le_add c1 c2)) ((measure_union_le _ _).trans (add_le_add c3 c4))
  · simp only [Set.mem_union, not_or, Set.mem_ofPred_eq] at hω
    obtain ⟨⟨o1, o2⟩, ⟨⟨s1, s2⟩, s3, s4⟩⟩ := hω
    rw [add_zero]
    have hlt : ∀ x, binOf (h ω) c.N c.B x < c.B := fun x => Nat.mod_lt _ hB
    refine le_of_eq ?_
    unfold average
    rw [hidden_sum hu c X X' Y _ (binOf (h ω) c.N c.B) (sbins ω) (sbins' ω) hX hX' hT hd hov ((hS ω).placed hlt o1) ((hS' ω).placed hlt o2)
      (distinct_of hn s1) (distinct_of hn' s2) ?_ (A ω) (Q ω) (hA ω) (hQ ω) hs (E ω)]
    intro x hx y hy e1 e2
    by_contra hne
    rcases hx with hx | hx
    · exact s3 ⟨x, hx, y, hy, hne, e1, otOf_inj e2⟩
    · exact s4 ⟨x, hx, y, hy, hne, e1, otOf_inj e2⟩

/-- C170, with the length of the OT input that the code chooses and at least as many bins as elements: `4 / 2^(statSec - 2)` for the second probability. -/
theorem C170_bits (N B statSec : Nat) (hN0 : 0 < N) (hN : N < 2 ^ 64) (hB : N ≤ B) (hs : 2 ≤ statSec) (hs' : statSec ≤ 2 ^ 32) :
    4 * ((N * N * ((2 ^ log2ceil N + B - 1) / B) : ℕ) * ((2 ^ (log2ceil N + (initBits statSec N none).1) : ℕ) : ℝ≥0∞)⁻¹) ≤
      4 * ((2 ^ (statSec - 2) : ℕ) : ℝ≥0∞)⁻¹ := by
  rw [C124_input_bits statSec N hN (by omega) hs']
  gcongr 4 * ?_
  have h2 : (2 ^ log2ceil N + B - 1) / B ≤ 2 := by
    have := two_pow_log2ceil_lt N hN0
    rw [Nat.div_le_iff_le_mul_add_pred (by omega)]
    omega
  have h3 := le_two_pow_log2ceil N
  have h4 : N * N * ((2 ^ log2ceil N + B - 1) / B) ≤ 2 ^ log2ceil N * 2 ^ log2ceil N * 2 :=
    Nat.mul_le_mul (Nat.mul_le_mul h3 h3) h2
  have h5 : (2 ^ (log2ceil N + (statSec + log2ceil N - 1)) : ℕ) = 2 ^ log2ceil N * 2 ^ log2ceil N * 2 * 2 ^ (statSec - 2) := by
    rw [← Nat.pow_add, ← Nat.pow_succ, ← Nat.pow_add]
    congr 1
    omega
  simp only
  rw [h5]
  calc ((N * N * ((2 ^ log2ceil N + B - 1) / B) : ℕ) : ℝ≥0∞) * ((2 ^ log2ceil N * 2 ^ log2ceil N * 2 * 2 ^ (statSec - 2) : ℕ) : ℝ≥0∞)⁻¹
      ≤ ((2 ^ log2ceil N * 2 ^ log2ceil N * 2 : ℕ) : ℝ≥0∞) * ((2 ^ log2ceil N * 2 ^ log2ceil N * 2 * 2 ^ (statSec - 2) : ℕ) : ℝ≥0∞)⁻¹ := by
        gcongr
    _ = ((2 ^ (statSec - 2) : ℕ) : ℝ≥0∞)⁻¹ := by
        rw [Nat.cast_mul (2 ^ log2ceil N * 2 ^ log2ceil N * 2), ENNReal.mul_inv (.inr (by simp)) (.inl (ENNReal.natCast_ne_top _)), ← mul_assoc,
          ENNReal.mul_inv_cancel (by simp) (ENNReal.natCast_ne_top _), one_mul]

/-- The bound of `C170_hashed` with the parameters of the code. -/
theorem default_bound (N B M statSec : Nat) (hN : N < 2 ^ 31) (hN2 : 2 ≤ N) (hB : B = N) (hM : BinSize.Returns B N statSec (.ok M)) (hs5 : 5 ≤ statSec)
    (hsec : statSec ≤ 2 ^ 32) :
    2 * ENNReal.ofReal (BinSize.overflowProb B N M * (1 + B / 2 ^ 64) ^ N) +
        4 * ((N * N * ((2 ^ log2ceil N + B - 1) / B) : ℕ) * ((2 ^ (log2ceil N + (initBits statSec N none).1) : ℕ) : ℝ≥0∞)⁻¹) ≤
      ((2 ^ (statSec - 5) : ℕ) : ℝ≥0∞)⁻¹ := by
  have hN64 : N < 2 ^ 64 := by omega
  refine (add_le_add le_rfl (C170_bits N B statSec (by omega) hN64 (by omega) (by omega) hsec)).trans ?_
  obtain ⟨M₀, h1, h2, _, h3, _⟩ := BinSize.C86_search B N statSec (by omega) hN (by omega)
  have hMM : M = M₀ := by
    have := BinSize.C86_unique B N statSec _ _ hM h1
    injection this
  subst hMM
  have hover := BinSize.C87_bits_partial B N statSec M (by omega) (by omega) h3 h2 hN (by
    rw [hB]
    calc 2 * (N - M - 1) ≤ (M + 2) * (N - M - 1) := Nat.mul_le_mul_right _ (by omega)
      _ ≤ (M + 2) * (N - 1) := Nat.mul_le_mul_left _ (by omega))
  have hgrow : (1 + (B : ℝ) / 2 ^ 64) ^ N ≤ 2 := by
    rw [hB]
    exact grow_le N hN
  have hp : (2 : ℝ) ^ (-((statSec : ℝ) - 0.0001)) ≤ 2 * (2 ^ statSec)⁻¹ := by
    rw [show -((statSec : ℝ) - 0.0001) = 0.0001 + (-(statSec : ℝ)) by ring, Real.rpow_add (by norm_num), Real.rpow_neg (by norm_num),
      Real.rpow_natCast]
    have : (2 : ℝ) ^ (0.0001 : ℝ) ≤ 2 := by
      calc (2 : ℝ) ^ (0.0001 : ℝ) ≤ (2 : ℝ) ^ (1 : ℝ) := Real.rpow_le_rpow_of_exponent_le (by norm_num) (by norm_num)
        _ = 2 := Real.rpow_one 2
    gcongr
  have h0 : 0 ≤ BinSize.overflowProb B N M := by
    unfold BinSize.overflowProb
    positivity
  have hx : BinSize.overflowProb B N M * (1 + (B : ℝ) / 2 ^ 64) ^ N ≤ 4 * (2 ^ statSec)⁻¹ := by
    have h5 : BinSize.overflowProb B N M * (1 + (B : ℝ) / 2 ^ 64) ^ N ≤ (2 * (2 ^ statSec)⁻¹) * 2 :=
      mul_le_mul (hover.trans hp) hgrow (by positivity) (by positivity)
    linarith
  exact total_le _ statSec hs5 hx

/-- C170, with the parameters of the code: as many bins as elements, the size of the bins as `get_bin_size` computes it. Then the difference is at most
`2^-(statSec - 5)`. -/
theorem C170_default (hu : Uniform μ Set.univ (2 ^ 160) g) (hh : Uniform ν Set.univ (2 ^ 128) fun ω x => (h ω x).toNat) (c : Cfg Nat) (statSec : Nat)
    (X X' Y : List Block) (sbins sbins' : Ω → Nat → List Nat) (hX : X.length = c.N) (hX' : X'.length = c.N) (hY : Y.length = c.N) (hn : X.Nodup)
    (hn' : X'.Nodup) (hT : 0 < c.T) (hd : c.T ∣ c.B) (hov : (c.B + c.T) * c.T < 2 ^ 64) (hN : c.N < 2 ^ 31) (hN2 : 2 ≤ c.N) (hB : c.B = c.N)
    (hM : BinSize.Returns c.B c.N statSec (.ok c.M)) (hs5 : 5 ≤ statSec) (hL : log2ceil c.N + (statSec + log2ceil c.N - 1) ≤ 128)
    (hS : ∀ ω, Filled c (binOf (h ω) c.N c.B) X (sbins ω)) (hS' : ∀ ω, Filled c (binOf (h ω) c.N c.B) X' (sbins' ω))
    (A : Ω → List (Nat × Nat × Block)) (Q : Ω → List (Block × Block))
    (hA : ∀ ω, Asks c Y (otOf (h ω) c.N c.B (initBits statSec c.N none).1) (binOf (h ω) c.N c.B) (A ω))
    (hQ : ∀ ω, ∀ q ∈ Q ω, q.1 ∈ Y) (hs : SameCommon X X' Y) (E : ∀ ω, Set (View (A ω) (Q ω))) :
    ∫⁻ ω, average c.N (fun r σ => μ {ω' | view c X (otOf (h ω) c.N c.B (initBits statSec c.N none).1) (openings r) (orderList σ) (sbins ω)
        (A ω) (Q ω) (g ω') ∈ E ω}) ∂ν ≤
      ∫⁻ ω, average c.N (fun r σ => μ {ω' | view c X' (otOf (h ω) c.N c.B (initBits statSec c.N none).1) (openings r) (orderList σ) (sbins' ω)
        (A ω) (Q ω) (g ω') ∈ E ω}) ∂ν + ((2 ^ (statSec - 5) : ℕ) : ℝ≥0∞)⁻¹ := by
  have hN64 : c.N < 2 ^ 64 := by omega
  have hsec : statSec ≤ 2 ^ 32 := by omega
  have hbits := C124_input_bits statSec c.N hN64 (by omega) hsec
  refine (C170_hashed hu hh c _ X X' Y sbins sbins' hX hX' hY hn hn' hT hd (by omega) hov hN64 (by rw [hbits]; exact hL) hS hS' A Q hA hQ hs
    E).trans (add_le_add le_rfl ?_)
  exact default_bound c.N c.B c.M statSec hN hN2 hB hM hs5 hsec
end

/-! ### non-vacuity -/

/-- Random values as assumed exist. -/
example : (∃ (Ω : Type) (_ : MeasurableSpace Ω) (μ : Measure Ω) (g : Ω → Pt → Nat), Uniform μ Set.univ (2 ^ 160) g) ∧
    ∃ (Ω : Type) (_ : MeasurableSpace Ω) (ν : Measure Ω) (h : Ω → Block → Block), Uniform ν Set.univ (2 ^ 128) fun ω x => (h ω x).toNat := by
  obtain ⟨μ, hμ⟩ := Coll.exists_uniform_any Pt (2 ^ 160) (by positivity)
  obtain ⟨ν, hν⟩ := Coll.exists_uniform_any Block (2 ^ 128) (by positivity)
  exact ⟨⟨_, _, μ, _, hμ⟩, _, _, ν, fun ω x => BitVec.ofFin (ω x), hν⟩

/-- Bins as assumed, for any hash function. -/
example (c : Cfg Nat) (f : Block → Nat) (X : List Block) :
    Filled c f X fun b => (List.range c.N).filter fun i => f (X.getD i 0) == b := fun _ _ => List.Perm.refl _

/-- Sets as assumed: the common element is at different places. -/
example : SameCommon [4, 9] [7, 4] [3, (4 : Block)] ∧ ([4, 9] : List Block).Nodup ∧ ([7, 4] : List Block).Nodup := by
  refine ⟨fun y hy => ?_, by decide, by decide⟩
  simp only [List.mem_cons, List.not_mem_nil, or_false] at hy
  rcases hy with rfl | rfl
  · exact iff_of_false (by decide) (by decide)
  · exact iff_of_true (by decide) (by decide)

/-- What the receiver asks and computes, for any hash function. -/
example (c : Cfg Nat) (ot : Block → Block) (f : Block → Nat) (hM : 0 < c.M) :
    Asks c [3, 4] ot f [otPoint c f ot 3 0, otPoint c f ot 4 0] ∧ ∀ q ∈ [((3 : Block), (5 : Block))], q.1 ∈ ([3, 4] : List Block) := by
  refine ⟨fun a ha => ?_, by decide⟩
  simp only [List.mem_cons, List.not_mem_nil, or_false] at ha
  rcases ha with rfl | rfl
  · exact ⟨3, by simp, 0, hM, rfl⟩
  · exact ⟨4, by simp, 0, hM, rfl⟩

/-- Parameters as `C170_default` assumes them: 2^20 elements, 40 bits. -/
example : (∃ M, BinSize.Returns (2 ^ 20) (2 ^ 20) 40 (.ok M)) ∧ log2ceil (2 ^ 20) + (40 + log2ceil (2 ^ 20) - 1) ≤ 128 := by
  obtain ⟨M, h, _⟩ := BinSize.C86_search (2 ^ 20) (2 ^ 20) 40 (by omega) (by omega) (by omega)
  exact ⟨⟨M, h⟩, by decide +kernel⟩

/-- The bound can be small: bins that hold all elements are never too full. -/
example : BinSize.overflowProb 2 3 3 = 0 := by
  unfold BinSize.overflowProb
  have : (Finset.univ.filter fun a : Fin 3 → Fin 2 => ∃ b : Fin 2, 3 < BinSize.load a b) = ∅ := by
    apply Finset.filter_eq_empty_iff.mpr
    rintro a _ ⟨b, hb⟩
    have : BinSize.load a b ≤ 3 := (Finset.card_le_univ _).trans (by simp)
    omega
  rw [this]
  simp

end Verif.Rr17b
