import Verif.Rr17TotalSpec
import Verif.Rr17aMissProps
import Verif.Rr17aCloseProps
/-
Property C173: RR17a with one thread reports exactly the common elements, over the hash function and the OT values.
-/
namespace Verif.Rr17
open Verif MeasureTheory Coll
open Verif.Rr17b (binOf)
open scoped ENNReal

/-- Bins without overflow are as `Setup` wants them. -/
theorem Filled.toPlaced {c : Cfg} {h : Block → Block} {X : List Block} {bins : Nat → List Nat} (hf : Filled c (binOf h c.N c.B) X bins)
    (hX : X.length = c.N) (ho : ¬ Overfull c bins) : Placed c (hashed (some h) X) bins := by
  refine ⟨by simpa [hashed] using hX, fun b hb => ?_, fun b hb => ?_⟩
  · refine (hf b hb).trans (List.Perm.of_eq ?_)
    apply List.filter_congr
    intro i hi
    have hi : i < X.length := by rw [hX]; exact List.mem_range.mp hi
    rw [Kkrt.getD_eq hi, Kkrt.getD_eq (l := hashed (some h) X) (by simpa [hashed] using hi)]
    simp [hashed, binOf, phase]
  · by_contra hlt
    exact ho ⟨b, hb, by omega⟩

/-- Equal places of the OTs mean equal elements or a clash. -/
theorem low_eq {c : Cfg} {L : Nat} {h : Block → Block} {X Y : List Block} {t t' : Nat → Nat} {d d' : Bool} {i j k k' : Nat}
    (hX : X.length = c.N) (hY : Y.length = c.N) (ht : Threads c (hashed (some h) X) t) (ht' : Threads c (hashed (some h) Y) t')
    (hi : i < c.N) (hj : j < c.N) (hk : k < c.M) (hk' : k' < c.M) (hc : ¬ SomeClash h c.N c.B L X Y)
    (e : lowPt L (otPt c d t (hashed (some h) X) (otInputs (some h) c X) i k) =
      lowPt L (otPt c d' t' (hashed (some h) Y) (otInputs (some h) c Y) j k')) : X.getD i 0 = Y.getD j 0 ∧ k = k' := by
  let low : Block → Block := fun x => BitVec.ofNat 128 (x.toNat % 2 ^ L)
  have hi' : i < X.length := by omega
  have hj' : j < Y.length := by omega
  have g1 : ∀ (Z : List Block) (n : Nat) (hn : n < Z.length), (hashed (some h) Z).getD n 0 = h (Z.getD n 0) := by
    intro Z n hn
    rw [Kkrt.getD_eq hn, Kkrt.getD_eq (l := hashed (some h) Z) (by simpa [hashed] using hn)]
    simp [hashed]
  have g2 : ∀ (Z : List Block) (n : Nat) (hn : n < Z.length), (otInputs (some h) c Z).getD n 0 = (phase c.N c.B (h (Z.getD n 0))).2 := by
    intro Z n hn
    rw [Kkrt.getD_eq hn, Kkrt.getD_eq (l := otInputs (some h) c Z) (by simpa [otInputs, hashed] using hn)]
    simp [otInputs, hashed]
  have g3 : ∀ (Z : List Block) (n : Nat) (hn : n < Z.length), ((otInputs (some h) c Z).map low).getD n 0 =
      BitVec.ofNat 128 ((phase c.N c.B (h (Z.getD n 0))).2.toNat % 2 ^ L) := by
    intro Z n hn
    rw [← g2 Z n hn, Kkrt.getD_eq (l := (otInputs (some h) c Z).map low) (by simpa [otInputs, hashed] using hn),
      Kkrt.getD_eq (l := otInputs (some h) c Z) (by simpa [otInputs, hashed] using hn)]
    simp [low]
  have e' : otPt c d t (hashed (some h) X) ((otInputs (some h) c X).map low) i k =
      otPt c d' t' (hashed (some h) Y) ((otInputs (some h) c Y).map low) j k' := by
    unfold otPt at e ⊢
    unfold lowPt at e
    rw [g3 X i hi', g3 Y j hj', ← g2 X i hi', ← g2 Y j hj']
    exact e
  obtain ⟨_, e2, e3, e4⟩ := otPt_inj ht ht' hi hj hk hk' e'
  refine ⟨?_, e3⟩
  rw [g3 X i hi', g3 Y j hj'] at e4
  rw [g1 X i hi', g1 Y j hj'] at e2
  by_contra hne
  refine hc ⟨X.getD i 0, ?_, Y.getD j 0, ?_, hne, e2, Rr17b.otOf_inj e4⟩
  · rw [Kkrt.getD_eq hi']; exact List.getElem_mem _
  · rw [Kkrt.getD_eq hj']; exact List.getElem_mem _

/-- A run that reports nothing wrong and misses nothing reports exactly the common elements. -/
theorem exact_of {c : Cfg} {hash : Option (Block → Block)} {X Y : List Block} {sbins rbins perms : Nat → List Nat} {maskPerm sched : List Nat}
    (S : Setup c hash X Y sbins rbins perms maskPerm sched) (rnd : Nat → Nat → Nat) (u : OtPt → Block)
    (hw : ¬ Wrong X Y (online (withOt c u) (otInputs hash c X) (otInputs hash c Y) sbins rbins perms maskPerm rnd sched))
    (hm : ¬ Missed X Y (online (withOt c u) (otInputs hash c X) (otInputs hash c Y) sbins rbins perms maskPerm rnd sched)) :
    ReportExact X Y (online (withOt c u) (otInputs hash c X) (otInputs hash c Y) sbins rbins perms maskPerm rnd sched) := by
  obtain ⟨_, _, _, _, _, _, _, _, hrun⟩ := run_masks S rnd
  obtain ⟨buf, hb, _⟩ := hrun u
  have hb' : sendBuffer (withOt c u) (otInputs hash c X) sbins perms maskPerm (sched.foldl (sendStep sbins) (sendStart (withOt c u))) = .ok buf := hb
  obtain ⟨out, hout⟩ : ∃ out, online (withOt c u) (otInputs hash c X) (otInputs hash c Y) sbins rbins perms maskPerm rnd sched = .ok out := by
    unfold online
    rw [if_neg (show ¬ (withOt c u).ms > 16 from Nat.not_lt.mpr S.size'), hb']
    exact ⟨_, receive_ok (c := withOt c u) S.masks S.size _ _ _ _⟩
  refine ⟨out, hout, fun j => ⟨fun hj => ?_, fun ⟨hj, hx⟩ => ?_⟩⟩
  · by_contra hno
    exact hw ⟨out, hout, j, hj, hno⟩
  · by_contra hno
    refine hm ⟨j, hj, hx, ?_⟩
    rintro ⟨out', ho', hj'⟩
    rw [hout] at ho'
    injection ho' with ho'
    subst ho'
    exact hno hj'

section
variable {Ω Ω' : Type} [MeasurableSpace Ω] [MeasurableSpace Ω'] {ν : Measure Ω} {μ : Measure Ω'} {h : Ω → Block → Block} {u : Ω' → OtPt → Block}

/-- C173, a given hash function with which no bin is too full and no two different elements have the same address and bits of OT input: over random OT
values a run fails with at most this probability. -/
theorem C173_given (hu : Uniform μ Set.univ (2 ^ 128) fun ω p => (u ω p).toNat) (c : Cfg) (L : Nat) (h : Block → Block) (X Y : List Block)
    (sbins rbins perms : Nat → List Nat) (maskPerm sched : List Nat) (rnd : Nat → Nat → Nat) (hX : X.length = c.N) (hY : Y.length = c.N) (hn : Y.Nodup)
    (hT : c.T = 1) (hB : 0 < c.B) (hov : c.B < 2 ^ 64) (hN : 0 < c.N) (hM : 0 < c.M) (hms : 8 ≤ c.ms) (hms' : c.ms ≤ 16)
    (hS : Filled c (binOf h c.N c.B) X sbins) (hR : Filled c (binOf h c.N c.B) Y rbins) (hp : ∀ b, b < c.B → (perms b).Perm (List.range c.M))
    (hp' : maskPerm.Perm (List.range c.N)) (hd : AllDone c sbins sched) (ho : ¬ Overfull c sbins) (ho' : ¬ Overfull c rbins)
    (h1 : ¬ SomeClash h c.N c.B L X Y) (h2 : ¬ SomeClash h c.N c.B L Y Y) :
    μ {ω | Fails c L h (u ω) X Y sbins rbins perms maskPerm rnd sched} ≤
      ((c.N * c.M) ^ 2 : ℕ) * ((2 ^ (8 * c.ms) : ℕ) : ℝ≥0∞)⁻¹ + ENNReal.ofReal ((c.N * c.M : ℕ) * ((c.N * c.M : ℕ) - 1) / 2 ^ 65) := by
  have S : Setup c (some h) X Y sbins rbins perms maskPerm sched :=
    ⟨by omega, hB, by rw [hT]; omega, Nat.mul_pos hN hM, hms, hms', hS.toPlaced hX ho, hR.toPlaced hY ho', hp, hp', hd⟩
  have hw := error_via hu S (lowPt L) (fun _ => rfl)
    (fun t t' d i j k k' ht ht' hi hj hk hk' e => (low_eq hX hY ht ht' hi hj hk hk' h1 e).1) rnd
  have hm := miss_via hu S hT (lowPt L) (fun _ => rfl) (fun t d i j k k' ht hi hj hk hk' e => by
    obtain ⟨e1, e2⟩ := low_eq hY hY ht ht hi hj hk hk' h2 e
    rw [Kkrt.getD_eq (show i < Y.length by omega), Kkrt.getD_eq (show j < Y.length by omega)] at e1
    exact ⟨(List.Nodup.getElem_inj_iff hn).mp e1, e2⟩) rnd
  refine le_trans (measure_mono ?_) ((measure_union_le _ _).trans (add_le_add hw hm))
  intro ω hω
  rcases hω with hω | hω | hω
  · exact absurd hω ho
  · exact absurd hω ho'
  · by_contra hno
    simp only [Set.mem_union, Set.mem_ofPred_eq, not_or] at hno
    have := exact_of S rnd (fun p => u ω (lowPt L p)) hno.1 hno.2
    apply hω
    have e : ∀ Z : List Block, (Z.map fun x => (phase c.N c.B (h x)).2) = otInputs (some h) c Z := by
      intro Z
      unfold otInputs hashed
      rw [List.map_map]
      rfl
    rw [e, e]
    exact this

/-- C173, one thread: over a random hash function and random OT values a run of RR17a ends with exactly the positions of the common elements, except
with at most this probability: a bin of one of the parties gets too many elements, two elements have the same bin and OT input, two masks are equal by
accident, or two masks of the receiver have the same 64 bit key. With several threads elements are missed (`C144_lost`), and the mask size of the
code is too short for `2^-statSec` (`C125_default`). -/
theorem C173_total (hu : Uniform μ Set.univ (2 ^ 128) fun ω p => (u ω p).toNat)
    (hh : Uniform ν Set.univ (2 ^ 128) fun ω x => (h ω x).toNat) (c : Cfg) (L : Nat) (X Y : List Block) (sbins rbins perms : Ω → Nat → List Nat)
    (maskPerm sched : Ω → List Nat) (rnd : Ω → Nat → Nat → Nat) (hX : X.length = c.N) (hY : Y.length = c.N) (hn : X.Nodup) (hn' : Y.Nodup)
    (hT : c.T = 1) (hB : 0 < c.B) (hov : c.B < 2 ^ 64) (hN0 : 0 < c.N) (hN : c.N < 2 ^ 64) (hM : 0 < c.M) (hms : 8 ≤ c.ms) (hms' : c.ms ≤ 16)
    (hL : log2ceil c.N + L ≤ 128) (hS : ∀ ω, Filled c (binOf (h ω) c.N c.B) X (sbins ω)) (hR : ∀ ω, Filled c (binOf (h ω) c.N c.B) Y (rbins ω))
    (hp : ∀ ω b, b < c.B → (perms ω b).Perm (List.range c.M)) (hp' : ∀ ω, (maskPerm ω).Perm (List.range c.N))
    (hd : ∀ ω, AllDone c (sbins ω) (sched ω)) :
    ∫⁻ ω, μ {ω' | Fails c L (h ω) (u ω') X Y (sbins ω) (rbins ω) (perms ω) (maskPerm ω) (rnd ω) (sched ω)} ∂ν ≤
      (((c.N * c.M) ^ 2 : ℕ) * ((2 ^ (8 * c.ms) : ℕ) : ℝ≥0∞)⁻¹ + ENNReal.ofReal ((c.N * c.M : ℕ) * ((c.N * c.M : ℕ) - 1) / 2 ^ 65)) +
      (2 * ENNReal.ofReal (BinSize.overflowProb c.B c.N c.M * (1 + c.B / 2 ^ 64) ^ c.N) +
        2 * ((c.N * c.N * ((2 ^ log2ceil c.N + c.B - 1) / c.B) : ℕ) * ((2 ^ (log2ceil c.N + L) : ℕ) : ℝ≥0∞)⁻¹)) := by
  have h1 := average_close (ν := ν)
    (fun ω => μ {ω' | Fails c L (h ω) (u ω') X Y (sbins ω) (rbins ω) (perms ω) (maskPerm ω) (rnd ω) (sched ω)}) (fun _ => 0)
    (({ω | Overfull c (sbins ω)} ∪ {ω | Overfull c (rbins ω)}) ∪
      ({ω | SomeClash (h ω) c.N c.B L X Y} ∪ {ω | SomeClash (h ω) c.N c.B L Y Y}))
    (((c.N * c.M) ^ 2 : ℕ) * ((2 ^ (8 * c.ms) : ℕ) : ℝ≥0∞)⁻¹ + ENNReal.ofReal ((c.N * c.M : ℕ) * ((c.N * c.M : ℕ) - 1) / 2 ^ 65))
    (Uniform.univ hh) (fun ω => (measure_mono (Set.subset_univ _)).trans hu.univ.le) (fun ω hω => ?_)
  · rw [lintegral_zero, zero_add] at h1
    refine h1.trans (add_le_add le_rfl ?_)
    have hc : ∀ P : List Block, P.length = c.N → ν {ω | SomeClash (h ω) c.N c.B L P Y} ≤
        (c.N * c.N * ((2 ^ log2ceil c.N + c.B - 1) / c.B) : ℕ) * ((2 ^ (log2ceil c.N + L) : ℕ) : ℝ≥0∞)⁻¹ := by
      intro P hP
      have := C124_error_partial hh c.N c.B L hN hB hL P Y
      rwa [hP, hY] at this
    refine (measure_union_le _ _).trans (add_le_add ?_ ?_)
    · rw [two_mul]
      exact (measure_union_le _ _).trans (add_le_add (C171_overfull hh c hB X hX hn sbins hS) (C171_overfull hh c hB Y hY hn' rbins hR))
    · rw [two_mul]
      exact (measure_union_le _ _).trans (add_le_add (hc X hX) (hc Y hY))
  · simp only [Set.mem_union, not_or, Set.mem_ofPred_eq] at hω
    obtain ⟨⟨o1, o2⟩, s1, s2⟩ := hω
    rw [zero_add]
    exact C173_given hu c L (h ω) X Y (sbins ω) (rbins ω) (perms ω) (maskPerm ω) (sched ω) (rnd ω) hX hY hn' hT hB hov hN0 hM hms hms' (hS ω)
      (hR ω) (hp ω) (hp' ω) (hd ω) o1 o2 s1 s2

/-- C173, with the parameters of the code: as many bins as elements, the bin size of `get_bin_size`, the OT input length of `init`. What is left besides
`2^-(statSec - 5)` is the probability of equal masks and of equal keys. -/
theorem C173_default (hu : Uniform μ Set.univ (2 ^ 128) fun ω p => (u ω p).toNat)
    (hh : Uniform ν Set.univ (2 ^ 128) fun ω x => (h ω x).toNat) (c : Cfg) (statSec : Nat) (X Y : List Block) (sbins rbins perms : Ω → Nat → List Nat)
    (maskPerm sched : Ω → List Nat) (rnd : Ω → Nat → Nat → Nat) (hX : X.length = c.N) (hY : Y.length = c.N) (hn : X.Nodup) (hn' : Y.Nodup)
    (hT : c.T = 1) (hN : c.N < 2 ^ 31) (hN2 : 2 ≤ c.N) (hB : c.B = c.N) (hM : BinSize.Returns c.B c.N statSec (.ok c.M)) (hM0 : 0 < c.M)
    (hs5 : 5 ≤ statSec) (hL : log2ceil c.N + (statSec + log2ceil c.N - 1) ≤ 128) (hms : 8 ≤ c.ms) (hms' : c.ms ≤ 16)
    (hS : ∀ ω, Filled c (binOf (h ω) c.N c.B) X (sbins ω)) (hR : ∀ ω, Filled c (binOf (h ω) c.N c.B) Y (rbins ω))
    (hp : ∀ ω b, b < c.B → (perms ω b).Perm (List.range c.M)) (hp' : ∀ ω, (maskPerm ω).Perm (List.range c.N))
    (hd : ∀ ω, AllDone c (sbins ω) (sched ω)) :
    ∫⁻ ω, μ {ω' | Fails c (initBits statSec c.N none).1 (h ω) (u ω') X Y (sbins ω) (rbins ω) (perms ω) (maskPerm ω) (rnd ω) (sched ω)} ∂ν ≤
      (((c.N * c.M) ^ 2 : ℕ) * ((2 ^ (8 * c.ms) : ℕ) : ℝ≥0∞)⁻¹ + ENNReal.ofReal ((c.N * c.M : ℕ) * ((c.N * c.M : ℕ) - 1) / 2 ^ 65)) +
      ((2 ^ (statSec - 5) : ℕ) : ℝ≥0∞)⁻¹ := by
  have hN64 : c.N < 2 ^ 64 := by omega
  have hsec : statSec ≤ 2 ^ 32 := by omega
  have hbits := C124_input_bits statSec c.N hN64 (by omega) hsec
  refine (C173_total hu hh c _ X Y sbins rbins perms maskPerm sched rnd hX hY hn hn' hT (by omega) (by omega) (by omega) hN64 hM0 hms hms'
    (by rw [hbits]; exact hL) hS hR hp hp' hd).trans (add_le_add le_rfl ?_)
  refine le_trans (add_le_add le_rfl ?_) (Rr17b.default_bound c.N c.B c.M statSec hN hN2 hB hM hs5 hsec)
  gcongr
  norm_num

end

/-! ### non-vacuity -/

/-- Random values as assumed exist. -/
example : (∃ (Ω : Type) (_ : MeasurableSpace Ω) (μ : Measure Ω) (u : Ω → OtPt → Block), Uniform μ Set.univ (2 ^ 128) fun ω p => (u ω p).toNat) ∧
    ∃ (Ω : Type) (_ : MeasurableSpace Ω) (ν : Measure Ω) (h : Ω → Block → Block), Uniform ν Set.univ (2 ^ 128) fun ω x => (h ω x).toNat := by
  obtain ⟨μ, hμ⟩ := Coll.exists_uniform_any OtPt (2 ^ 128) (by positivity)
  obtain ⟨ν, hν⟩ := Coll.exists_uniform_any Block (2 ^ 128) (by positivity)
  exact ⟨⟨_, _, μ, fun ω x => BitVec.ofFin (ω x), hμ⟩, _, _, ν, fun ω x => BitVec.ofFin (ω x), hν⟩

/-- A schedule in which the thread finishes, whatever is in the bins: one thread, three bins. -/
example (bins : Nat → List Nat) : AllDone ⟨4, 3, 2, 1, 8, fun _ _ x => x, fun _ _ x => x⟩ bins [0, 0, 0] := by
  intro t ht
  rw [todo_eq bins (fun _ => []) [0, 0, 0] _ _ rfl]
  revert t
  decide

/-- Bins and orders as assumed, for any hash function. -/
example (c : Cfg) (h : Block → Block) (X Y : List Block) : ∃ (sbins rbins perms : Nat → List Nat) (maskPerm : List Nat),
    Filled c (binOf h c.N c.B) X sbins ∧ Filled c (binOf h c.N c.B) Y rbins ∧ (∀ b, b < c.B → (perms b).Perm (List.range c.M)) ∧
      maskPerm.Perm (List.range c.N) :=
  ⟨fun b => (List.range c.N).filter fun i => binOf h c.N c.B (X.getD i 0) == b, fun b => (List.range c.N).filter fun i => binOf h c.N c.B (Y.getD i 0) == b,
    fun _ => List.range c.M, List.range c.N, fun _ _ => List.Perm.refl _, fun _ _ => List.Perm.refl _, fun _ _ => List.Perm.refl _, List.Perm.refl _⟩

/-- A run that does not fail, and one that does because its bin is too small: the elements themselves, one bin, OT values that depend on the input and the
number of the OT. -/
example : ¬ Fails ⟨2, 1, 2, 1, 8, fun _ _ x => x, fun _ _ x => x⟩ 8 id (fun p => BitVec.ofNat 128 ((p.2.2.2.toNat + 3) ^ (5 + p.2.2.1 + if p.1 then 7 else 0)))
      [2, 4] [4, 6] (fun _ => [0, 1]) (fun _ => [0, 1]) (fun _ => [0, 1]) [0, 1] (fun _ _ => 0) [0] ∧
    Fails ⟨2, 1, 1, 1, 8, fun _ _ x => x, fun _ _ x => x⟩ 8 id (fun _ => 0) [2, 4] [4, 6] (fun _ => [0, 1]) (fun _ => [0, 1]) (fun _ => [0]) [0, 1]
      (fun _ _ => 0) [0] := by
  refine ⟨?_, .inl ⟨0, by decide, by decide⟩⟩
  rintro (⟨b, hb, hl⟩ | ⟨b, hb, hl⟩ | hx)
  · have hb : b < 1 := hb
    interval_cases b
    revert hl
    decide
  · have hb : b < 1 := hb
    interval_cases b
    revert hl
    decide
  · refine hx ⟨[0], by decide +kernel, fun j => ?_⟩
    constructor
    · intro hj
      rw [List.mem_singleton] at hj
      subst hj
      exact ⟨by decide, by decide⟩
    · rintro ⟨hj, hm⟩
      have hj : j < 2 := hj
      interval_cases j
      · simp
      · exact absurd (show (6 : Block) ∈ [2, 4] from hm) (by decide)

end Verif.Rr17
