import Verif.Rr17TotalSpec
import Verif.Rr17bProbProps
import Verif.Rr17bCloseProps
/-
Property C174: RR17b reports exactly the common elements, over the hash function and the commitments.
-/
namespace Verif.Rr17b
open Verif Rr17 MeasureTheory Coll
open scoped ENNReal

section
variable {Ω Ω' : Type} [MeasurableSpace Ω] [MeasurableSpace Ω'] {ν : Measure Ω} {μ : Measure Ω'} {h : Ω → Block → Block} {H : Ω' → Block × Block → Nat}

/-- C174: over a random hash function and random commitments of 160 bits a run of RR17b ends with exactly the positions of the common elements, except
with at most this probability. Elements with the same bin and OT input do no harm. If the number of threads does not divide the number of bins, elements
are missed (`C42_missed`). -/
theorem C174_total (hu : Uniform μ Set.univ (2 ^ 160) H) (hh : Uniform ν Set.univ (2 ^ 128) fun ω x => (h ω x).toNat) (c : Cfg Nat) (L : Nat)
    (X Y : List Block) (r : Ω → Nat → Block) (perm : Ω → List Nat) (sbins rbins : Ω → Nat → List Nat) (rnd : Ω → Nat → Nat → Nat)
    (tagMap : Ω → List (Nat × Nat × Block)) (hX : X.length = c.N) (hY : Y.length = c.N) (hn : X.Nodup) (hn' : Y.Nodup) (hT : 0 < c.T)
    (hd : c.T ∣ c.B) (hB : 0 < c.B) (hov : (c.B + c.T) * c.T < 2 ^ 64) (hov' : (c.N + c.T) * c.T < 2 ^ 64)
    (hS : ∀ ω, Filled c (binOf (h ω) c.N c.B) X (sbins ω)) (hR : ∀ ω, Filled c (binOf (h ω) c.N c.B) Y (rbins ω))
    (hp : ∀ ω, (perm ω).Perm (List.range c.N))
    (htm : ∀ ω, (tagMap ω).Perm ((List.range c.T).flatMap (threadEntries c Y (otOf (h ω) c.N c.B L) (rbins ω) (rnd ω)))) :
    ∫⁻ ω, μ {ω' | Fails c (H ω') X Y (otOf (h ω) c.N c.B L) (r ω) (perm ω) (sbins ω) (rbins ω) (tagMap ω)} ∂ν ≤
      (c.N ^ 2 * c.M : ℕ) * ((2 ^ 160 : ℕ) : ℝ≥0∞)⁻¹ + 2 * ENNReal.ofReal (BinSize.overflowProb c.B c.N c.M * (1 + c.B / 2 ^ 64) ^ c.N) := by
  have h1 := average_close (ν := ν)
    (fun ω => μ {ω' | Fails c (H ω') X Y (otOf (h ω) c.N c.B L) (r ω) (perm ω) (sbins ω) (rbins ω) (tagMap ω)}) (fun _ => 0)
    ({ω | Overfull c (sbins ω)} ∪ {ω | Overfull c (rbins ω)}) ((c.N ^ 2 * c.M : ℕ) * ((2 ^ 160 : ℕ) : ℝ≥0∞)⁻¹)
    (Uniform.univ hh) (fun ω => (measure_mono (Set.subset_univ _)).trans hu.univ.le) (fun ω hω => ?_)
  · rw [lintegral_zero, zero_add] at h1
    refine h1.trans (add_le_add le_rfl ?_)
    rw [two_mul]
    exact (measure_union_le _ _).trans (add_le_add (C170_overfull hh c hB X hX hn sbins hS) (C170_overfull hh c hB Y hY hn' rbins hR))
  · simp only [Set.mem_union, not_or, Set.mem_ofPred_eq] at hω
    rw [zero_add]
    have hlt : ∀ x, binOf (h ω) c.N c.B x < c.B := fun x => Nat.mod_lt _ hB
    refine le_trans (measure_mono ?_) (C145_error_partial hu c X Y (otOf (h ω) c.N c.B L) (binOf (h ω) c.N c.B) (r ω) (perm ω) (sbins ω) (rbins ω)
      (rnd ω) (tagMap ω) hX hY hT hd hov hov' ((hS ω).placed hlt hω.1) ((hR ω).placed hlt hω.2) (hp ω) (htm ω) hn')
    intro ω' hω'
    rcases hω' with hω' | hω' | hω'
    · exact absurd hω' hω.1
    · exact absurd hω' hω.2
    · exact hω'

/-- C174, with the parameters of the code: as many bins as elements and the bin size of `get_bin_size`: `2^-(statSec - 5)`, and what is left for the
commitments, `N^2 M / 2^160`. -/
theorem C174_default (hu : Uniform μ Set.univ (2 ^ 160) H) (hh : Uniform ν Set.univ (2 ^ 128) fun ω x => (h ω x).toNat) (c : Cfg Nat)
    (L statSec : Nat) (X Y : List Block) (r : Ω → Nat → Block) (perm : Ω → List Nat) (sbins rbins : Ω → Nat → List Nat) (rnd : Ω → Nat → Nat → Nat)
    (tagMap : Ω → List (Nat × Nat × Block)) (hX : X.length = c.N) (hY : Y.length = c.N) (hn : X.Nodup) (hn' : Y.Nodup) (hT : 0 < c.T)
    (hd : c.T ∣ c.B) (hov : (c.N + c.T) * c.T < 2 ^ 64) (hN : c.N < 2 ^ 31) (hN2 : 2 ≤ c.N) (hB : c.B = c.N)
    (hM : BinSize.Returns c.B c.N statSec (.ok c.M)) (hs5 : 5 ≤ statSec) (hsec : statSec ≤ 2 ^ 32)
    (hS : ∀ ω, Filled c (binOf (h ω) c.N c.B) X (sbins ω)) (hR : ∀ ω, Filled c (binOf (h ω) c.N c.B) Y (rbins ω))
    (hp : ∀ ω, (perm ω).Perm (List.range c.N))
    (htm : ∀ ω, (tagMap ω).Perm ((List.range c.T).flatMap (threadEntries c Y (otOf (h ω) c.N c.B L) (rbins ω) (rnd ω)))) :
    ∫⁻ ω, μ {ω' | Fails c (H ω') X Y (otOf (h ω) c.N c.B L) (r ω) (perm ω) (sbins ω) (rbins ω) (tagMap ω)} ∂ν ≤
      (c.N ^ 2 * c.M : ℕ) * ((2 ^ 160 : ℕ) : ℝ≥0∞)⁻¹ + ((2 ^ (statSec - 5) : ℕ) : ℝ≥0∞)⁻¹ :=
  (C174_total hu hh c L X Y r perm sbins rbins rnd tagMap hX hY hn hn' hT hd (by omega) (by rw [hB]; exact hov) hov hS hR hp htm).trans
    (add_le_add le_rfl (le_trans le_self_add (default_bound c.N c.B c.M statSec hN hN2 hB hM hs5 hsec)))

end

/-! ### non-vacuity -/

/-- Random values as assumed exist. -/
example : (∃ (Ω : Type) (_ : MeasurableSpace Ω) (μ : Measure Ω) (H : Ω → Block × Block → Nat), Uniform μ Set.univ (2 ^ 160) H) ∧
    ∃ (Ω : Type) (_ : MeasurableSpace Ω) (ν : Measure Ω) (h : Ω → Block → Block), Uniform ν Set.univ (2 ^ 128) fun ω x => (h ω x).toNat := by
  obtain ⟨μ, hμ⟩ := Coll.exists_uniform_any (Block × Block) (2 ^ 160) (by positivity)
  obtain ⟨ν, hν⟩ := Coll.exists_uniform_any Block (2 ^ 128) (by positivity)
  exact ⟨⟨_, _, μ, _, hμ⟩, _, _, ν, fun ω x => BitVec.ofFin (ω x), hν⟩

/-- Bins, order and table as assumed, for any hash function. -/
example (c : Cfg Nat) (h : Block → Block) (X Y : List Block) (L : Nat) (rnd : Nat → Nat → Nat) : ∃ (sbins rbins : Nat → List Nat) (perm : List Nat) (tagMap : List (Nat × Nat × Block)),
    Filled c (binOf h c.N c.B) X sbins ∧ Filled c (binOf h c.N c.B) Y rbins ∧ perm.Perm (List.range c.N) ∧
      tagMap.Perm ((List.range c.T).flatMap (threadEntries c Y (otOf h c.N c.B L) rbins rnd)) :=
  ⟨fun b => (List.range c.N).filter fun i => binOf h c.N c.B (X.getD i 0) == b, fun b => (List.range c.N).filter fun i => binOf h c.N c.B (Y.getD i 0) == b,
    List.range c.N, _, fun _ _ => List.Perm.refl _, fun _ _ => List.Perm.refl _, List.Perm.refl _, List.Perm.refl _⟩

/-- A run that fails: the bin is too small. -/
example : Fails ⟨2, 1, 1, 1, fun _ _ _ => 0, fun _ _ _ => 0, fun _ _ => 0⟩ (fun _ => 0) [2, 4] [2, 4] id (fun _ => 0) [0, 1] (fun _ => [0, 1])
    (fun _ => [0, 1]) [] := .inl ⟨0, by decide, by decide⟩

end Verif.Rr17b
