import Verif.DomProps
import Verif.Rr17aProps
/-
Property C147, how likely its condition is: that no two elements of a bin have the same OT input. (C146 and C148 have the same condition.)
-/
namespace Verif.Rr17
open Verif MeasureTheory Coll
open scoped ENNReal

/-- The `L` bits of an OT input that the OTs use. -/
def usedBits (L : Nat) (x : Block) : Nat := x.toNat % 2 ^ L

/-- No two elements of a bin have the same OT input. -/
def InputsApart (h : Block → Block) (c : Cfg) (L : Nat) (X : List Block) (bins : Nat → List Nat) : Prop :=
  ∀ b, b < c.B → ((bins b).map fun i => usedBits L ((otInputs (some h) c X).getD i 0)).Nodup

/-- The bins hold different indices, each in the bin of its element. -/
structure InBins (h : Block → Block) (c : Cfg) (X : List Block) (bins : Nat → List Nat) : Prop where
  nodup : ∀ b, (bins b).Nodup
  place : ∀ b, ∀ i ∈ bins b, i < X.length ∧ (phase c.N c.B (h (X.getD i 0))).1 = b

theorem otInputs_some_getD (h : Block → Block) (c : Cfg) (X : List Block) {i : Nat} (hi : i < X.length) :
    (otInputs (some h) c X).getD i 0 = (phase c.N c.B (h (X.getD i 0))).2 := by
  unfold otInputs hashed
  rw [List.map_map, Kkrt.getD_eq (by simpa using hi), List.getElem_map, Kkrt.getD_eq hi]
  rfl

/-- Elements that are not apart clash. -/
theorem not_apart {h : Block → Block} {c : Cfg} {L : Nat} {X : List Block} {bins : Nat → List Nat} (hX : X.Nodup) (hb : InBins h c X bins)
    (hn : ¬ InputsApart h c L X bins) : SomeClash h c.N c.B L X X := by
  unfold InputsApart at hn
  push Not at hn
  obtain ⟨b, _, hn⟩ := hn
  rw [List.nodup_map_iff_inj_on (hb.nodup b)] at hn
  push Not at hn
  obtain ⟨i, hi, j, hj, e, hne⟩ := hn
  obtain ⟨hi1, hi2⟩ := hb.place b i hi
  obtain ⟨hj1, hj2⟩ := hb.place b j hj
  have hget : ∀ k, k < X.length → X.getD k 0 ∈ X := by
    intro k hk
    rw [Kkrt.getD_eq hk]
    exact List.getElem_mem _
  refine ⟨_, hget i hi1, _, hget j hj1, fun he => hne ?_, by rw [hi2, hj2], ?_⟩
  · rw [Kkrt.getD_eq hi1, Kkrt.getD_eq hj1] at he
    exact (List.Nodup.getElem_inj_iff hX).mp he
  · rw [otInputs_some_getD h c X hi1, otInputs_some_getD h c X hj1] at e
    exact e

/-- C147: this is its condition, for the OT inputs themselves and for OT inputs cut to the bits that the OTs use. -/
theorem C147_apart_distinct {h : Block → Block} {c : Cfg} {L : Nat} {X : List Block} {bins : Nat → List Nat} (ha : InputsApart h c L X bins) (b : Nat)
    (hb : b < c.B) : ((bins b).map fun i => (otInputs (some h) c X).getD i 0).Nodup ∧
      (L ≤ 128 → ((bins b).map fun i => ((otInputs (some h) c X).map fun x => BitVec.ofNat 128 (usedBits L x)).getD i 0).Nodup) := by
  have hn := ha b hb
  refine ⟨?_, fun hL => ?_⟩
  · refine List.Nodup.of_map (usedBits L) ?_
    rw [List.map_map]
    exact hn
  · refine List.Nodup.of_map BitVec.toNat ?_
    rw [List.map_map]
    refine Eq.mp (congrArg List.Nodup (List.map_congr_left fun i _ => ?_)) hn
    have hlt : ∀ x : Block, usedBits L x < 2 ^ 128 := fun x =>
      lt_of_lt_of_le (Nat.mod_lt _ (by positivity)) (Nat.pow_le_pow_right (by omega) hL)
    show usedBits L ((otInputs (some h) c X).getD i 0) = BitVec.toNat (((otInputs (some h) c X).map fun x => BitVec.ofNat 128 (usedBits L x)).getD i 0)
    rw [List.getD_eq_getElem?_getD, List.getD_eq_getElem?_getD, List.getElem?_map]
    cases (otInputs (some h) c X)[i]? with
    | none => simp [usedBits]
    | some x => simp only [Option.map_some, Option.getD_some, BitVec.toNat_ofNat, Nat.mod_eq_of_lt (hlt x)]

section
variable {Ω : Type} [MeasurableSpace Ω] {μ : Measure Ω} {h : Ω → Block → Block}

/-- C147: for a random hash function two elements of a bin have the same OT input with at most this probability. -/
theorem C147_apart (hu : Uniform μ Set.univ (2 ^ 128) fun ω x => (h ω x).toNat) (c : Cfg) (L : Nat) (hN : c.N < 2 ^ 64) (hB : 0 < c.B)
    (hL : log2ceil c.N + L ≤ 128) (X : List Block) (hX : X.Nodup) (bins : Ω → Nat → List Nat) (hb : ∀ ω, InBins (h ω) c X (bins ω)) :
    μ {ω | ¬ InputsApart (h ω) c L X (bins ω)} ≤
      (X.length * X.length * ((2 ^ log2ceil c.N + c.B - 1) / c.B) : ℕ) * ((2 ^ (log2ceil c.N + L) : ℕ) : ℝ≥0∞)⁻¹ :=
  (measure_mono fun _ hω => not_apart hX (hb _) hω).trans (C124_error_partial hu c.N c.B L hN hB hL X X)

/-- C147: with the length of the OT input that the code chooses and at least as many bins as elements the probability is at most
`2^-(statSec - 2)`. -/
theorem C147_apart_bits (hu : Uniform μ Set.univ (2 ^ 128) fun ω x => (h ω x).toNat) (c : Cfg) (statSec : Nat) (hN0 : 0 < c.N)
    (hN : c.N < 2 ^ 64) (hB : c.N ≤ c.B) (hs : 2 ≤ statSec) (hL : log2ceil c.N + (statSec + log2ceil c.N - 1) ≤ 128) (X : List Block)
    (hX : X.Nodup) (hl : X.length = c.N) (bins : Ω → Nat → List Nat) (hb : ∀ ω, InBins (h ω) c X (bins ω)) :
    μ {ω | ¬ InputsApart (h ω) c (initBits statSec c.N none).1 X (bins ω)} ≤ ((2 ^ (statSec - 2) : ℕ) : ℝ≥0∞)⁻¹ :=
  (measure_mono fun _ hω => not_apart hX (hb _) hω).trans
    (C124_bins_partial hu c.N c.B statSec hN0 hN hB hs hL X X (by omega) (by omega))
end

/-- Bins as the insertion fills them (Rr17PhaseModel): bin `b` holds the indices of the elements with address `b`. -/
def binsOfHash (h : Block → Block) (c : Cfg) (X : List Block) (b : Nat) : List Nat :=
  (List.range X.length).filter fun i => (phase c.N c.B (h (X.getD i 0))).1 == b

/-- They are as assumed. -/
theorem binsOfHash_ok (h : Block → Block) (c : Cfg) (X : List Block) : InBins h c X (binsOfHash h c X) := by
  refine ⟨fun b => List.nodup_range.filter _, fun b i hi => ?_⟩
  obtain ⟨h1, h2⟩ := List.mem_filter.mp hi
  exact ⟨List.mem_range.mp h1, by simpa using h2⟩

/-- A random hash function exists, and the conditions on the numbers hold for `2^20` items. -/
example : (∃ (Ω : Type) (_ : MeasurableSpace Ω) (μ : Measure Ω) (h : Ω → Block → Block), Uniform μ Set.univ (2 ^ 128) fun ω x => (h ω x).toNat) ∧
    20 + (40 + 20 - 1) ≤ 128 := by
  obtain ⟨μ, hμ⟩ := Coll.exists_uniform (Fin (2 ^ 128)) (2 ^ 128) (by positivity)
  exact ⟨⟨_, _, μ, fun ω x => BitVec.ofFin (ω x.toFin), hμ.comap Set.univ BitVec.toFin fun x _ y _ h => BitVec.toFin_inj.mp h⟩, by omega⟩

/-- It does happen: `2` and `2^20 + 2` are in the same bin and have the same low eight bits. -/
example : ¬ InputsApart id lowCfg 8 [2#128, 1048578#128] (binsOfHash id lowCfg [2#128, 1048578#128]) := by
  intro h
  have h0 := h 0 (by decide)
  have h1 := h 1 (by decide)
  revert h0 h1
  decide +kernel

end Verif.Rr17
