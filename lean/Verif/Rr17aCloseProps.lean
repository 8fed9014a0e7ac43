import Verif.Rr17aCloseLemmas
import Verif.Rr17bCloseProps
/-
Property C171: what the receiver of RR17a learns when the elements are hashed.
-/
namespace Verif.Rr17
open Verif MeasureTheory Coll
open Verif.Rr17b (SameCommon binOf otOf)
open scoped ENNReal

/-- Average over all shuffles of the bins and of the masks. -/
noncomputable def average (c : Cfg) (F : (Fin c.B → Equiv.Perm (Fin c.M)) → Equiv.Perm (Fin c.N) → ℝ≥0∞) : ℝ≥0∞ :=
  (∑ ρ, ∑ σ, F ρ σ) / (Fintype.card (Fin c.B → Equiv.Perm (Fin c.M)) * Fintype.card (Equiv.Perm (Fin c.N)) : ℕ)

theorem average_le_one {c : Cfg} {F : (Fin c.B → Equiv.Perm (Fin c.M)) → Equiv.Perm (Fin c.N) → ℝ≥0∞} (h : ∀ ρ σ, F ρ σ ≤ 1) : average c F ≤ 1 := by
  unfold average
  refine ENNReal.div_le_of_le_mul ?_
  rw [one_mul, Nat.cast_mul]
  refine (Finset.sum_le_sum fun ρ _ => Finset.sum_le_sum fun σ _ => h ρ σ).trans ?_
  simp only [Finset.sum_const, Finset.card_univ, nsmul_eq_mul, mul_one]
  exact le_rfl

/-- The sizes, as a configuration of RR17b (for `C170_overfull`, which is only about them). -/
def asB (c : Cfg) : Rr17b.Cfg Nat := ⟨c.N, c.B, c.M, c.T, fun _ _ _ => 0, fun _ _ _ => 0, fun _ _ => 0⟩

section
variable {Ω Ω' : Type} [MeasurableSpace Ω] [MeasurableSpace Ω'] {ν : Measure Ω} {μ : Measure Ω'} {h : Ω → Block → Block} {g : Ω' → Nat × Nat × Block → Nat}

/-- C171, a given hash function, or the elements themselves (`h = id`), for which no bin is too full and no two elements have the same address and
OT input: two sets of the sender with the same common elements, anywhere in its list, give every event about the receiver's view the same probability. -/
theorem C171_plain (hu : Uniform μ Set.univ (2 ^ 128) g) (c : Cfg) (L : Nat) (h : Block → Block) (X X' Y : List Block)
    (sbins sbins' rbins : Nat → List Nat) (sched sched' : List Nat) (hX : X.length = c.N) (hX' : X'.length = c.N) (hY : Y.length = c.N) (hn : X.Nodup)
    (hn' : X'.Nodup) (hT : 0 < c.T) (hB : 0 < c.B) (hov : c.B * c.T < 2 ^ 64) (hS : Filled c (binOf h c.N c.B) X sbins)
    (hS' : Filled c (binOf h c.N c.B) X' sbins') (hR : Filled c (binOf h c.N c.B) Y rbins) (ho : ¬ Overfull c sbins) (ho' : ¬ Overfull c sbins')
    (hd : AllDone c sbins sched) (hd' : AllDone c sbins' sched') (h1 : ¬ SomeClash h c.N c.B L X X) (h2 : ¬ SomeClash h c.N c.B L X' X')
    (h3 : ¬ SomeClash h c.N c.B L X Y) (h4 : ¬ SomeClash h c.N c.B L X' Y)
    (A : List (Nat × Nat × Block)) (hA : Asks c (Y.map (otOf h c.N c.B L)) rbins A) (hs : SameCommon X X' Y) (E : Set (View A)) :
    average c (fun ρ σ => μ {ω | view c (X.map (otOf h c.N c.B L)) sbins (binPerms ρ) (permList σ) sched A (g ω) ∈ E}) =
      average c fun ρ σ => μ {ω | view c (X'.map (otOf h c.N c.B L)) sbins' (binPerms ρ) (permList σ) sched' A (g ω) ∈ E} := by
  have hlt : ∀ x, binOf h c.N c.B x < c.B := fun x => Nat.mod_lt _ hB
  unfold average
  rw [hidden_sum hu c X X' Y _ (binOf h c.N c.B) sbins sbins' rbins sched sched' hX hX' hY hT hov hlt hS hS' hR ho ho' hd hd'
    (Rr17b.distinct_of hn h1) (Rr17b.distinct_of hn' h2) ?_ A hA hs E]
  intro x hx y hy e1 e2
  by_contra hne
  rcases hx with hx | hx
  · exact h3 ⟨x, hx, y, hy, hne, e1, Rr17b.otOf_inj e2⟩
  · exact h4 ⟨x, hx, y, hy, hne, e1, Rr17b.otOf_inj e2⟩

/-- How likely it is that a bin gets more elements than it can hold, for a random hash function: at most this much more than for elements that go to
random bins (C87). -/
theorem C171_overfull (hu : Uniform ν Set.univ (2 ^ 128) fun ω x => (h ω x).toNat) (c : Cfg) (hB : 0 < c.B) (X : List Block)
    (hX : X.length = c.N) (hn : X.Nodup) (bins : Ω → Nat → List Nat) (hb : ∀ ω, Filled c (binOf (h ω) c.N c.B) X (bins ω)) :
    ν {ω | Overfull c (bins ω)} ≤ ENNReal.ofReal (BinSize.overflowProb c.B c.N c.M * (1 + c.B / 2 ^ 64) ^ c.N) :=
  Rr17b.C170_overfull hu (asB c) hB X hX hn bins hb

/-- C171, elements hashed to a smaller domain. Whatever an honest receiver decides from the hash function, its OT values and the sender's buffer, its probability
is the same for two sets of the sender with the same common elements, anywhere in its list, up to the probabilities that a bin gets too many elements and
that two elements have the same address and OT input. -/
theorem C171_hashed (hu : Uniform μ Set.univ (2 ^ 128) g) (hh : Uniform ν Set.univ (2 ^ 128) fun ω x => (h ω x).toNat) (c : Cfg) (L : Nat)
    (X X' Y : List Block) (sbins sbins' rbins : Ω → Nat → List Nat) (sched sched' : Ω → List Nat) (hX : X.length = c.N) (hX' : X'.length = c.N)
    (hY : Y.length = c.N) (hn : X.Nodup) (hn' : X'.Nodup) (hT : 0 < c.T) (hB : 0 < c.B) (hov : c.B * c.T < 2 ^ 64) (hN : c.N < 2 ^ 64)
    (hL : log2ceil c.N + L ≤ 128) (hS : ∀ ω, Filled c (binOf (h ω) c.N c.B) X (sbins ω))
    (hS' : ∀ ω, Filled c (binOf (h ω) c.N c.B) X' (sbins' ω)) (hR : ∀ ω, Filled c (binOf (h ω) c.N c.B) Y (rbins ω))
    (hd : ∀ ω, AllDone c (sbins ω) (sched ω)) (hd' : ∀ ω, AllDone c (sbins' ω) (sched' ω))
    (A : Ω → List (Nat × Nat × Block)) (hA : ∀ ω, Asks c (Y.map (otOf (h ω) c.N c.B L)) (rbins ω) (A ω)) (hs : SameCommon X X' Y)
    (E : ∀ ω, Set (View (A ω))) :
    ∫⁻ ω, average c (fun ρ σ =>
        μ {ω' | view c (X.map (otOf (h ω) c.N c.B L)) (sbins ω) (binPerms ρ) (permList σ) (sched ω) (A ω) (g ω') ∈ E ω}) ∂ν ≤
      ∫⁻ ω, average c (fun ρ σ =>
        μ {ω' | view c (X'.map (otOf (h ω) c.N c.B L)) (sbins' ω) (binPerms ρ) (permList σ) (sched' ω) (A ω) (g ω') ∈ E ω}) ∂ν +
      (2 * ENNReal.ofReal (BinSize.overflowProb c.B c.N c.M * (1 + c.B / 2 ^ 64) ^ c.N) +
        4 * ((c.N * c.N * ((2 ^ log2ceil c.N + c.B - 1) / c.B) : ℕ) * ((2 ^ (log2ceil c.N + L) : ℕ) : ℝ≥0∞)⁻¹)) := by
  have h1 := average_close (ν := ν)
    (fun ω => average c fun ρ σ =>
      μ {ω' | view c (X.map (otOf (h ω) c.N c.B L)) (sbins ω) (binPerms ρ) (permList σ) (sched ω) (A ω) (g ω') ∈ E ω})
    (fun ω => average c fun ρ σ =>
      μ {ω' | view c (X'.map (otOf (h ω) c.N c.B L)) (sbins' ω) (binPerms ρ) (permList σ) (sched' ω) (A ω) (g ω') ∈ E ω})
    (({ω | Overfull c (sbins ω)} ∪ {ω | Overfull c (sbins' ω)}) ∪
      (({ω | SomeClash (h ω) c.N c.B L X X} ∪ {ω | SomeClash (h ω) c.N c.B L X' X'}) ∪
        ({ω | SomeClash (h ω) c.N c.B L X Y} ∪ {ω | SomeClash (h ω) c.N c.B L X' Y}))) 0 (Uniform.univ hh)
    (fun ω => average_le_one fun ρ σ => (measure_mono (Set.subset_univ _)).trans hu.univ.le) (fun ω hω => ?_)
  · refine h1.trans (add_le_add le_rfl ?_)
    rw [zero_add]
    have ho := C171_overfull hh c hB X hX hn sbins hS
    have ho' := C171_overfull hh c hB X' hX' hn' sbins' hS'
    have hc : ∀ P R : List Block, P.length = c.N → R.length = c.N → ν {ω | SomeClash (h ω) c.N c.B L P R} ≤
        (c.N * c.N * ((2 ^ log2ceil c.N + c.B - 1) / c.B) : ℕ) * ((2 ^ (log2ceil c.N + L) : ℕ) : ℝ≥0∞)⁻¹ := by
      intro P R hP hR
      have := C124_error_partial hh c.N c.B L hN hB hL P R
      rwa [hP, hR] at this
    have c1 := hc X X hX hX
    have c2 := hc X' X' hX' hX'
    have c3 := hc X Y hX hY
    have c4 := hc X' Y hX' hY
    refine (measure_union_le _ _).trans (add_le_add ?_ ?_)
    · refine (measure_union_le _ _).trans ?_
      rw [two_mul]
      exact add_le_add ho ho'
    · refine (measure_union_le _ _).trans ?_
      rw [show (4 : ℝ≥0∞) = 2 + 2 by norm_num, add_mul, two_mul]
      exact add_le_add ((measure_union_le _ _).trans (add_le_add c1 c2)) ((measure_union_le _ _).trans (add_le_add c3 c4))
  · simp only [Set.mem_union, not_or, Set.mem_ofPred_eq] at hω
    obtain ⟨⟨o1, o2⟩, ⟨⟨s1, s2⟩, s3, s4⟩⟩ := hω
    rw [add_zero]
    exact (C171_plain hu c L (h ω) X X' Y (sbins ω) (sbins' ω) (rbins ω) (sched ω) (sched' ω) hX hX' hY hn hn' hT hB hov (hS ω) (hS' ω) (hR ω) o1 o2
      (hd ω) (hd' ω) s1 s2 s3 s4 (A ω) (hA ω) hs (E ω)).le

/-- C171, with the parameters of the code: as many bins as elements, the size of the bins as `get_bin_size` computes it, the length of the OT input as `init`
computes it. Then the difference is at most `2^-(statSec - 5)`. -/
theorem C171_default (hu : Uniform μ Set.univ (2 ^ 128) g) (hh : Uniform ν Set.univ (2 ^ 128) fun ω x => (h ω x).toNat) (c : Cfg) (statSec : Nat)
    (X X' Y : List Block) (sbins sbins' rbins : Ω → Nat → List Nat) (sched sched' : Ω → List Nat) (hX : X.length = c.N) (hX' : X'.length = c.N)
    (hY : Y.length = c.N) (hn : X.Nodup) (hn' : X'.Nodup) (hT : 0 < c.T) (hov : c.B * c.T < 2 ^ 64) (hN : c.N < 2 ^ 31) (hN2 : 2 ≤ c.N)
    (hB : c.B = c.N) (hM : BinSize.Returns c.B c.N statSec (.ok c.M)) (hs5 : 5 ≤ statSec) (hL : log2ceil c.N + (statSec + log2ceil c.N - 1) ≤ 128)
    (hS : ∀ ω, Filled c (binOf (h ω) c.N c.B) X (sbins ω)) (hS' : ∀ ω, Filled c (binOf (h ω) c.N c.B) X' (sbins' ω))
    (hR : ∀ ω, Filled c (binOf (h ω) c.N c.B) Y (rbins ω)) (hd : ∀ ω, AllDone c (sbins ω) (sched ω)) (hd' : ∀ ω, AllDone c (sbins' ω) (sched' ω))
    (A : Ω → List (Nat × Nat × Block)) (hA : ∀ ω, Asks c (Y.map (otOf (h ω) c.N c.B (initBits statSec c.N none).1)) (rbins ω) (A ω))
    (hs : SameCommon X X' Y) (E : ∀ ω, Set (View (A ω))) :
    ∫⁻ ω, average c (fun ρ σ => μ {ω' | view c (X.map (otOf (h ω) c.N c.B (initBits statSec c.N none).1)) (sbins ω) (binPerms ρ) (permList σ) (sched ω)
        (A ω) (g ω') ∈ E ω}) ∂ν ≤
      ∫⁻ ω, average c (fun ρ σ => μ {ω' | view c (X'.map (otOf (h ω) c.N c.B (initBits statSec c.N none).1)) (sbins' ω) (binPerms ρ) (permList σ)
        (sched' ω) (A ω) (g ω') ∈ E ω}) ∂ν + ((2 ^ (statSec - 5) : ℕ) : ℝ≥0∞)⁻¹ := by
  have hN64 : c.N < 2 ^ 64 := by omega
  have hsec : statSec ≤ 2 ^ 32 := by omega
  have hbits := C124_input_bits statSec c.N hN64 (by omega) hsec
  refine (C171_hashed hu hh c _ X X' Y sbins sbins' rbins sched sched' hX hX' hY hn hn' hT (by omega) hov hN64 (by rw [hbits]; exact hL) hS hS' hR hd hd'
    A hA hs E).trans (add_le_add le_rfl ?_)
  exact Rr17b.default_bound c.N c.B c.M statSec hN hN2 hB hM hs5 hsec
end

/-! ### non-vacuity -/

/-- Random values as assumed exist. -/
example : (∃ (Ω : Type) (_ : MeasurableSpace Ω) (μ : Measure Ω) (g : Ω → Nat × Nat × Block → Nat), Uniform μ Set.univ (2 ^ 128) g) ∧
    ∃ (Ω : Type) (_ : MeasurableSpace Ω) (ν : Measure Ω) (h : Ω → Block → Block), Uniform ν Set.univ (2 ^ 128) fun ω x => (h ω x).toNat := by
  obtain ⟨μ, hμ⟩ := Coll.exists_uniform_any (Nat × Nat × Block) (2 ^ 128) (by positivity)
  obtain ⟨ν, hν⟩ := Coll.exists_uniform_any Block (2 ^ 128) (by positivity)
  exact ⟨⟨_, _, μ, _, hμ⟩, _, _, ν, fun ω x => BitVec.ofFin (ω x), hν⟩

/-- Bins as assumed, for any hash function. -/
example (c : Cfg) (f : Block → Nat) (X : List Block) :
    Filled c f X fun b => (List.range c.N).filter fun i => f (X.getD i 0) == b := fun _ _ => List.Perm.refl _

/-- A schedule in which the threads finish, whatever is in the bins: two threads, three bins. -/
example (bins : Nat → List Nat) : AllDone ⟨4, 3, 2, 2, 8, fun _ _ x => x, fun _ _ x => x⟩ bins [1, 0, 1] := by
  intro t ht
  rw [todo_eq bins (fun _ => []) [1, 0, 1] _ _ rfl]
  revert t
  decide

/-- What the receiver asks, for any hash function: an OT of the bin of its element. -/
example (c : Cfg) (ys : List Block) (rbins : Nat → List Nat) (j t b : Nat) (hM : 0 < c.M) (ha : At c rbins j t b) :
    Asks c ys rbins [(t, c.otIdx t b + 0, ys.getD j 0)] := by
  intro a h
  rw [List.mem_singleton] at h
  exact ⟨j, t, b, 0, ha, hM, h⟩

/-- A function for which nothing clashes and no bin is too full: the elements themselves, in one bin. -/
example : ¬ SomeClash id 2 1 8 [2, 4] [2, (4 : Block)] ∧ ¬ Overfull ⟨2, 1, 2, 1, 8, fun _ _ x => x, fun _ _ x => x⟩ fun b => [[0, 1]].getD b [] := by
  constructor
  · rintro ⟨x, hx, y, hy, hne, h1, h2⟩
    simp only [List.mem_cons, List.not_mem_nil, or_false] at hx hy
    rcases hx with rfl | rfl <;> rcases hy with rfl | rfl
    · exact hne rfl
    · revert h2; decide +kernel
    · revert h2; decide +kernel
    · exact hne rfl
  · rintro ⟨b, hb, hl⟩
    have hb : b < 1 := hb
    interval_cases b
    revert hl
    decide

end Verif.Rr17
