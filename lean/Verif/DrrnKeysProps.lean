import Verif.DrrnKeysLemmas
/-
Property C162: what the DPF keys of DRRN show about the client's set. The client fills only as many rows of a message as the region has
queries and leaves the others zero (DrrnPsiClient.cpp:134, 184-200), so that each server sees how often the client's items are hashed into
each region. Beside these numbers the keys show nothing as long as the PRG is not told from random.
-/
namespace Verif.Drrn
open Verif Bgi
open scoped ENNReal

/-- C162. Each server counts how often the client's items are hashed into each region, but with probability `q·2^-128`, `q` the number
of queries. -/
theorem C162_loads_shown (c : Params) (hS : 0 < c.S) (aes : Bool → Block → Block) (slot : Block → Nat → Nat) (xs : List Block) (side : Bool)
    (hslot : ∀ x ∈ xs, ∀ j : Nat, j < c.h → slot x j < c.N) (hfit : ∀ b, b < c.S → asked c slot xs b ≤ c.L) :
    (viewDist c aes slot xs side).toOuterMeasure {v | ∃ b, b < c.S ∧ rowsUsed c (v.getD b []) ≠ asked c slot xs b} ≤
      (xs.length * c.h : Nat) * ((2 ^ 128 : Nat) : ℝ≥0∞)⁻¹ := by
  unfold viewDist
  rw [PMF.toOuterMeasure_map_apply]
  refine (MeasureTheory.measure_mono ?_).trans (pairs_zero side (xs.length * c.h))
  rintro sd ⟨b, hb, hne⟩
  by_contra h
  refine hne (view_loads c hS aes slot xs side hslot hfit sd (fun k hk h0 => h ⟨k, hk, h0⟩) b hb)

/-- C162. Two sets of one size that ask a region differently often are told apart: one event is certain for the first set and impossible for
the second but for a probability of `q·2^-128`. -/
theorem C162_told_apart (c : Params) (hS : 0 < c.S) (aes : Bool → Block → Block) (slot : Block → Nat → Nat) (xs xs' : List Block) (side : Bool)
    (hslot : ∀ x ∈ xs ++ xs', ∀ j : Nat, j < c.h → slot x j < c.N)
    (hfit : ∀ b, b < c.S → asked c slot xs b ≤ c.L ∧ asked c slot xs' b ≤ c.L) (b : Nat) (hb : b < c.S)
    (hne : asked c slot xs b ≠ asked c slot xs' b) :
    (viewDist c aes slot xs side).toOuterMeasure {v | rowsUsed c (v.getD b []) = asked c slot xs b}ᶜ ≤
      (xs.length * c.h : Nat) * ((2 ^ 128 : Nat) : ℝ≥0∞)⁻¹ ∧
    (viewDist c aes slot xs' side).toOuterMeasure {v | rowsUsed c (v.getD b []) = asked c slot xs b} ≤
      (xs'.length * c.h : Nat) * ((2 ^ 128 : Nat) : ℝ≥0∞)⁻¹ := by
  constructor
  · refine (MeasureTheory.measure_mono ?_).trans (C162_loads_shown c hS aes slot xs side
      (fun x hx => hslot x (List.mem_append_left _ hx)) fun b hb => (hfit b hb).1)
    intro v hv
    exact ⟨b, hb, hv⟩
  · refine (MeasureTheory.measure_mono ?_).trans (C162_loads_shown c hS aes slot xs' side
      (fun x hx => hslot x (List.mem_append_right _ hx)) fun b hb => (hfit b hb).2)
    intro v hv
    exact ⟨b, hb, fun h => hne (hv.symm.trans h)⟩

/-- C162. A server excludes every item one of whose regions has only zero rows: that an item of the client is excluded has a probability of
at most `q·2^-128`. -/
theorem C162_excluded (c : Params) (hS : 0 < c.S) (aes : Bool → Block → Block) (slot : Block → Nat → Nat) (xs : List Block) (side : Bool)
    (hslot : ∀ x ∈ xs, ∀ j : Nat, j < c.h → slot x j < c.N) (hfit : ∀ b, b < c.S → asked c slot xs b ≤ c.L) :
    (viewDist c aes slot xs side).toOuterMeasure
        {v | ∃ x ∈ xs, ∃ j, j < c.h ∧ rowsUsed c (v.getD (slot x j * c.S / c.N) []) = 0} ≤
      (xs.length * c.h : Nat) * ((2 ^ 128 : Nat) : ℝ≥0∞)⁻¹ := by
  refine (MeasureTheory.measure_mono ?_).trans (C162_loads_shown c hS aes slot xs side hslot hfit)
  rintro v ⟨x, hx, j, hj, h0⟩
  refine ⟨_, region_lt hS (hslot x hx j hj), ?_⟩
  show rowsUsed c (v.getD (slot x j * c.S / c.N) []) ≠ asked c slot xs (slot x j * c.S / c.N)
  rw [h0]
  intro h
  have h1 := List.sum_eq_zero_iff.mp h.symm _ (List.mem_map.mpr ⟨x, hx, rfl⟩)
  rw [List.countP_eq_zero] at h1
  exact h1 j (List.mem_range.mpr hj) (by simp)

/-- C162, the part that holds. The full statement would be that no event on the keys of one server tells any two sets of one size apart.
For sets that ask every region equally often, no event tells them apart better than, for all queries together, the PRG and the leaf blocks
are told from random. What is missing: sets with other loads (`C162_told_apart`: there the statement is false). -/
theorem C162_hidden_partial (c : Params) (hS : 0 < c.S) (hg : 0 < c.groupSize) (aes : Bool → Block → Block) (slot : Block → Nat → Nat)
    (xs xs' : List Block) (side : Bool) (hslot : ∀ x ∈ xs ++ xs', ∀ j : Nat, j < c.h → slot x j < c.N) (hlen : xs.length = xs'.length)
    (hloads : ∀ b, b < c.S → asked c slot xs b = asked c slot xs' b) (E : Set (List (List Block))) (ε : ℝ)
    (hsafe : Safe c aes side (positions c slot xs) (arrange c ((List.range c.S).map (asked c slot xs)) ⁻¹' E) ε)
    (hsafe' : Safe c aes side (positions c slot xs') (arrange c ((List.range c.S).map (asked c slot xs)) ⁻¹' E) ε) :
    |((viewDist c aes slot xs side).toOuterMeasure E).toReal - ((viewDist c aes slot xs' side).toOuterMeasure E).toReal| ≤
      2 * (xs.length * c.h) * (c.kDepth + 1) * ε := by
  have hl : (List.range c.S).map (asked c slot xs) = (List.range c.S).map (asked c slot xs') :=
    List.map_congr_left fun b hb => hloads b (List.mem_range.mp hb)
  rw [viewDist_eq c hS aes slot xs side fun x hx => hslot x (List.mem_append_left _ hx),
    viewDist_eq c hS aes slot xs' side fun x hx => hslot x (List.mem_append_right _ hx), ← hl,
    PMF.toOuterMeasure_map_apply, PMF.toOuterMeasure_map_apply]
  generalize arrange c ((List.range c.S).map (asked c slot xs)) ⁻¹' E = F at hsafe hsafe' ⊢
  have p1 := positions_length c hS slot xs fun x hx => hslot x (List.mem_append_left _ hx)
  have p2 := positions_length c hS slot xs' fun x hx => hslot x (List.mem_append_right _ hx)
  have h1 := hybrid_list c aes side F ε (positions c slot xs) [] hsafe
  have h2 := hybrid_list c aes side F ε (positions c slot xs') [] hsafe'
  simp only [List.map_nil, List.nil_append] at h1 h2
  rw [ideal_list c hg aes side (p1.trans ((congrArg (· * c.h) hlen).trans p2.symm)), p1] at h1
  rw [p2, ← hlen] at h2
  push_cast at h1 h2
  rw [abs_le] at h1 h2 ⊢
  constructor <;> nlinarith [h1.1, h1.2, h2.1, h2.2]

/-! ### non-vacuity -/

/-- Two regions of two slots each, one hash function, at most two queries to a region. -/
private def small : Params := { N := 4, S := 2, L := 2, h := 1, bb := 1 }

/-- Item `x` in slot `x mod 4`. -/
private def slotMod (x : Block) (_ : Nat) : Nat := x.toNat % 4

/-- The sets `{0, 1}` and `{0, 2}` ask the first region twice and once, so that both servers tell them apart. -/
example (aes : Bool → Block → Block) (side : Bool) :
    (viewDist small aes slotMod [0, 1] side).toOuterMeasure {v | rowsUsed small (v.getD 0 []) = 2}ᶜ ≤ (2 : Nat) * ((2 ^ 128 : Nat) : ℝ≥0∞)⁻¹ ∧
    (viewDist small aes slotMod [0, 2] side).toOuterMeasure {v | rowsUsed small (v.getD 0 []) = 2} ≤ (2 : Nat) * ((2 ^ 128 : Nat) : ℝ≥0∞)⁻¹ :=
  C162_told_apart small (by decide) aes slotMod [0, 1] [0, 2] side
    (fun _ _ _ _ => Nat.mod_lt _ (by decide)) (by decide +kernel) 0 (by decide) (by decide +kernel)

/-- The sets `{0, 2}` and `{1, 3}` ask both regions once. -/
example : ∀ b, b < small.S → asked small slotMod [0, 2] b = asked small slotMod [1, 3] b := by decide +kernel

/-- Their positions do differ. -/
example : positions small slotMod [0, 2] = [0, 0] ∧ positions small slotMod [1, 3] = [1, 1] ∧ 0 < small.groupSize := by decide +kernel

/-- A message with one used row of the two. -/
example : rowsUsed small (keyMsg small (fun _ x => x) slotMod [0, 2] (fun _ _ => (5, 6)) true 0) = 1 := by decide +kernel

end Verif.Drrn
