import Verif.BgiPrivHybLemmas
/-
Property C116: one DPF key says nothing about the index.
-/
namespace Verif.Bgi
open Verif
open scoped ENNReal

/-! ### C116 -/

/-- C116, the experiment is about the code: with the PRG on the other server's seeds, `keyGenOther` gives the keys of `keyGen`. -/
theorem C116_real (aes : Bool → Block → Block) (kDepth groupSize idx : Nat) (r0 r1 : Block) :
    keyGenOther aes false kDepth groupSize idx r0 r1 (fun _ s b => prg aes b s) (leafBlock aes) =
      (keyGen aes kDepth groupSize idx r0 r1).1 ∧
    keyGenOther aes true kDepth groupSize idx r0 r1 (fun _ s b => prg aes b s) (leafBlock aes) =
      (keyGen aes kDepth groupSize idx r0 r1).2 := by
  constructor <;> rfl

/-- C116. With random blocks in place of the PRG on the other server's seeds, all keys of the right shape are equally
likely, whatever the index. -/
theorem C116_uniform (aes : Bool → Block → Block) (srv : Bool) (kDepth groupSize idx : Nat) (hg : 0 < groupSize) (key : Key) :
    idealKey aes srv kDepth groupSize idx key =
      if key.k.length = kDepth + 1 ∧ key.g.length = groupSize then (((2 ^ 128 : Nat) : ℝ≥0∞)⁻¹) ^ (kDepth + 1 + groupSize)
      else 0 := by
  rw [ideal_eq aes srv kDepth groupSize idx hg]
  have e : (unif.bind fun s => (blocks kDepth).bind fun cws => (blocks groupSize).bind fun g => PMF.pure (⟨s :: cws, g⟩ : Key)) =
      (blocks (kDepth + 1)).bind fun k => (blocks groupSize).bind fun g => PMF.pure ⟨k, g⟩ := by
    simp only [blocks, PMF.bind_bind, PMF.pure_bind]
  rw [e, PMF.bind_apply, tsum_eq_single key.k]
  · rw [PMF.bind_apply, tsum_eq_single key.g]
    · rw [PMF.pure_apply, if_pos rfl, blocks_apply, blocks_apply, mul_one]
      by_cases h1 : key.k.length = kDepth + 1 <;> by_cases h2 : key.g.length = groupSize <;> simp [h1, h2, pow_add]
    · intro g hne
      rw [PMF.pure_apply, if_neg fun h => hne (congrArg Key.g h).symm, mul_zero]
  · intro k hne
    rw [PMF.bind_apply, ENNReal.tsum_eq_zero.mpr, mul_zero]
    intro g
    rw [PMF.pure_apply, if_neg (by rintro rfl; exact hne rfl), mul_zero]

/-- C116, the distribution of the key is the same for all indices. -/
theorem C116_hides (aes : Bool → Block → Block) (srv : Bool) (kDepth groupSize idx idx' : Nat) (hg : 0 < groupSize) :
    idealKey aes srv kDepth groupSize idx = idealKey aes srv kDepth groupSize idx' := by
  rw [ideal_eq aes srv kDepth groupSize idx hg, ideal_eq aes srv kDepth groupSize idx' hg]

/-- C116, for the keys of the code. What an event on the key of one server tells about replacing the PRG is at most the sum,
over the levels of the tree, of what it tells about the two PRG values of one random seed, plus what it tells about the leaf
blocks of one random seed: on no level does the server's key hold the other server's seed in any other way than through the
values of the PRG on it. -/
theorem C116_hybrid (aes : Bool → Block → Block) (srv : Bool) (kDepth groupSize idx : Nat) (E : Set Key) :
    |((realKey aes srv kDepth groupSize idx).toOuterMeasure E).toReal - ((idealKey aes srv kDepth groupSize idx).toOuterMeasure E).toReal| ≤
      ((List.range kDepth).map fun j => prgGap aes (prgKey aes srv kDepth groupSize idx j) E).sum +
        leafGap aes groupSize (leafKey aes srv kDepth groupSize idx) E := by
  have h1 := tele (fun j => ((hyb aes srv kDepth groupSize idx j).toOuterMeasure E).toReal) kDepth
  have h2 : ((List.range kDepth).map fun j => |((hyb aes srv kDepth groupSize idx j).toOuterMeasure E).toReal -
      ((hyb aes srv kDepth groupSize idx (j + 1)).toOuterMeasure E).toReal|) =
      (List.range kDepth).map fun j => prgGap aes (prgKey aes srv kDepth groupSize idx j) E := by
    apply List.map_congr_left
    intro j hj
    rw [List.mem_range] at hj
    rw [hyb_prg aes srv kDepth groupSize idx j hj, hyb_succ]
    rfl
  beta_reduce at h1
  rw [h2, hyb_zero] at h1
  have h3 : |((hyb aes srv kDepth groupSize idx kDepth).toOuterMeasure E).toReal - ((idealKey aes srv kDepth groupSize idx).toOuterMeasure E).toReal| =
      leafGap aes groupSize (leafKey aes srv kDepth groupSize idx) E := by
    rw [hyb_leaf, ideal_leaf]
    rfl
  rw [← h3]
  exact (abs_sub_le _ _ _).trans (add_le_add h1 le_rfl)

/-- C116, two indices: no event on the key of one server tells them apart better than the PRG and the leaf blocks can be told
from random. -/
theorem C116_two_indices (aes : Bool → Block → Block) (srv : Bool) (kDepth groupSize idx idx' : Nat) (hg : 0 < groupSize) (E : Set Key) (ε : ℝ)
    (hprg : ∀ j, j < kDepth → prgGap aes (prgKey aes srv kDepth groupSize idx j) E ≤ ε ∧ prgGap aes (prgKey aes srv kDepth groupSize idx' j) E ≤ ε)
    (hleaf : leafGap aes groupSize (leafKey aes srv kDepth groupSize idx) E ≤ ε ∧ leafGap aes groupSize (leafKey aes srv kDepth groupSize idx') E ≤ ε) :
    |((realKey aes srv kDepth groupSize idx).toOuterMeasure E).toReal - ((realKey aes srv kDepth groupSize idx').toOuterMeasure E).toReal| ≤
      2 * (kDepth + 1) * ε := by
  have hs : ∀ f : Nat → ℝ, (∀ j, j < kDepth → f j ≤ ε) → ((List.range kDepth).map f).sum ≤ kDepth * ε := by
    intro f hf
    have := List.sum_le_card_nsmul ((List.range kDepth).map f) ε (by
      intro x hx
      rw [List.mem_map] at hx
      obtain ⟨j, hj, rfl⟩ := hx
      exact hf j (List.mem_range.mp hj))
    simpa using this
  have h1 := C116_hybrid aes srv kDepth groupSize idx E
  have h2 := C116_hybrid aes srv kDepth groupSize idx' E
  rw [C116_hides aes srv kDepth groupSize idx idx' hg] at h1
  have h3 := hs _ fun j hj => (hprg j hj).1
  have h4 := hs _ fun j hj => (hprg j hj).2
  rw [abs_le] at h1 h2 ⊢
  constructor <;> nlinarith [h1.1, h1.2, h2.1, h2.2, hleaf.1, hleaf.2]

/-! ### non-vacuity -/

/-- Without levels only the gap of the leaf blocks is left. -/
example (aes : Bool → Block → Block) (srv : Bool) (E : Set Key) :
    |((realKey aes srv 0 1 3).toOuterMeasure E).toReal - ((idealKey aes srv 0 1 3).toOuterMeasure E).toReal| ≤
      leafGap aes 1 (leafKey aes srv 0 1 3) E := by
  simpa using C116_hybrid aes srv 0 1 3 E

/-- The distribution does give keys of the right shape. -/
example (aes : Bool → Block → Block) (srv : Bool) (idx : Nat) : idealKey aes srv 2 1 idx ⟨[3, 1, 4], [1]⟩ ≠ 0 := by
  rw [C116_uniform aes srv 2 1 idx (by decide), if_pos (by decide)]
  exact pow_ne_zero _ (by simp)

/-- Both keys together do depend on the index: with the same randomness the keys of two indices differ. -/
example : (keyGen (fun _ x => x) 0 1 3 5 6).1 ≠ (keyGen (fun _ x => x) 0 1 4 5 6).1 := by decide +kernel

end Verif.Bgi
