import Verif.EcdhLemmas
/-
Properties C29, C30, C61 of the ECDH protocol.
-/
namespace Verif.Ecdh
open Verif Part

variable {P : Type}

/-! ### vocabulary of the statements -/

/-- The block from which both parties take a shared element's mask, computed the sender's way. -/
def senderBlock (E : Env P) (x : Block) : Block := E.ro (E.mulB (E.mulA (E.hs x)))

/-- The same, computed from a receiver's element. -/
def receiverBlock (E : Env P) (y : Block) : Block := E.ro (E.mulA (E.mulB (E.hr y)))

/-- First `k` bytes of two blocks agree. -/
def SameBytes (k : Nat) (a b : Block) : Prop := ∀ i, i < 8 * k → a.getLsbD i = b.getLsbD i

/-- Assumptions on a run: equal positive sizes below `2^44`, at least one channel, no overflow of the
products in the ranges, and the threads insert what they received in some order. -/
structure Setting (S R : List Block) (T : Nat) (merge : List (List Block) → List Block) : Prop where
  size : S.length = R.length
  pos : 0 < R.length
  small : R.length < 2 ^ 44
  threads : 0 < T
  noWrap : R.length * T < 2 ^ 64
  order : ∀ l, (merge l).Perm l.flatten

theorem cut_eq_iff (k : Nat) (a b : Block) : cut k a = cut k b ↔ SameBytes k a b := by
  unfold cut SameBytes
  rw [show (256 : Nat) = 2 ^ 8 from rfl, ← Nat.pow_mul]
  constructor
  · intro h i hi
    have := congrArg (fun n => n.testBit i) h
    simpa [Nat.testBit_mod_two_pow, hi, BitVec.getLsbD] using this
  · intro h
    apply Nat.eq_of_testBit_eq
    intro i
    rw [Nat.testBit_mod_two_pow, Nat.testBit_mod_two_pow]
    by_cases hi : i < 8 * k
    · have := h i hi
      simpa [hi, BitVec.getLsbD] using this
    · simp [hi]

/-! ### C29 -/

/-- C29. If multiplications commute, both parties hash alike, and no two different blocks of the sender's
elements agree in their first four bytes, every common element is reported. -/
theorem C29_complete (E : Env P) (S R : List Block) (T : Nat) (merge : List (List Block) → List Block)
    (hset : Setting S R T merge) (hcomm : ∀ p, E.mulA (E.mulB p) = E.mulB (E.mulA p))
    (hhash : ∀ x, E.hs x = E.hr x)
    (hprefix : ∀ x ∈ S, ∀ y ∈ S, SameBytes 4 (senderBlock E x) (senderBlock E y) →
      senderBlock E x = senderBlock E y) :
    ∃ out, run E S R T merge = .ok out ∧
      ∀ i x, R[i]? = some x → x ∈ S → i ∈ out := by
  obtain ⟨order, hperm, e⟩ := run_eq E S R T merge hset.size hset.pos hset.small hset.threads hset.noWrap
    hset.order
  refine ⟨_, e, ?_⟩
  intro i x hi hx
  have hlt : i < R.length := by
    apply Classical.byContradiction
    intro h
    rw [List.getElem?_eq_none (by omega)] at hi
    cases hi
  rw [List.mem_filter]
  refine ⟨List.mem_range.mpr hlt, ?_⟩
  have hg : R.getD i 0 = x := by simp only [List.getD, hi, Option.getD_some]
  rw [hg, ← hhash, hcomm]
  have hmem : ∀ b, b ∈ order ↔ ∃ x ∈ S, senderBlock E x = b := by
    intro b
    rw [hperm.mem_iff, List.mem_map]
    rfl
  apply hit_complete (by have := maskBytes_ge R.length; omega) ((hmem _).mpr ⟨x, hx, rfl⟩)
  intro b' hb' hc
  obtain ⟨y, hy, ey⟩ := (hmem b').mp hb'
  rw [← ey] at hc ⊢
  exact hprefix y hy x hx ((cut_eq_iff _ _ _).mp hc)

/-- Points for the examples: blocks themselves. -/
def demo : Env Block := ⟨id, id, (· ^^^ 5#128), (· ^^^ 9#128), id⟩

example : Setting [1#128, 2, 3] [3#128, 4, 1] 2 List.flatten ∧
    run demo [1#128, 2, 3] [3#128, 4, 1] 2 List.flatten = .ok [0, 2] := by
  refine ⟨⟨rfl, by decide, by decide, by decide, by decide, fun _ => List.Perm.refl _⟩, by decide +kernel⟩

/-- The assumption about four bytes is needed: here the blocks of two sender elements agree in them, and the
common element is not reported. -/
theorem C29_prefix_needed : run demo [1#128, 1 + 2 ^ 32] [1 + 2 ^ 32, 7] 1 List.flatten = .ok [] := by
  decide +kernel

/-- So is the assumption about the hash functions: the parties call `RandomOracle` with different output
lengths, and if the first 16 bytes of the output depend on the length nothing is reported. -/
theorem C29_hash_needed :
    run { demo with hr := fun x => x + 64 } [1#128, 2] [1#128, 2] 1 List.flatten = .ok [] := by
  decide +kernel

/-! ### C30 -/

/-- C30. Every reported index belongs to an element whose mask agrees with the mask of one of the sender's
elements; the indices are reported in increasing order, hence once. -/
theorem C30_sound (E : Env P) (S R : List Block) (T : Nat) (merge : List (List Block) → List Block)
    (hset : Setting S R T merge) :
    ∃ out, run E S R T merge = .ok out ∧ out.Pairwise (· < ·) ∧
      ∀ i ∈ out, ∃ y, R[i]? = some y ∧
        ∃ x ∈ S, SameBytes (maskBytes R.length) (senderBlock E x) (receiverBlock E y) := by
  obtain ⟨order, hperm, e⟩ := run_eq E S R T merge hset.size hset.pos hset.small hset.threads hset.noWrap
    hset.order
  refine ⟨_, e, List.pairwise_lt_range.filter _, ?_⟩
  intro i hi
  rw [List.mem_filter] at hi
  have hlt := List.mem_range.mp hi.1
  refine ⟨R[i], List.getElem?_eq_getElem hlt, ?_⟩
  obtain ⟨b, hb, hc⟩ := hit_sound hi.2
  rw [hperm.mem_iff, List.mem_map] at hb
  obtain ⟨x, hx, ex⟩ := hb
  refine ⟨x, hx, (cut_eq_iff _ _ _).mp ?_⟩
  have hg : R.getD i 0 = R[i] := by
    simp only [List.getD, List.getElem?_eq_getElem hlt, Option.getD_some]
  rw [hg] at hc
  unfold senderBlock receiverBlock
  rw [ex, hc]

/-- C30, without collisions: only common elements are reported. -/
theorem C30_only_common (E : Env P) (S R : List Block) (T : Nat) (merge : List (List Block) → List Block)
    (hset : Setting S R T merge)
    (hcoll : ∀ x ∈ S, ∀ y ∈ R, SameBytes (maskBytes R.length) (senderBlock E x) (receiverBlock E y) → x = y) :
    ∃ out, run E S R T merge = .ok out ∧ ∀ i ∈ out, ∃ y, R[i]? = some y ∧ y ∈ S := by
  obtain ⟨out, e, _, h⟩ := C30_sound E S R T merge hset
  refine ⟨out, e, fun i hi => ?_⟩
  obtain ⟨y, hy, x, hx, hs⟩ := h i hi
  refine ⟨y, hy, ?_⟩
  have := hcoll x hx y (List.mem_of_getElem? hy) hs
  rw [← this]
  exact hx

/-- The mask has at least 40 + 2 log2(n) bits and fits into the hash output. -/
theorem C30_mask_size (n : Nat) (h0 : 0 < n) (h : n < 2 ^ 44) :
    2 ^ 40 * (n * n) < 2 ^ (8 * maskBytes n + 1) ∧ maskBytes n ≤ 16 := by
  refine ⟨?_, maskBytes_le h⟩
  have hn : n * n ≠ 0 := by
    intro hh
    rcases Nat.mul_eq_zero.mp hh with hh | hh <;> omega
  have h1 : n * n < 2 ^ (Nat.log2 (n * n) + 1) := (Nat.log2_lt hn).mp (Nat.lt_succ_self _)
  have h2 : 40 + (Nat.log2 (n * n) + 1) ≤ 8 * maskBytes n + 1 := by unfold maskBytes; omega
  calc 2 ^ 40 * (n * n) < 2 ^ 40 * 2 ^ (Nat.log2 (n * n) + 1) := by
        exact Nat.mul_lt_mul_of_pos_left h1 (by decide)
    _ = 2 ^ (40 + (Nat.log2 (n * n) + 1)) := (Nat.pow_add 2 40 _).symm
    _ ≤ 2 ^ (8 * maskBytes n + 1) := Nat.pow_le_pow_right (by decide) h2

/-! ### C61 -/

/-- C61. Runs with sets of different sizes end with an error. -/
theorem C61_sizes_checked (E : Env P) (S R : List Block) (T : Nat) (merge : List (List Block) → List Block)
    (hT : 0 < T) (hS : 0 < S.length) (hR : 0 < R.length) (hsmall : S.length < 2 ^ 44)
    (hovS : S.length * T < 2 ^ 64) (hovR : R.length * T < 2 ^ 64) (hne : S.length ≠ R.length) :
    run E S R T merge = .throw := by
  unfold run
  rw [if_neg (by omega), if_neg (by omega), if_neg (by have := maskBytes_le hsmall; omega)]
  rw [seqOut_throw]
  · rfl
  · intro t _
    unfold senderSecond
    split
    · intro h; cases h
    · intro h; cases h
  · obtain ⟨t, ht, hl⟩ := exists_length_ne S.length R.length T hT hovS hovR hne
    refine ⟨t, ht, ?_⟩
    unfold senderSecond receiverFirst
    rw [if_pos (by simp only [List.length_map]; exact fun h => hl h.symm)]

example : run demo [1#128, 2, 3] [3#128, 4] 2 List.flatten = .throw := by decide +kernel

end Verif.Ecdh
