import Verif.PrtyPointLemmas
import Verif.BalancedProps
import Mathlib.Tactic.Linarith
import Mathlib.Tactic.Positivity
/-!
Property theorems C152: the points of the bins of PRTY's receiver.

Full property: distinct items give distinct points in every bin, and every thread sends its messages. False of the
code: `BalancedIndex` stores an item under its second hash function with its last bit flipped, so that two items that
differ in this bit can be stored as the same block in the same bin (`C152_neighbours`); a bin with a repeated block
makes the interpolation stop with an error (`C152_repeated`). It holds for sets without such neighbours
(`C152_sends_partial`).
-/
namespace Verif.PrtyPoint
open Verif Prty PrtyCoeff PrtyHide Verif.Balanced

/-- No two items differ in exactly the last bit. -/
def NoNeighbours (items : List Block) : Prop := ∀ x ∈ items, ∀ y ∈ items, x ^^^ y ≠ 1

/-- The random points of a bin differ from each other and from the points of its items. -/
def GoodPads {F : Type} (e : Nat → F) (maxBin : Nat) (pad : Nat → F) (blks : List Block) : Prop :=
  ((List.range (maxBin - blks.length)).map pad).Nodup ∧
  ∀ j, j < maxBin - blks.length → ∀ x ∈ blks, pad j ≠ e x.toNat

/-- **C152 (partial).** Full property: the same without the condition `NoNeighbours`, which is false
(`C152_neighbours`). If the items are distinct, no two of them differ in exactly the last bit and the placing
ends, then all blocks of a bin are distinct, and with good random points every thread sends its messages. -/
theorem C152_sends_partial {F : Type} [Field F] (e : Nat → F)
    (he : ∀ a b, a < 2 ^ 128 → b < 2 ^ 128 → e a = e b → a = b) (setSize : Nat) (aesT aesU : Nat → Block → Block)
    (aes : Block → Block) (ord : Values → Values) (hord : ∀ v, (ord v).Perm v) (items : List Block) (hn : items.Nodup)
    (hd : NoNeighbours items) (cs : List Choice) (s : Bal) (hs : placing aes ord items cs = .ok (some s)) :
    (∀ b, b < s.numBins → (s.bins b).blks.Nodup) ∧
    ∀ pad : Nat → Nat → F × F,
      (∀ b, b < s.numBins → GoodPads e recvMaxBinSize (fun j => (pad b j).1) (s.bins b).blks) →
      ∀ threads t, t < threads →
        ∃ ms, thread e (getFieldSizeInBits setSize) aesT aesU pad threads t s = .ok ms := by
  unfold placing at hs
  cases h0 : init items.length recvMaxBinSize recvNumDummies with
  | throw => rw [h0] at hs; cases hs
  | ub => rw [h0] at hs; cases hs
  | ok s0 =>
    rw [h0] at hs
    have hrun := (C18_every_item_once aes ord hord h0 items cs).2 s hs
    obtain ⟨hnb, hperm, _, hbin⟩ := hrun
    have hmax : s.maxBin = recvMaxBinSize := placing_maxBin hord h0 hs
    have hnd : ∀ b, b < s.numBins → (s.bins b).blks.Nodup := by
      intro b hb
      obtain ⟨_, hl1, hl2, hblk⟩ := hbin b hb
      have hN : (List.range s.numBins).Nodup := List.nodup_range
      have hi : (s.bins b).idxs.Nodup := by
        have := hperm.nodup_iff.2 List.nodup_range
        rw [List.nodup_flatMap] at this
        exact this.1 b (List.mem_range.2 hb)
      have hlt : ∀ i ∈ (s.bins b).idxs, i < items.length := by
        intro i hi
        exact List.mem_range.1 (hperm.mem_iff.1 (List.mem_flatMap.2 ⟨b, List.mem_range.2 hb, hi⟩))
      rw [hblk, List.nodup_iff_injective_getElem]
      intro i j hij
      have hi' := i.2
      have hj' := j.2
      simp only [List.length_zipWith] at hi' hj'
      simp only [List.getElem_zipWith] at hij
      have a1 := hlt _ (List.getElem_mem (l := (s.bins b).idxs) (n := i) (by omega))
      have a2 := hlt _ (List.getElem_mem (l := (s.bins b).idxs) (n := j) (by omega))
      have hxy : items[(s.bins b).idxs[i.1]'(by omega)] = items[(s.bins b).idxs[j.1]'(by omega)] := by
        rcases tag_cases hij with h | h
        · simpa [List.getD_eq_getElem?_getD, a1, a2] using h
        · exfalso
          apply hd _ (List.getElem_mem a1) _ (List.getElem_mem a2)
          simpa [List.getD_eq_getElem?_getD, a1, a2] using h
      have := (List.Nodup.getElem_inj_iff hn).1 hxy
      exact Fin.ext ((List.Nodup.getElem_inj_iff hi).1 this)
    refine ⟨hnd, fun pad hp threads t ht => ?_⟩
    have hf := C50_field setSize
    apply messages_ok
    intro r hr
    have hr := rounds_le hr
    have hle : r.1 + r.2 ≤ s.numBins := le_trans hr (by unfold endBin; omega)
    unfold roundMessage
    rw [hmax]
    have hlen : ∀ b, b < s.numBins → (s.bins b).blks.length ≤ recvMaxBinSize := by
      intro b hb
      obtain ⟨h1, h2, h3, h4⟩ := hbin b hb
      rw [h4, List.length_zipWith]
      omega
    apply message_ok (by decide) e _ (by omega) (by omega)
    · intro b hb
      obtain ⟨k, hk, rfl⟩ := List.mem_map.1 hb
      exact hlen _ (by have := List.mem_range.1 hk; omega)
    · intro k hk
      have hk' : k < r.2 := by simpa using hk
      have hb : r.1 + k < s.numBins := by omega
      obtain ⟨p1, p2⟩ := hp _ hb
      simp only [List.getElem_map, List.getElem_range]
      rw [List.nodup_append]
      refine ⟨?_, p1, ?_⟩
      · apply List.Nodup.map_on _ (hnd _ hb)
        intro x _ y _ hxy
        exact BitVec.eq_of_toNat_eq (he _ _ x.isLt y.isLt hxy)
      · intro u hu v hv huv
        obtain ⟨x, hx, rfl⟩ := List.mem_map.1 hu
        obtain ⟨j, hj, rfl⟩ := List.mem_map.1 hv
        exact p2 j (List.mem_range.1 hj) x hx huv.symm

/-- The bins that the placing leaves: the number of bins, the maximum, and the blocks of the bins. -/
def left : Out (Option Bal) → Option (Nat × Nat × List (List Block))
  | .ok (some s) => some (s.numBins, s.maxBin, (List.range s.numBins).map fun b => (s.bins b).blks)
  | _ => none

/-- Non-vacuity: three even numbers, the field of rational numbers, and negative numbers as random points. -/
example : ∃ s, placing (fun _ => 0) id [0, 2, 4] [] = .ok (some s) ∧ NoNeighbours [0, 2, 4] ∧
    (∀ b, b < s.numBins → GoodPads (fun n : Nat => (n : ℚ)) recvMaxBinSize (fun j => -1 - j) (s.bins b).blks) ∧
    ∀ a b : Nat, a < 2 ^ 128 → b < 2 ^ 128 → (a : ℚ) = b → a = b := by
  have hs : ∃ s, placing (fun _ => 0) id [0, 2, 4] [] = .ok (some s) := by
    have h : (left (placing (fun _ => 0) id [0, 2, 4] [])).isSome = true := by decide +kernel
    unfold left at h
    split at h
    · exact ⟨_, ‹_›⟩
    · simp at h
  obtain ⟨s, hs⟩ := hs
  refine ⟨s, hs, ?_, ?_, fun a b _ _ h => by exact_mod_cast h⟩
  · intro x hx y hy
    simp only [List.mem_cons, List.not_mem_nil, or_false] at hx hy
    rcases hx with rfl | rfl | rfl <;> rcases hy with rfl | rfl | rfl <;> decide
  intro b _
  constructor
  · apply List.Nodup.map _ List.nodup_range
    intro i j h
    have : (i : ℚ) = j := by linarith
    exact_mod_cast this
  · intro j _ x _ h
    have h1 : (0 : ℚ) ≤ j := by positivity
    have h2 : (0 : ℚ) ≤ x.toNat := by positivity
    linarith

/-- A bin with a repeated block stops the thread to which the bin belongs with an error, whatever the keys and random
points are; there is such a thread for every number of threads. -/
theorem C152_repeated {F : Type} [Field F] (e : Nat → F) (setSize : Nat) (aesT aesU : Nat → Block → Block)
    (pad : Nat → Nat → F × F) (s : Bal) (hm : 0 < s.maxBin)
    (hfit : ∀ b, b < s.numBins → (s.bins b).blks.length ≤ s.maxBin) (b : Nat) (hb : b < s.numBins)
    (h : ¬ (s.bins b).blks.Nodup) (threads : Nat) (hT : 0 < threads) :
    ∃ t, t < threads ∧ thread e (getFieldSizeInBits setSize) aesT aesU pad threads t s = .throw := by
  obtain ⟨t, h1, h2, h3⟩ := exists_thread hT hb
  have hf := C50_field setSize
  refine ⟨t, h1, ?_⟩
  apply messages_throw
  · intro r hr
    have hle : r.1 + r.2 ≤ s.numBins := le_trans (rounds_le hr) (by unfold endBin; omega)
    apply message_cases hm e _ (by omega) (by omega)
    intro b hb
    obtain ⟨k, hk, rfl⟩ := List.mem_map.1 hb
    exact hfit _ (by have := List.mem_range.1 hk; omega)
  · obtain ⟨r, hr, k, hk, rfl⟩ := mem_rounds (fuel := s.numBins) (by unfold endBin; omega) h2 h3
    refine ⟨r, hr, ?_⟩
    apply message_throw _ e _ (by omega) (by omega)
    exact ⟨_, List.mem_map.2 ⟨k, List.mem_range.2 hk, rfl⟩, h⟩

/-- A hash function for the witness: item 2 has bins 0 and 1, item 3 bins 1 and 0, every other item bin 0 only. -/
def hash (x : Block) : Block := if x = 2 then BitVec.ofNat 128 (2 ^ 64) else if x = 3 then 1 else 0

/-- The numbers 0 to 38, with 1 after 2. -/
def neighbours : List Block := [0, 2, 1, 3] ++ (List.range 35).map fun i => BitVec.ofNat 128 (i + 4)

/-- **C152 is false of the code.** 39 distinct items, placed into two bins without any balancing. The items 2 and 3
are both stored as the block 3 in bin 1. Whatever the keys and random points are and for every number of threads, a
thread stops with an error. -/
theorem C152_neighbours :
    neighbours.Nodup ∧ neighbours.length = 39 ∧
    ∃ s, placing hash id neighbours [] = .ok (some s) ∧ (s.bins 1).blks = [3, 3] ∧
      ∀ (F : Type) [Field F] (e : Nat → F) (aesT aesU : Nat → Block → Block) (pad : Nat → Nat → F × F) (threads : Nat),
        0 < threads → ∃ t, t < threads ∧ thread e (getFieldSizeInBits 39) aesT aesU pad threads t s = .throw := by
  refine ⟨by decide +kernel, by decide +kernel, ?_⟩
  have h : (left (placing hash id neighbours [])).map (fun p => (p.1, p.2.1, p.2.2.map List.length, p.2.2[1]?)) =
      some (2, 40, [37, 2], some [3, 3]) := by
    decide +kernel
  unfold left at h
  split at h
  · rename_i s hs
    simp only [Option.map_some, Option.some.injEq, Prod.mk.injEq] at h
    obtain ⟨h1, h2, h3, h4⟩ := h
    rw [h1] at h3 h4
    have h5 : (s.bins 1).blks = [3, 3] := by simpa [List.range_succ] using h4
    have h6 : (s.bins 0).blks.length = 37 ∧ (s.bins 1).blks.length = 2 := by simpa [List.range_succ] using h3
    refine ⟨s, hs, h5, fun F _ e aesT aesU pad threads hT => ?_⟩
    apply C152_repeated e 39 aesT aesU pad s (by omega) _ 1 (by omega) (by rw [h5]; decide) threads hT
    intro b hb
    rcases (by omega : b = 0 ∨ b = 1) with rfl | rfl <;> omega
  · simp at h

end Verif.PrtyPoint
