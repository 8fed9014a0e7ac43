import Verif.BalancedLemmas
/-
Property theorems C18, C54, C55: `BalancedIndex`.

C54, full property: the hash index stored with an item names the hash function that gives its bin (and
so does the stored block, which is the item for index 0 and the item with its last bit flipped
otherwise). False of the code: an item moved by the balancing loop keeps its old index
(`C54_moved_item`). Without moves it holds (`C54_hash_index_partial`).

C55, full property: the balancing loop ends once no bin holds more than the maximum. False of the code:
a bin that reaches exactly the maximum stays in the list of heavy bins, and the loop can go on for
ever (`C55_never_ends`). It holds when no bin is too full after the first pass
(`C55_no_heavy_partial`).

Specification vocabulary: an item's bins are the two halves of its cipher text modulo the number of bins.
-/
namespace Verif.Balanced
open Verif

/-- Number of the bin that hash function `h` gives to `x`. -/
def choice (aes : Block → Block) (nb : Nat) (x : Block) (h : Nat) : Nat :=
  (if h = 0 then (BitVec.extractLsb' 0 64 (aes x)).toNat
   else (BitVec.extractLsb' 64 64 (aes x)).toNat) % nb

theorem choice_zero (aes : Block → Block) (nb : Nat) (x : Block) :
    choice aes nb x 0 = bin1 aes nb x := by
  simp [choice, bin1]

theorem choice_one (aes : Block → Block) (nb : Nat) (x : Block) {h : Nat} (hh : h ≠ 0) :
    choice aes nb x h = bin2 aes nb x := by
  have := (aes x).isLt
  simp only [choice, bin2, hh, if_false, BitVec.extractLsb'_toNat, Nat.shiftRight_eq_div_pow]
  rw [Nat.mod_eq_of_lt (a := (aes x).toNat / 2 ^ 64)]
  omega

/-- **C18.** For every hash function, every iteration order of the maps, every items and every
outcomes of `rand()`: no undefined behaviour, and if the balancing loop ends, then the index lists of the
bins together are the numbers of all items without repetition, every item is in one of its two bins,
every bin's counter is the length of its lists and at most the maximum, and the stored blocks are
the items with the tag of their hash index. -/
theorem C18_every_item_once (aes : Block → Block) (ord : Values → Values)
    (hord : ∀ v, (ord v).Perm v) {inputSize maxBin dummies : Nat} {s0 : Bal}
    (h0 : init inputSize maxBin dummies = .ok s0) (items : List Block) (cs : List Choice) :
    (∃ r, insertItems aes ord s0 items cs = .ok r) ∧
    ∀ s, insertItems aes ord s0 items cs = .ok (some s) →
      s.numBins = s0.numBins ∧
      ((List.range s.numBins).flatMap fun b => (s.bins b).idxs).Perm (List.range items.length) ∧
      (∀ b, b < s.numBins → ∀ i ∈ (s.bins b).idxs,
        ∃ h, h ≤ 1 ∧ b = choice aes s.numBins (items.getD i 0) h) ∧
      (∀ b, b < s.numBins → (s.bins b).cnt ≤ maxBin ∧ (s.bins b).idxs.length = (s.bins b).cnt ∧
        (s.bins b).hashIdxs.length = (s.bins b).cnt ∧
        (s.bins b).blks = List.zipWith (fun i h => items.getD i 0 ^^^ (if h = 0 then 0 else 1))
          (s.bins b).idxs (s.bins b).hashIdxs) := by
  have hB : ∀ k (h : k < items.length),
      (fun k => bin1 aes s0.numBins (items.getD k 0)) k = bin1 aes s0.numBins items[k] ∧
      (fun k => bin2 aes s0.numBins (items.getD k 0)) k = bin2 aes s0.numBins items[k] := by
    intro k h
    simp only [List.getD, List.getElem?_eq_getElem h, Option.getD_some, and_self]
  rcases insertItems_run hord h0 items cs _ _ hB with h | ⟨s1, hbal, h, hI, hnb, hmx, hle⟩
  · exact ⟨⟨_, h⟩, fun s hs => by rw [h] at hs; simp at hs⟩
  · refine ⟨⟨_, h⟩, fun s hs => ?_⟩
    rw [h] at hs
    injection hs with hs
    injection hs with hs
    have hnb' : s.numBins = s1.numBins := by rw [← hs]
    have hbins : ∀ b, b < s1.numBins → s.bins b = output ord items (s1.bins b) := by
      intro b hb; rw [← hs]; simp [hb]
    have hout : ∀ b, b < s1.numBins → _ := fun b hb =>
      output_fields hord items (hI.outs b)
    refine ⟨by rw [hnb', hnb], ?_, ?_, ?_⟩
    · rw [hnb', List.perm_iff_count]
      intro i
      rw [List.count_flatMap]
      have e1 : ((List.range s1.numBins).map (List.count i ∘ fun b => (s.bins b).idxs)).sum =
          sumTo s1.numBins (copies s1 i) := by
        unfold sumTo
        congr 1
        apply List.map_congr_left
        intro b hb
        have hb := List.mem_range.mp hb
        obtain ⟨es, hes, hi, _⟩ := hout b hb
        simp only [Function.comp, hbins b hb, hi, copies]
        rw [← hes.countP_eq, List.count, List.countP_map]
        rfl
      rw [e1, hI.once i]
      by_cases hi : i < items.length
      · rw [if_pos hi, List.count_range, if_pos hi]
      · rw [if_neg hi, List.count_range, if_neg hi]
    · intro b hb i hi
      rw [hnb'] at hb
      obtain ⟨es, hes, hidx, _⟩ := hout b hb
      rw [hbins b hb, hidx, List.mem_map] at hi
      obtain ⟨e, he, rfl⟩ := hi
      have hm := hes.mem_iff.mp he
      obtain ⟨k, hk⟩ := mem_itemsOf.mp hm
      obtain ⟨_, _, h3⟩ := hI.own b k e hk
      rw [hnb', hnb]
      rcases h3 with ⟨h3, _⟩ | ⟨h3, _⟩
      · exact ⟨0, by omega, by rw [choice_zero]; exact h3⟩
      · exact ⟨1, by omega, by rw [choice_one _ _ _ (by omega)]; exact h3⟩
    · intro b hb
      rw [hnb'] at hb
      obtain ⟨es, hes, h1, h2, h3, h4⟩ := hout b hb
      rw [hbins b hb, h1, h2, h3, h4]
      have hlen : es.length = (s1.bins b).cnt := by rw [hI.cnt b, hes.length_eq]
      refine ⟨hle b hb, by simpa using hlen, by simpa using hlen, ?_⟩
      rw [List.zipWith_map_left, List.zipWith_map_right, List.zipWith_self]
      apply List.map_congr_left
      intro e he
      obtain ⟨k, hk⟩ := mem_itemsOf.mp (hes.mem_iff.mp he)
      obtain ⟨_, h5, _⟩ := hI.own b k e hk
      rcases (by omega : e.1 = 0 ∨ e.1 = 1) with h6 | h6
      · simp [h6]
      · simp [h6, oneBlock]

/-- What a run leaves in the bins: (indices, hash indices, blocks); `none` if it has not ended. -/
def shown : Out (Option Bal) → Option (List (List Nat × List Nat × List Block))
  | .ok (some s) => some ((List.range s.numBins).map fun b =>
      ((s.bins b).idxs, (s.bins b).hashIdxs, (s.bins b).blks))
  | _ => none

/-- Non-vacuity: four items, two passes of the balancing loop, and it ends. -/
example : shown ((init 4 2 0).bind fun s0 => insertItems id id s0
      [1, 0x20000000000000002, 2, 0] [⟨0, 0, 0, 0⟩, ⟨0, 1, 1, 0⟩]) =
    some [([3], [1], [1]), ([0], [1], [0]), ([1, 2], [1, 1], [0x20000000000000003, 3])] := by
  decide +kernel

/-- **C54 (partial).** Full property: as below for every run that ends; the missing part is runs in which
the balancing loop makes passes, where it is false (`C54_moved_item`). -/
theorem C54_hash_index_partial (aes : Block → Block) (ord : Values → Values)
    (hord : ∀ v, (ord v).Perm v) {inputSize maxBin dummies : Nat} {s0 : Bal}
    (h0 : init inputSize maxBin dummies = .ok s0) (items : List Block) (s : Bal)
    (hs : insertItems aes ord s0 items [] = .ok (some s)) :
    ∀ b, b < s.numBins → ∀ p ∈ (s.bins b).idxs.zip (s.bins b).hashIdxs,
      b = choice aes s.numBins (items.getD p.1 0) p.2 := by
  have hB : ∀ k (h : k < items.length),
      (fun k => bin1 aes s0.numBins (items.getD k 0)) k = bin1 aes s0.numBins items[k] ∧
      (fun k => bin2 aes s0.numBins (items.getD k 0)) k = bin2 aes s0.numBins items[k] := by
    intro k h
    simp only [List.getD, List.getElem?_eq_getElem h, Option.getD_some, and_self]
  rcases insertItems_run hord h0 items [] _ _ hB with h | ⟨s1, hbal, h, hI, hnb, hmx, hle⟩
  · rw [h] at hs; simp at hs
  · rw [h] at hs
    injection hs with hs
    injection hs with hs
    obtain ⟨hp, _, _, he⟩ := init_ok h0
    have hT := firstLoop_tagged aes _ _ items (n := 0) (inv_new hp he _ _).2 (by simpa using hB)
    have hs1 : s1 = classify ord (firstLoop aes s0 0 items) := by
      unfold balance at hbal
      split at hbal
      · injection hbal with hbal; injection hbal with hbal; exact hbal.symm
      · simp at hbal
    have hT1 : Tagged s1 (fun k => bin1 aes s0.numBins (items.getD k 0))
        (fun k => bin2 aes s0.numBins (items.getD k 0)) := by
      intro b k e hk
      apply hT b k e
      rw [hs1] at hk
      simp only [classify] at hk
      split at hk <;> exact hk
    have hnb' : s.numBins = s1.numBins := by rw [← hs]
    intro b hb p hp
    rw [hnb'] at hb
    have hbins : s.bins b = output ord items (s1.bins b) := by rw [← hs]; simp [hb]
    obtain ⟨es, hes, h1, h2, _⟩ := output_fields hord items (hI.outs b)
    rw [hbins, h1, h2, List.zip_map', List.mem_map] at hp
    obtain ⟨q, hq2, rfl⟩ := hp
    obtain ⟨k, hk⟩ := mem_itemsOf.mp (hes.mem_iff.mp hq2)
    obtain ⟨_, h5, _⟩ := hI.own b k _ hk
    obtain ⟨t0, t1⟩ := hT1 b k _ hk
    rw [hnb', hnb]
    simp only []
    rcases (by omega : q.1 = 0 ∨ q.1 = 1) with h6 | h6
    · rw [h6, choice_zero]; exact t0 h6
    · rw [h6, choice_one _ _ _ (by decide)]; exact t1 (by omega)

/-- Non-vacuity: a run without balancing passes. -/
example : shown ((init 4 2 0).bind fun s0 => insertItems id id s0 [1, 0x20000000000000002, 2] []) =
    some [([0, 2], [1, 1], [0, 3]), ([], [], []), ([1], [1], [0x20000000000000003])] := by
  decide +kernel

/-- **C54 is false of the code.** A run with three bins in which item 0, whose value is 1, ends in its
first bin, number 1, with hash index 1; the bin of hash function 1 is number 0. The stored block is
the item with its last bit flipped. -/
theorem C54_moved_item :
    (shown ((init 4 2 0).bind fun s0 => insertItems id id s0
      [1, 0x20000000000000002, 2, 0] [⟨0, 0, 0, 0⟩, ⟨0, 1, 1, 0⟩])).map (·[1]?) =
      some (some ([0], [1], [1 ^^^ 1])) ∧
    choice id 3 1 0 = 1 ∧ choice id 3 1 1 = 0 := by
  decide +kernel

/-- **C55 (partial).** Full property: the loop also ends when no bin is too full after some passes; that
is false (`C55_never_ends`). If no bin is too full after the first pass the function returns at once. -/
theorem C55_no_heavy_partial (aes : Block → Block) (ord : Values → Values)
    {inputSize maxBin dummies : Nat} {s0 : Bal} (h0 : init inputSize maxBin dummies = .ok s0)
    (items : List Block) (cs : List Choice)
    (hfit : ∀ b, b < s0.numBins → ((firstLoop aes s0 0 items).bins b).cnt ≤ maxBin) :
    ∃ s, insertItems aes ord s0 items cs = .ok (some s) := by
  obtain ⟨hp, hm, hh, _⟩ := init_ok h0
  have hl : ∀ (items : List Block) (s : Bal) (n : Nat), (firstLoop aes s n items).heavy = s.heavy ∧
      (firstLoop aes s n items).maxBin = s.maxBin ∧
      (firstLoop aes s n items).numBins = s.numBins := by
    intro items
    induction items with
    | nil => exact fun s n => ⟨rfl, rfl, rfl⟩
    | cons x items ih =>
      intro s n
      unfold firstLoop
      obtain ⟨a, b, c⟩ := ih (firstPass aes s n x) (n + 1)
      have : (firstPass aes s n x).heavy = s.heavy ∧ (firstPass aes s n x).maxBin = s.maxBin ∧
          (firstPass aes s n x).numBins = s.numBins := by
        unfold firstPass; simp only []; split <;> exact ⟨rfl, rfl, rfl⟩
      rw [a, b, c]; exact this
  obtain ⟨g1, g2, g3⟩ := hl items s0 0
  have hheavy : (classify ord (firstLoop aes s0 0 items)).heavy = [] := by
    simp only [classify, g1, g2, g3, hh, hm, List.nil_append, List.filter_eq_nil_iff,
      List.mem_range, decide_eq_true_eq]
    intro b hb
    have := hfit b hb
    omega
  have hn : ¬ (items ≠ [] ∧ s0.numBins = 0) := fun h => by omega
  unfold insertItems
  rw [if_neg hn]
  cases cs <;> simp [balance, hheavy, Out.bind]

/-- Non-vacuity: the hypothesis holds for a first pass that fills one bin to the maximum. -/
example : ∃ s0, init 4 2 0 = .ok s0 ∧ ∀ b, b < 3 →
    ((firstLoop id s0 0 [1, 0x20000000000000002, 2]).bins b).cnt ≤ 2 :=
  ⟨_, rfl, by decide +kernel⟩

/-- The contents of bins 0 and 1 in the run of `C55_never_ends`, before and after the only move. -/
def Stuck (s : Bal) : Prop :=
  s.maxBin = 2 ∧ s.heavy = [0] ∧
  ((s.bins 0 = ⟨[(1, [(1, 0)]), (0, [(1, 1), (1, 2)])], [1], 3, [], [], []⟩ ∧
    s.bins 1 = ⟨[], [], 0, [], [], []⟩) ∨
   (s.bins 0 = ⟨[(1, []), (0, [(1, 1), (1, 2)])], [1], 2, [], [], []⟩ ∧
    s.bins 1 = ⟨[(0, [(1, 0)])], [0], 1, [], [], []⟩))

theorem Stuck.pass {s : Bal} (h : Stuck s) (c : Choice) : ∃ s', pass s c = .ok s' ∧ Stuck s' := by
  obtain ⟨hm, hh, ⟨h0, h1⟩ | ⟨h0, h1⟩⟩ := h
  · refine ⟨_, by simp [Balanced.pass, hh, h0, h1, lookup, Nat.mod_one]; rfl, ?_⟩
    refine ⟨by simp [move, setBin, h0, h1, hm], by simp [move, setBin, h0, h1, hm, hh], Or.inr ?_⟩
    simp [move, setBin, h0, h1, hm, update, push, lookup, Nat.mod_one]
  · rcases Nat.mod_two_eq_zero_or_one c.r3 with h3 | h3
    · exact ⟨{ s with numIters := s.numIters + 1 },
        by simp [Balanced.pass, hh, h0, h1, h3, Nat.mod_one], hm, hh, Or.inr ⟨h0, h1⟩⟩
    · refine ⟨_, by simp [Balanced.pass, hh, h0, h1, lookup, Nat.mod_one, h3], hm, hh, Or.inr ⟨h0, h1⟩⟩

theorem Stuck.balance {s : Bal} (h : Stuck s) (cs : List Choice) : balance s cs = .ok none := by
  induction cs generalizing s with
  | nil => simp [Balanced.balance, h.2.1]
  | cons c cs ih =>
    obtain ⟨s', h1, h2⟩ := h.pass c
    simp only [Balanced.balance, h.2.1, h1, Out.bind]
    simpa using ih h2

/-- The state of the run of `C55_never_ends` when the loop starts. -/
def stuckStart : Out Bal :=
  (init 3 2 0).bind fun s0 => .ok (classify id (firstLoop id s0 0 [1, 0, 2]))

theorem stuckStart_stuck : ∃ s, stuckStart = .ok s ∧ Stuck s := by
  refine ⟨_, rfl, rfl, ?_, Or.inl ⟨?_, ?_⟩⟩ <;> rfl

/-- **C55 is false of the code.** Three items, two bins for at most two items each. After the first
pass bin 0 holds all three; there are choices after whose pass no bin holds more than two items; and
for every sequence of choices the loop has not ended. -/
theorem C55_never_ends :
    (∀ cs, (init 3 2 0).bind (fun s0 => insertItems id id s0 [1, 0, 2] cs) = .ok none) ∧
    ∃ s s', stuckStart = .ok s ∧ pass s ⟨0, 0, 0, 0⟩ = .ok s' ∧ s'.numBins = 2 ∧ s'.maxBin = 2 ∧
      (s'.bins 0).cnt = 2 ∧ (s'.bins 1).cnt = 1 := by
  obtain ⟨s, h1, h2⟩ := stuckStart_stuck
  constructor
  · intro cs
    have h3 := h2.balance cs
    unfold stuckStart at h1
    cases h4 : init 3 2 0 with
    | ok s0 =>
      rw [h4] at h1
      simp only [Out.bind] at h1 ⊢
      injection h1 with h1
      unfold insertItems
      have hn : ¬ (([1, 0, 2] : List Block) ≠ [] ∧ s0.numBins = 0) := by
        have := (init_ok h4).1
        exact fun h => by omega
      rw [if_neg hn, h1, h3]
      rfl
    | throw => rw [h4] at h1; simp [Out.bind] at h1
    | ub => rw [h4] at h1; simp [Out.bind] at h1
  · exact ⟨_, _, rfl, rfl, rfl, rfl, rfl, rfl⟩

end Verif.Balanced
