import Verif.PrtyOnlineModel
import Verif.OnlineLemmas
import Verif.PartProps
import Verif.BalancedModel
import Mathlib.Tactic.Ring
/-!
C141: the messages of the PRTY protocols fit.
-/
namespace Verif.PrtyOnline
open Verif Session Net Online

/-- The parties agree on the set sizes and on the number of bins. -/
structure Agree (R S : Args) : Prop where
  mine : R.mine = S.theirs
  theirs : R.theirs = S.mine
  bins : R.bins = S.bins

/-- The scripts as the channel treats them: a message of any size is accepted. -/
def loose (f : Nat → List TAct) (t : Nat) : List TAct := (f t).map anySize

/-! ### Scripts of two phases -/

theorem runs_two {T : Nat} (hT : 0 < T) (p m : Nat → List Nat) :
    Runs T (fun t => snd (p t) ++ bar ++ rcv (m t) ++ bar) (fun t => rcv (p t) ++ bar ++ snd (m t) ++ bar)
      Net.none Net.none Net.none Net.none := by
  have h1 : Runs T (fun t => ((p t).map Act.send).map .act) (fun t => ((p t).map Act.recv).map .act)
      Net.none Net.none Net.none Net.none := Runs.pre fun t _ => Pre.sendsToB _
  have h2 : Runs T (fun t => ((m t).map Act.recv).map .act) (fun t => ((m t).map Act.send).map .act)
      Net.none Net.none Net.none Net.none := Runs.pre fun t _ => Pre.sendsToA _
  refine (h1.append ((bars hT).append (h2.append (bars hT)))).congr ?_ ?_ <;>
    (intro t _; simp [snd_eq, rcv_eq, bar])

theorem runs_big {T : Nat} (hT : 0 < T) (p : List Nat) (m : Nat → List Nat) :
    Runs T (fun t => bar ++ first t (snd p) ++ bar ++ rcv (m t) ++ bar)
      (fun t => bar ++ first t (rcv p) ++ bar ++ bar ++ snd (m t) ++ bar)
      Net.none Net.none Net.none Net.none := by
  have h1 : Runs T (fun t => (if t = 0 then p.map Act.send else []).map .act)
      (fun t => (if t = 0 then p.map Act.recv else []).map .act)
      Net.none Net.none Net.none Net.none := Runs.pre fun t _ => Pre.first t (Pre.sendsToB _)
  have h2 : Runs T (fun t => ((m t).map Act.recv).map .act) (fun t => ((m t).map Act.send).map .act)
      Net.none Net.none Net.none Net.none := Runs.pre fun t _ => Pre.sendsToA _
  refine ((bars hT).append (h1.append ((bars hT).append ((Runs.barS hT).append (h2.append (bars hT)))))).congr ?_ ?_ <;>
    (intro t _; simp only [← first_eq]; simp [snd_eq, rcv_eq, bar])

theorem any_snd (l : List Nat) : (snd l).map anySize = snd (l.map fun _ => 0) := by
  unfold snd; rw [List.map_map, List.map_map]; rfl
theorem any_rcv (l : List Nat) : (rcv l).map anySize = rcv (l.map fun _ => 0) := by
  unfold rcv; rw [List.map_map, List.map_map]; rfl
theorem any_bar : bar.map anySize = bar := rfl
theorem any_first (t : Nat) (l : List TAct) : (first t l).map anySize = first t (l.map anySize) := by
  unfold first; split <;> rfl

/-! ### Both parties with the same sizes -/

theorem field_eq {R S : Args} (h : Agree R S) : fieldR R = fieldS S := by unfold fieldR fieldS; rw [h.mine]

theorem hash_eq {R S : Args} (h : Agree R S) : R.theirs * R.mine = S.theirs * S.mine := by
  rw [h.mine, h.theirs, Nat.mul_comm]

/-- C141, `init`. -/
theorem C141_init (R S : Args) (h : Agree R S) (T : Nat) : Completes (two T (initRecv R) (initSend S)) := by
  have h1 : Runs T (fun t => (if t = 0 then [Act.ot .base false 128, .ot .iknp true (fieldR R)] else []).map .act)
      (fun t => (if t = 0 then [Act.ot .base true 128, .ot .iknp false (fieldR R)] else []).map .act)
      Net.none Net.none Net.none Net.none := Runs.pre fun t _ => Pre.first t (.ot _ _ _ (.ot _ _ _ .nil))
  refine (h1.congr ?_ ?_).completes <;> (intro t _; rw [← first_eq]; simp [initRecv, initSend, otOp, field_eq h])

/-- C141, `output`. What is missing: with line 139 of PrtySender.cpp as it is the sender does not get out of the loop over
a bin that is not empty. -/
theorem C141_output_partial (E : Env) (R S : Args) (h : Agree R S) (T : Nat) (hT : 0 < T) :
    Completes (two T (outRecv E R T) (outSend E S T)) ∧
    Completes (two T (loose (outRecv E R T)) (loose (outSend E S T))) := by
  constructor
  · refine ((runs_two hT (polys R.bins (recvMaxBinSize * polyMaskBytes (fieldR R)) T)
      (masks R.theirs (E.hashBytes (R.theirs * R.mine)) T)).congr ?_ ?_).completes
    · intro t _; rfl
    · intro t _
      simp only [outSend]
      rw [← h.bins, ← hash_eq h, ← h.theirs, ← field_eq h]
  · refine ((runs_two hT (fun t => (polys R.bins (recvMaxBinSize * polyMaskBytes (fieldR R)) T t).map fun _ => 0)
      (fun t => (masks R.theirs (E.hashBytes (R.theirs * R.mine)) T t).map fun _ => 0)).congr ?_ ?_).completes
    · intro t _
      simp only [loose, outRecv, List.map_append, any_snd, any_rcv, any_bar]
    · intro t _
      simp only [loose, outSend, List.map_append, any_snd, any_rcv, any_bar]
      rw [← h.bins, ← hash_eq h, ← h.theirs, ← field_eq h]

/-- C141, `outputBestComm`, for messages of any sizes. -/
theorem C141_best (size : Nat → Nat) (R S : Args) (h : Agree R S) (T : Nat) (hT : 0 < T) :
    Completes (two T (bestRecv size R T) (bestSend size S T)) ∧
    Completes (two T (loose (bestRecv size R T)) (loose (bestSend size S T))) := by
  constructor
  · refine ((runs_two hT (polys R.bins (recvMaxBinSize * polyMaskBytes (fieldR R)) T) (bestMasks size T)).congr ?_ ?_).completes
    · intro t _; rfl
    · intro t _
      simp only [bestSend]
      rw [← h.bins, ← field_eq h]
  · refine ((runs_two hT (fun t => (polys R.bins (recvMaxBinSize * polyMaskBytes (fieldR R)) T t).map fun _ => 0)
      (fun t => (bestMasks size T t).map fun _ => 0)).congr ?_ ?_).completes
    · intro t _
      simp only [loose, bestRecv, List.map_append, any_snd, any_rcv, any_bar]
    · intro t _
      simp only [loose, bestSend, List.map_append, any_snd, any_rcv, any_bar]
      rw [← h.bins, ← field_eq h]

/-- C141, `outputBigPoly`, for a receiver's set that is not empty. -/
theorem C141_big (size : Nat → Nat → Nat) (R S : Args) (h1 : R.mine = S.theirs) (h2 : R.theirs = S.mine)
    (hn : 0 < R.mine) (hn' : R.mine < 2 ^ 64) (T : Nat) (hT : 0 < T) :
    Completes (two T (bigRecv size R T) (bigSend size S T)) ∧
    Completes (two T (loose (bigRecv size R T)) (loose (bigSend size S T))) := by
  have e : PrtyDelta.minusOne S.theirs + 1 = R.mine := by
    rw [← h1]; unfold PrtyDelta.minusOne; omega
  have ef : fieldS S = fieldR R := by unfold fieldR fieldS; rw [h1]
  constructor
  · refine ((runs_big hT (bigPolys R.mine (fieldR R)) (bigMasks size R.theirs T)).congr ?_ ?_).completes
    · intro t _; rfl
    · intro t _
      simp only [bigSend, e, ef, h2]
  · refine ((runs_big hT ((bigPolys R.mine (fieldR R)).map fun _ => 0)
      (fun t => (bigMasks size R.theirs T t).map fun _ => 0)).congr ?_ ?_).completes
    · intro t _
      simp only [loose, bigRecv, List.map_append, any_snd, any_rcv, any_bar, any_first]
    · intro t _
      simp only [loose, bigSend, List.map_append, any_snd, any_rcv, any_bar, any_first, e, ef, h2]

/-! ### Amounts -/

theorem share_sum (n T : Nat) (hT : 0 < T) (hov : n * T < 2 ^ 64) : ((List.range T).map (share n T)).sum = n := by
  have := congrArg List.length (Part.C31_scaled_ranges n T hT hov)
  rw [List.length_flatMap, List.length_range] at this
  refine Eq.trans ?_ this
  congr 1
  apply List.map_congr_left
  intro t _
  simp [share, Part.interval]

theorem sum_mul (l : List Nat) (k : Nat) : (l.map (· * k)).sum = l.sum * k := by
  induction l with
  | nil => simp
  | cons a l ih => simp [ih, Nat.add_mul]

theorem sum_twice (l : List Nat) (k : Nat) : (l.flatMap fun c => [c * k, c * k]).sum = 2 * l.sum * k := by
  induction l with
  | nil => simp
  | cons a l ih => rw [List.flatMap_cons, List.sum_append, ih]; simp; ring

theorem polys_sum (bins per T t : Nat) : (polys bins per T t).sum = share bins T t * per := by
  unfold polys
  rw [sum_mul, chunks_sum (by decide)]

theorem masks_sum (n hash T t : Nat) : (masks n hash T t).sum = share n T t * (2 * hash) := by
  unfold masks
  rw [sum_twice, chunks_sum (by decide)]; ring

/-- What these messages amount to, `output` and `outputBestComm`: one polynomial for each bin, in messages for at most
four. -/
theorem C141_amount_polys (bins per T : Nat) (hT : 0 < T) (hov : bins * T < 2 ^ 64) :
    ((List.range T).map fun t => (polys bins per T t).sum).sum = bins * per := by
  simp only [polys_sum]
  have := sum_mul ((List.range T).map (share bins T)) per
  rw [List.map_map, share_sum bins T hT hov] at this
  exact this

/-- Two masks for each item of the sender. -/
theorem C141_amount_masks (n hash T : Nat) (hT : 0 < T) (hov : n * T < 2 ^ 64) :
    ((List.range T).map fun t => (masks n hash T t).sum).sum = 2 * n * hash := by
  simp only [masks_sum]
  have := sum_mul ((List.range T).map (share n T)) (2 * hash)
  rw [List.map_map, share_sum n T hT hov] at this
  rw [show 2 * n * hash = n * (2 * hash) by ring]
  exact this

/-- `outputBigPoly`: the polynomials have `n` coefficients of `polyMaskBytes` bytes. -/
theorem C141_amount_big_polys (n field : Nat) (h : 32 ≤ (field + 7) / 8) :
    (bigPolys n field).sum = n * ((field + 7) / 8) := by
  simp only [bigPolys, polyMaskBytes, List.sum_cons, List.sum_nil]
  obtain ⟨k, hk⟩ : ∃ k, (field + 7) / 8 = 32 + k := ⟨_, (Nat.add_sub_cancel' h).symm⟩
  rw [hk]
  simp only [show 32 + k - 2 * 16 = k by omega]
  ring

/-- `outputBigPoly`: a thread with `k + 1` masks sends a message for each `2^14` differences. -/
theorem C141_amount_big_masks (size : Nat → Nat → Nat) (n T t k : Nat) (hT : 0 < T) (ht : t < T) (hov : n * T < 2 ^ 64)
    (hk : share n T t = k + 1) : (bigMasks size n T t).length = (k + (2 ^ 14 - 1)) / 2 ^ 14 := by
  unfold share at hk
  have hle : Part.bound n T (t + 1) ≤ n := by
    unfold Part.bound
    apply Nat.div_le_of_le_mul
    refine Nat.le_trans (Nat.mod_le _ _) ?_
    rw [Nat.mul_comm]
    exact Nat.mul_le_mul_right n (by omega)
  have hn : n < 2 ^ 64 := Nat.lt_of_le_of_lt (Nat.le_mul_of_pos_right n hT) hov
  unfold bigMasks PrtyDelta.chunks
  simp only [List.length_map, List.length_range]
  have : PrtyDelta.minusOne (min (Part.bound n T (t + 1)) n) = Part.bound n T (t + 1) - 1 := by
    rw [Nat.min_eq_left hle]
    unfold PrtyDelta.minusOne
    omega
  rw [this]
  unfold stepSizeMaskSent
  rw [show Part.bound n T (t + 1) - 1 - Part.bound n T t = k by omega]

example : (List.range 3).map (fun t => polys 10 5 3 t) = [[15], [15], [20]] ∧ masks 5 2 1 0 = [10, 10] := by decide +kernel
example : (bigPolys 3 400).sum = 150 ∧ (bigMasks (fun _ _ => 0) 5 1 0).length = 1 := by decide +kernel

/-- The bins of the receiver are those `BalancedIndex::init` makes for bins of 40 elements with one dummy; there is room for all
its elements and the dummies. -/
theorem C141_bins (n : Nat) : (∃ b, Balanced.init n 40 1 = .ok b ∧ b.numBins = recvBins n) ∧ n + recvBins n ≤ recvBins n * 40 := by
  refine ⟨⟨_, rfl, rfl⟩, ?_⟩
  have e : recvBins n = 1 + n / 39 := rfl
  omega

/-- In `outputBestComm` the masks of each of the two hash functions are sent in one message, whatever the number of threads. -/
theorem C141_best_messages (size : Nat → Nat) (T : Nat) (hT : 0 < T) :
    (List.range T).flatMap (bestMasks size T) = [size 0, size 1] := by
  by_cases h1 : T = 1
  · subst h1; rfl
  · obtain ⟨k, rfl⟩ : ∃ k, T = k + 2 := ⟨T - 2, by omega⟩
    rw [show List.range (k + 2) = [0, 1] ++ (List.range k).map (2 + ·) by
      rw [Nat.add_comm, List.range_add]; rfl]
    rw [List.flatMap_append, List.flatMap_map]
    have : (List.range k).flatMap (fun i => bestMasks size (k + 2) (2 + i)) = [] := by
      rw [List.flatMap_eq_nil_iff]
      intro i _
      unfold bestMasks
      rw [if_pos (by omega), if_neg (by omega)]
    rw [this]
    simp [bestMasks]

/-! ### Different numbers of bins -/

/-- If the sender has more bins in the share of a thread than the receiver puts into messages, that thread of the sender
never gets through, although the channel accepts messages of any size. -/
theorem C141_more_bins (E : Env) (R S : Args) (T t : Nat) (ht : t < T)
    (hb : (share R.bins T t + 3) / 4 < (share S.bins T t + 3) / 4) (s : Net.St Thread)
    (hs : Net.Reach (start (two T (loose (outRecv E R T)) (loose (outSend E S T)))) s) : s.pc (true, t) ≠ [] := by
  intro hd
  have h := (prefix_sender ht hs hd).length_le
  simp only [loose, outRecv, outSend, List.map_append, any_snd, any_rcv, any_bar, sent_append, got_append, sent_snd,
    got_snd, sent_rcv, got_rcv, sent_bar, got_bar, List.nil_append, List.append_nil, polys, List.length_map] at h
  rw [chunks_regions (by decide), chunks_regions (by decide), List.length_map, List.length_map, List.length_range,
    List.length_range] at h
  have e : stepSize = 4 := rfl
  rw [e] at h
  omega

/-! ### Non-vacuity -/

/-- A set of 1000 items, 26 bins, two threads: four messages with polynomials and two with masks on channel 1. -/
example : (outRecv ⟨fun _ => 8⟩ ⟨1000, 900, recvBins 1000⟩ 2 1) =
    snd [4 * 2080, 4 * 2080, 4 * 2080, 2080] ++ bar ++ rcv [3600, 3600] ++ bar := by decide +kernel
example : Agree ⟨1000, 900, 26⟩ ⟨900, 1000, 26⟩ := ⟨rfl, rfl, rfl⟩
/-- Three threads: the third one has no masks in `outputBestComm`. -/
example : (List.range 3).map (bestMasks (fun h => 100 + h) 3) = [[100], [101], []] := by decide
example : bestMasks (fun h => 100 + h) 1 0 = [100, 101] := by decide
/-- Sets of 40000 items, two threads: two messages each. -/
example : bigMasks (fun t k => 10 * t + k) 40000 2 1 = [10, 11] := by decide +kernel
example : (share 26 2 0 + 3) / 4 < (share 40 2 0 + 3) / 4 := by decide

end Verif.PrtyOnline
