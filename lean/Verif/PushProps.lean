import Verif.PushLemmas
/-
Property theorem C19: `SimpleHasher::push`.

Full property: each push stores its value in the row of the addressed bin and never changes another bin,
for every sequence of pushes. It is false of the code: `push` does not check for a full bin. The push
after the last free place of a bin overwrites the next bin's first value (`C19_overwrites_next_bin`),
in the last bin it writes outside the buffer (`C19_out_of_range`), and the 256th push to a bin sets
its size, a `u8`, back to zero (`C19_size_wraps`). Up to the capacity of every bin it holds, for every
interleaving of concurrent pushes (`C19_push_partial`).
-/
namespace Verif.Push
open Verif

/-- **C19 (partial).** Full property: without the hypothesis `hload`; then it is false (see above).
For every set of concurrent calls `push(bin, value)` with at most `mMaxBinSize` values per bin, and
every interleaving in which each call gets its two steps: no undefined behaviour, and in the end each
bin holds exactly the values pushed to it. -/
theorem C19_push_partial {quot maxBin : Nat} {s : SH} (h0 : init quot maxBin = .ok s)
    (jobs : List (Nat × Nat)) (hbin : ∀ p ∈ jobs, p.1 < s.binCount)
    (hload : ∀ b, (jobs.filter fun p => p.1 == b).length ≤ maxBin)
    (sched : List Nat) (hs : ∀ j, j < jobs.length → 2 ≤ sched.count j) :
    ∃ c, run jobs (start s) sched = .ok c ∧
      ∀ b, (getBin c.sh b).Perm ((jobs.filter fun p => p.1 == b).map (·.2)) := by
  obtain ⟨hI, hm, _⟩ := inv_start jobs h0
  obtain ⟨c, ord, h1, h2, _, _, h3⟩ := run_inv hbin hm hload sched hI
  exact ⟨c, h1, fun b => final_bins h2 (fun j hj => h3 j hj (hs j hj)) b⟩

/-- The bins after a run. -/
def bins (nb : Nat) : Out SH → Option (List (List Nat))
  | .ok s => some ((List.range nb).map (getBin s))
  | _ => none

/-- The bins after a run of several calls. -/
def concBins (nb : Nat) : Out Conc → Option (List (List Nat))
  | .ok c => some ((List.range nb).map (getBin c.sh))
  | _ => none

/-- Non-vacuity: two interleaved pushes to bin 0 and one to bin 1. -/
example : concBins 2 ((init 2 2).bind fun s => run [(0, 5), (1, 6), (0, 7)] (start s) [2, 0, 0, 1, 2, 1]) =
    some [[7, 5], [6]] := by decide +kernel

/-- Non-vacuity: the hypotheses of C19 hold of that run. -/
example : (∀ p ∈ [(0, 5), (1, 6), (0, 7)], p.1 < 2) ∧
    (∀ b, b < 3 → ([(0, 5), (1, 6), (0, 7)].filter fun p => p.1 == b).length ≤ 2) ∧
    ∀ j, j < 3 → 2 ≤ [2, 0, 0, 1, 2, 1].count j := by decide

/-- **C19 is false of the code.** Two bins with one place each: the second push to bin 0 replaces the
value in bin 1. -/
theorem C19_overwrites_next_bin :
    bins 2 ((init 2 1).bind fun s => pushAll s [(1, 7), (0, 5)]) = some [[5], [7]] ∧
    bins 2 ((init 2 1).bind fun s => pushAll s [(1, 7), (0, 5), (0, 6)]) = some [[5, 6], [6]] := by
  decide +kernel

/-- **C19 is false of the code.** One push too many to the last bin is undefined behaviour, for every
bin size that `init` accepts and every number of bins. -/
theorem C19_out_of_range {quot maxBin : Nat} {s : SH} (h0 : init quot maxBin = .ok s) (s' : SH)
    (hs' : s'.binCount = s.binCount ∧ s'.maxBin = s.maxBin ∧ s'.sizes (s.binCount - 1) = maxBin)
    (v : Nat) : push s' (s.binCount - 1) v = .ub := by
  obtain ⟨h1, h2, h3⟩ := hs'
  obtain ⟨_, _, hmx⟩ := inv_start [] h0
  have hpos : 0 < s.binCount := by
    unfold init at h0
    split at h0
    · simp at h0
    · injection h0 with h0; subst h0; show 0 < max 1 quot; omega
  have h4 : (s.binCount - 1) * s.maxBin + maxBin = s.binCount * s.maxBin := by
    rw [hmx]
    conv => lhs; rhs; rw [← Nat.one_mul maxBin]
    rw [← Nat.add_mul]
    congr 1
    omega
  unfold push fetchAdd
  rw [h1, if_pos (by omega), h3]
  simp only [Out.bind, store, h2, h4]
  rw [if_neg (Nat.lt_irrefl _)]

/-- Non-vacuity: the full last bin is reached by pushes. -/
example : ∃ s s', init 2 1 = .ok s ∧ pushAll s [(1, 7)] = .ok s' ∧ s'.binCount = s.binCount ∧
    s'.maxBin = s.maxBin ∧ s'.sizes (s.binCount - 1) = 1 := ⟨_, _, rfl, rfl, rfl, rfl, rfl⟩

/-- **C19 is false of the code.** After 256 pushes to bin 0 of a table with two bins of 255 places, bin
0 is empty. -/
theorem C19_size_wraps :
    (bins 2 ((init 2 255).bind fun s =>
      pushAll s ((List.range 256).map fun v => (0, v)))).map (·.map List.length) = some [0, 0] := by
  decide +kernel

end Verif.Push
