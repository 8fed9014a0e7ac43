import Verif.ShuffleLemmas
/-
Property theorems C20, C56: `RandomShuffle`.

C56, full property: in a parallel shuffle each thread `t` of `nt` shuffles the part
`[n t / nt, n (t+1) / nt)` of the vector and nothing else, so that together they shuffle all of it.
False of the code: the end of every thread's part is computed with `t` instead of `t + 1`, so the part
is empty and nothing is shuffled (`C56_nothing_shuffled`). That nothing else is touched holds
(`C56_own_part_partial`).
-/
namespace Verif.Shuffle
open Verif

/-- **C20**, shuffle: given that `std::shuffle` permutes. -/
theorem C20_shuffle {σ : Type} (R : Rng σ) (hR : ∀ l p, (R.shuffle l p).1.Perm l) (l : List Nat)
    (p : σ) : (shuffle R l p).1.Perm l := hR l p

/-- **C20**, mergeShuffle: for every vector, every randomness and every threshold of at least two
(it is `2^20` in the code), no access is out of range, the loops end, and the result is a permutation. -/
theorem C20_mergeShuffle {σ : Type} (R : Rng σ) (hR : ∀ l p, (R.shuffle l p).1.Perm l) (k : Nat)
    (hk : 2 ≤ k) (src : List Nat) (p : σ) (fuel : Nat) (hf : src.length < fuel) :
    ∃ l' p', mergeShuffle R k fuel src p = .ok (l', p') ∧ l'.Perm src :=
  mergeShuffle_ok R hR hk fuel src p hf

/-- **C20**, parallelShuffle: for every thread number. -/
theorem C20_parallelShuffle {σ : Type} (R : Rng σ) (hR : ∀ l p, (R.shuffle l p).1.Perm l) (k : Nat)
    (hk : 2 ≤ k) (vals : List Nat) (t nt : Nat) (ht : t < nt) (fuel : Nat) (hf : 0 < fuel) :
    ∃ l', parallelShuffle R k fuel vals t nt = .ok l' ∧ l'.Perm vals := by
  have hs : vals.length * t / nt ≤ vals.length := by
    rw [Nat.div_le_iff_le_mul_add_pred (by omega)]
    have : vals.length * t ≤ nt * vals.length := by
      rw [Nat.mul_comm]; exact Nat.mul_le_mul_right _ (by omega)
    omega
  obtain ⟨l', p', h, hp⟩ := mergeShuffle_ok R hR hk fuel
    ((vals.drop (vals.length * t / nt)).take (vals.length * t / nt - vals.length * t / nt))
    (R.new (BitVec.ofNat 128 t)) (by simpa using hf)
  unfold parallelShuffle
  rw [if_neg (by omega)]
  simp only [if_pos hs, h, Out.bind]
  refine ⟨_, rfl, ?_⟩
  rw [Nat.sub_self, List.take_zero] at hp
  rw [List.Perm.eq_nil hp, List.append_nil, List.take_append_drop]

/-- A generator that gives fixed bits and a shuffle that reverses. -/
def sampleRng : Rng Nat := ⟨fun n => (BitVec.ofNat 128 (n * 0x1234567), n + 1), fun b => b.toNat + 1,
  fun l n => (l.reverse, n + 1)⟩

/-- Non-vacuity: a run with threshold 2, in which the merge loop moves elements. -/
example : ∃ p, mergeShuffle sampleRng 2 7 [0, 1, 2, 3, 4, 5] 3 = .ok ([2, 0, 5, 3, 1, 4], p) :=
  ⟨_, rfl⟩

/-- **C56 is false of the code.** No thread changes anything, whatever the vector. -/
theorem C56_nothing_shuffled {σ : Type} (R : Rng σ) (hR : ∀ l p, (R.shuffle l p).1.Perm l) (k : Nat)
    (hk : 2 ≤ k) (vals : List Nat) (t nt : Nat) (ht : t < nt) (fuel : Nat) (hf : 0 < fuel) :
    parallelShuffle R k fuel vals t nt = .ok vals := by
  have hs : vals.length * t / nt ≤ vals.length := by
    rw [Nat.div_le_iff_le_mul_add_pred (by omega)]
    have : vals.length * t ≤ nt * vals.length := by
      rw [Nat.mul_comm]; exact Nat.mul_le_mul_right _ (by omega)
    omega
  obtain ⟨l', p', h, hp⟩ := mergeShuffle_ok R hR hk fuel
    ((vals.drop (vals.length * t / nt)).take (vals.length * t / nt - vals.length * t / nt))
    (R.new (BitVec.ofNat 128 t)) (by simpa using hf)
  unfold parallelShuffle
  rw [if_neg (by omega)]
  simp only [if_pos hs, h, Out.bind]
  rw [Nat.sub_self, List.take_zero] at hp
  rw [List.Perm.eq_nil hp, List.append_nil, List.take_append_drop]

/-- **C56 (partial).** Full property: also every thread's part is shuffled; that is false. For every
thread, elements outside its part keep their places. -/
theorem C56_own_part_partial {σ : Type} (R : Rng σ) (hR : ∀ l p, (R.shuffle l p).1.Perm l) (k : Nat)
    (hk : 2 ≤ k) (vals : List Nat) (t nt : Nat) (ht : t < nt) (fuel : Nat) (hf : 0 < fuel) :
    ∃ l', parallelShuffle R k fuel vals t nt = .ok l' ∧ l'.length = vals.length ∧
      ∀ i, ¬ (vals.length * t / nt ≤ i ∧ i < vals.length * (t + 1) / nt) → l'[i]? = vals[i]? := by
  refine ⟨vals, C56_nothing_shuffled R hR k hk vals t nt ht fuel hf, rfl, fun _ _ => rfl⟩

/-- The generator of the example permutes, and the part of the second of three threads is left as it is. -/
example : (∀ l p, (sampleRng.shuffle l p).1.Perm l) ∧
    parallelShuffle sampleRng 2 1 [5, 6, 7, 8, 9, 10] 1 3 = .ok [5, 6, 7, 8, 9, 10] := by
  refine ⟨fun l p => by simp [sampleRng], by decide +kernel⟩

end Verif.Shuffle
