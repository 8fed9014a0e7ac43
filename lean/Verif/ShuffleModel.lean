import Verif.Basic
/-
Model of `RandomShuffle` (libPSI/Tools/RandomShuffle.cpp).

Simplifications:
  * `PRNG` is an arbitrary type of generator states with arbitrary operations; `std::shuffle` is an
    arbitrary function of which the theorems assume only that it permutes its argument;
  * the half that `std::async` shuffles and the half that the calling thread shuffles are disjoint
    ranges with separate generators, so they are computed one after the other;
  * the threshold `1 << 20` (line 32) is the argument `k`;
  * sizes are natural numbers (no overflow of `vals.size() * t`).
-/
namespace Verif.Shuffle
open Verif

/-- What is used of `PRNG` and `std::shuffle`. -/
structure Rng (σ : Type) where
  /-- `prng.get<block>()`. -/
  get : σ → Block × σ
  /-- `PRNG(seed, 256)` and `PRNG(seed)`. -/
  new : Block → σ
  /-- `std::shuffle(begin, end, prng)`. -/
  shuffle : List Nat → σ → List Nat × σ

/-- `shuffle` (RandomShuffle.cpp:11-14). -/
def shuffle {σ : Type} (R : Rng σ) (l : List Nat) (p : σ) : List Nat × σ := R.shuffle l p

/-- `std::swap(*low, *mid)`; undefined behaviour outside the range. -/
def swap (l : List Nat) (i j : Nat) : Out (List Nat) :=
  if i < l.length ∧ j < l.length then .ok ((l.set i (l.getD j 0)).set j (l.getD i 0)) else .ub

/-- `bytes[i]` (RandomShuffle.cpp:66-73): byte `i % 16` of `mask & _mm_srai_epi16(blk, i / 16)`. The
shift counts are at most 7, so bit 0 of byte `m` of a word shifted by `j` is bit `8m + j` of the block. -/
def randBit (blk : Block) (i : Nat) : Bool := blk.getLsbD (8 * (i % 16) + i / 16)

/-- The inner loop (RandomShuffle.cpp:75-80), `cnt` more passes from number `i` on. -/
def mergeBits (blk : Block) (i : Nat) : Nat → List Nat → Nat → Nat → Out (List Nat × Nat × Nat)
  | 0, l, low, mid => .ok (l, low, mid)
  | cnt + 1, l, low, mid =>
    if randBit blk i then
      (swap l low mid).bind fun l => mergeBits blk (i + 1) cnt l (low + 1) (mid + 1)
    else mergeBits blk (i + 1) cnt l (low + 1) mid

/-- The merge loop (RandomShuffle.cpp:61-81). The first argument bounds the number of passes; running out
of it counts as undefined behaviour (the theorems show that it does not happen). -/
def mergeLoop {σ : Type} (R : Rng σ) : Nat → List Nat → Nat → Nat → σ → Out (List Nat × Nat × σ)
  | 0, _, _, _, _ => .ub
  | fuel + 1, l, low, mid, p =>
    if low ≠ mid ∧ mid ≠ l.length then
      let m := min 128 (min (mid - low) (l.length - mid))
      let g := R.get p
      (mergeBits g.1 0 m l low mid).bind fun (l, low, mid) => mergeLoop R fuel l low mid g.2
    else .ok (l, low, p)

/-- `mergeShuffle` (RandomShuffle.cpp:28-94). The first argument bounds the depth of the recursion. -/
def mergeShuffle {σ : Type} (R : Rng σ) (k : Nat) : Nat → List Nat → σ → Out (List Nat × σ)
  | 0, _, _ => .ub
  | fuel + 1, src, p =>
    if src.length < k then .ok (shuffle R src p)
    else
      let g := R.get p
      let half := src.length / 2
      (mergeShuffle R k fuel (src.take half) (R.new g.1)).bind fun lo =>
      (mergeShuffle R k fuel (src.drop half) g.2).bind fun hi =>
      (mergeLoop R (src.length + 1) (lo.1 ++ hi.1) 0 half hi.2).bind fun (l, low, p) =>
      let r := shuffle R (l.drop low) p
      .ok (l.take low ++ r.1, r.2)

/-- `parallelShuffle` (RandomShuffle.cpp:16-26), `nt > 0`; `start` and `end` are the same expression. -/
def parallelShuffle {σ : Type} (R : Rng σ) (k fuel : Nat) (vals : List Nat) (t nt : Nat) :
    Out (List Nat) :=
  if nt = 0 then .ub
  else
    let start := vals.length * t / nt
    let stop := vals.length * t / nt
    if start ≤ vals.length then
      (mergeShuffle R k fuel ((vals.drop start).take (stop - start)) (R.new (BitVec.ofNat 128 t))).bind fun r =>
        .ok (vals.take start ++ r.1 ++ vals.drop stop)
    else .ub

end Verif.Shuffle
