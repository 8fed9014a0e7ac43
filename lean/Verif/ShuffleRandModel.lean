import Verif.ShuffleModel
/-
Model of `RandomShuffle::mergeShuffle` (libPSI/Tools/RandomShuffle.cpp:28-94) with the randomness as a parameter.

The functions are those of `ShuffleModel`, written over any monad `m` in which blocks can be drawn: with a state as in
`ShuffleModel` they are the functions there (theorem C118_same), with distributions (`PMF`) they give the
distribution of the result for ideal generators. Simplifications as in `ShuffleModel`.
-/
namespace Verif.Shuffle
open Verif

/-- Stop at an exception or undefined behaviour, otherwise go on. -/
def bindO {m : Type → Type} [Monad m] {α β : Type} (x : m (Out α)) (f : α → m (Out β)) : m (Out β) :=
  x >>= fun
    | .ok a => f a
    | .throw => pure .throw
    | .ub => pure .ub

/-- The merge loop (RandomShuffle.cpp:61-81); `get` is `prng.get<block>()`. -/
def mergeLoopM {m : Type → Type} [Monad m] (get : m Block) : Nat → List Nat → Nat → Nat → m (Out (List Nat × Nat))
  | 0, _, _, _ => pure .ub
  | fuel + 1, l, low, mid =>
    if low ≠ mid ∧ mid ≠ l.length then
      get >>= fun blk => bindO (pure (mergeBits blk 0 (min 128 (min (mid - low) (l.length - mid))) l low mid)) fun s =>
        mergeLoopM get fuel s.1 s.2.1 s.2.2
    else pure (.ok (l, low))

/-- The last step: the rest behind `low` is shuffled by itself (RandomShuffle.cpp:85). -/
def finishM {m : Type → Type} [Monad m] (sh : List Nat → m (List Nat)) (s : List Nat × Nat) : m (Out (List Nat)) :=
  sh (s.1.drop s.2) >>= fun r => pure (.ok (s.1.take s.2 ++ r))

/-- `mergeShuffle` (RandomShuffle.cpp:28-94); `sub b x` runs `x` with the generator `PRNG(b, 256)`, `sh` is `std::shuffle`. -/
def mergeShuffleM {m : Type → Type} [Monad m] (get : m Block) (sub : Block → m (Out (List Nat)) → m (Out (List Nat)))
    (sh : List Nat → m (List Nat)) (k : Nat) : Nat → List Nat → m (Out (List Nat))
  | 0, _ => pure .ub
  | fuel + 1, src =>
    if src.length < k then sh src >>= fun r => pure (.ok r)
    else
      get >>= fun b =>
      bindO (sub b (mergeShuffleM get sub sh k fuel (src.take (src.length / 2)))) fun lo =>
      bindO (mergeShuffleM get sub sh k fuel (src.drop (src.length / 2))) fun hi =>
      bindO (mergeLoopM get (src.length + 1) (lo ++ hi) 0 (src.length / 2)) (finishM sh)

end Verif.Shuffle
