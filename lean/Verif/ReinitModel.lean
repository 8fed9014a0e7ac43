import Verif.HasherModel
import Verif.SimpleModel
import Verif.PushModel
/-
Model of `init` on an object that was used before, for `CuckooHasher` (libPSI/Tools/CuckooHasher.cpp),
`SimpleIndex` (libPSI/Tools/SimpleIndex.cpp) and `SimpleHasher` (libPSI/Tools/SimpleHasher.cpp).

Simplifications: as in HasherModel.lean, SimpleModel.lean and PushModel.lean. `std::vector::resize` and
`Matrix::resize` keep the elements that fit and add default ones behind them. The two matrices of
`SimpleIndex` are kept by their flat buffers, so their cells move when the width changes; the cells of
the kept rows are therefore an argument (`cells`, `old`) that is the old contents when the width is the same.
-/
namespace Verif.Reinit
open Verif Verif.Cuckoo

/-- `std::vector<T>::resize(n, x)`. -/
def resize {α : Type} (l : List α) (n : Nat) (x : α) : List α :=
  l.take n ++ List.replicate (n - l.length) x

/-- `CuckooHasher::init` on a used object (CuckooHasher.cpp:148-158): `mHashes`, `mBins` and `mStash` are
resized. All parameter sets of `init` have two hash functions (CuckooHasher.cpp:124-141), so the width of
`mHashesView` does not change and whole rows are kept. -/
def initHasher (c : Hasher.Hasher) (n binCount stashSize : Nat) : Hasher.Hasher :=
  { numHashes := c.numHashes
    rows := resize c.rows n (List.replicate c.numHashes emptyVal)
    bins := resize c.bins binCount emptyVal
    stash := resize c.stash stashSize emptyVal }

/-- The kept part of row `b` of `mBins` after the resize: `mBinSizes[b]` cells, with the contents that
the flat buffer has there now. -/
def keptRow (cells : Nat → Nat → Nat) (s : Simple.Simple) (b : Nat) : List Nat :=
  (List.range (s.bins.getD b []).length).map (cells b)

/-- `SimpleIndex::init` on a used object (SimpleIndex.cpp:113-121): `mBinSizes.resize(numBins, 0)` sets
only the sizes of additional bins. `cells b j` and `old r h` are the contents of `mBins` and
`mItemToBinMap` after their resize. -/
def initSimple (cells : Nat → Nat → Nat) (old : Nat → Nat → Option Nat) (s : Simple.Simple)
    (numBins numBalls numHashes maxBin : Nat) : Simple.Simple :=
  { numHashes := numHashes
    maxBin := maxBin
    numBalls := numBalls
    bins := resize ((List.range s.bins.length).map (keptRow cells s)) numBins []
    map := old }

/-- `SimpleHasher::init` on a used object (SimpleHasher.cpp:62-74, 463-470): `mBinSizes` is a new array
of zeros (64-72), `mBins_` is resized and keeps the first `binCount * maxBin` words of its buffer. -/
def initPush (s : Push.SH) (quot maxBin : Nat) : Out Push.SH :=
  if maxBin > 255 then .throw
  else .ok ⟨max 1 quot, maxBin, fun _ => 0,
    fun a => if a < s.binCount * s.maxBin then s.mem a else 0⟩

end Verif.Reinit
