import Verif.PrtyCoeffModel
/-!
# PRTY: the polynomials of the bins from the OT rows on

Models what `PrtyReceiver::output` and `outputBestComm` compute from the items of the bins to the message with the
polynomials (PrtyReceiver.cpp:112-149, 358-426; Poly/polyNTL.cpp:107-151): the OT rows `T` and `U` of the items of a
bin (`prfOtRows`), `R = T ^ U`, the elements of the binary field made of the items and rows, the random points up to
the size of the bin, the polynomial and its coefficients.  Rows and polynomials are those of `PrtyModel` and
`PrtyCoeffModel`.

Simplifications:
  * the field with `256 ^ bytes` elements is any field `F`; `e v` is the element made of the bytes of the number `v`
    (`GF2XFromBytes` and `to_GF2E`, polyNTL.cpp:25-28); the properties ask that it takes every element exactly once for
    numbers below `256 ^ bytes`;
  * `pad k j` is the `j`-th point that `NTL::random` makes for bin `k` of the message;
  * the bins of the message are those of one round of `stepSize` bins;
  * in `outputBigPoly` the rows are computed by several threads for a part of the items each.
-/
namespace Verif.PrtyHide
open Verif Prty PrtyCoeff

/-- `polyMaskBytes`, PrtyReceiver.cpp:69, 313: bytes of an element of the field. -/
def polyBytes (fieldSize : Nat) : Nat := (fieldSize + 7) / 8

/-- The number in the first `bytes` bytes of a row, polyNTL.cpp:131 (`GF2EFromBlocks` of `setY[i]`). -/
def rowNum (bytes : Nat) (r : Row) : Nat :=
  ((r 0).toNat + 2 ^ 128 * (r 1).toNat + 2 ^ 256 * (r 2).toNat + 2 ^ 384 * (r 3).toNat) % 256 ^ bytes

/-- The rows `R` of the items of a bin, PrtyReceiver.cpp:121-132, 367-378: the vectors are zero before `prfOtRows`. -/
def binRows (aesT aesU : Nat → Block → Block) (fieldSize : Nat) (bin : List Block) : Out (List Row) :=
  match prfOtRows aesT fieldSize bin (bin.map fun _ => fun _ => 0),
      prfOtRows aesU fieldSize bin (bin.map fun _ => fun _ => 0) with
  | some ts, some us => .ok (List.zipWith rowR ts us)
  | _, _ => .ub

section
variable {F : Type} [Field F]

/-- The points of the items of a bin, polyNTL.cpp:124-133: the bytes of the item, zeros behind it, and the bytes of
the row. -/
def binPts (e : Nat → F) (bytes : Nat) (bin : List Block) (rows : List Row) : List (F × F) :=
  List.zipWith (fun x r => (e x.toNat, e (rowNum bytes r))) bin rows

/-- The random points of a bin with `cnt` items, polyNTL.cpp:135-141. -/
def padPts (maxBin : Nat) (pad : Nat → F × F) (cnt : Nat) : List (F × F) :=
  (List.range (maxBin - cnt)).map pad

/-- The points of the bins `k`, `k + 1`, …, PrtyReceiver.cpp:118-138, 364-414. -/
def receiverBins (maxBin : Nat) (e : Nat → F) (fieldSize : Nat) (aesT aesU : Nat → Block → Block)
    (pad : Nat → Nat → F × F) : Nat → List (List Block) → Out (List (List (F × F) × List (F × F)))
  | _, [] => .ok []
  | k, b :: bs =>
    (binRows aesT aesU fieldSize b).bind fun rows =>
      (receiverBins maxBin e fieldSize aesT aesU pad (k + 1) bs).bind fun rest =>
        .ok ((binPts e (polyBytes fieldSize) b rows, padPts maxBin (pad k) b.length) :: rest)

/-- The message with the polynomials, PrtyReceiver.cpp:112-149, 358-426. -/
noncomputable def message (maxBin : Nat) (e : Nat → F) (fieldSize : Nat) (aesT aesU : Nat → Block → Block)
    (pad : Nat → Nat → F × F) (bins : List (List Block)) : Out (List F) :=
  (receiverBins maxBin e fieldSize aesT aesU pad 0 bins).bind fun bs => binMessage maxBin bs

end

/-- The message of slice `s` of `outputBigPoly`, PrtyReceiver.cpp:626-708 (the rows, here for all items at once) and
714-811.  `fieldSize` is that of the number of items. -/
noncomputable def bigMessage (fieldSize : Nat) [∀ s, Fact (modulus fieldSize s).Prime]
    (aesT aesU : Nat → Block → Block) (xs : List Block) (s : Nat) : Out (List Nat) :=
  (binRows aesT aesU fieldSize xs).bind fun rows =>
    sendCoeffs (width fieldSize s) xs.length
      (slicePoly (modulus fieldSize s) fieldSize s xs.length (fun i => xs.getD i 0) fun i => rows.getD i fun _ => 0)

end Verif.PrtyHide
