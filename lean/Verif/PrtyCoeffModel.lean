import Verif.PrtyModel
import Mathlib.LinearAlgebra.Lagrange
import Mathlib.Data.ZMod.Basic
import Mathlib.Algebra.Field.ZMod
/-!
# PRTY: transfer of the polynomials

Models how the coefficients of the interpolated polynomials travel from the receiver to the
sender and what the sender evaluates: `outputBigPoly` (PrtyReceiver.cpp:712-811,
PrtySender.cpp:815-965) over prime fields, and the polynomials of the bins of `output` and
`outputBestComm` (Poly/polyNTL.cpp, PrtyReceiver.cpp:110-146, 354-424, PrtySender.cpp:213-226,
520-535) over the binary field.

Simplifications:
  * a group of `k` bytes in a message is the number with these bytes, lowest first
    (`ZZFromBytes`, `BytesFromZZ` of NTL, which drop what does not fit into `k` bytes);
  * interpolation and evaluation are the mathematical ones (`Lagrange.interpolate`, `eval`); that
    the parallel code computes them is C79;
  * `rep[c]` of a polynomial is defined for `c` up to its degree (NTL normalises polynomials and
    does not check the index);
  * an empty input set (`degree = size - 1` wraps) is not modelled;
  * the binary field is an arbitrary field; the bytes of its elements are the elements themselves.
-/
namespace Verif.PrtyCoeff
open Verif Prty Polynomial

/-- Length of the coefficient vector of a normalised polynomial (NTL: `rep.length()`,
`deg + 1`). -/
noncomputable def repLen {F : Type} [Field F] (P : F[X]) : Nat :=
  open Classical in if P = 0 then 0 else P.natDegree + 1

/-! ### `outputBigPoly` -/

/-- `lastPolyMaskBytes`, PrtyReceiver.cpp:614-615, PrtySender.cpp:746-750. -/
def lastBytes (fieldSize : Nat) : Nat := (fieldSize + 7) / 8 - 32

/-- Modulus of slice `s`, PrtyReceiver.cpp:716-717, 769-771, PrtySender.cpp:827-828, 876-878. -/
def modulus (fieldSize s : Nat) : Nat := if s < 2 then mPrime128 else getPrimeLastSlice fieldSize

/-- Bytes per coefficient of slice `s`, PrtyReceiver.cpp:759-760, 805-806. -/
def width (fieldSize s : Nat) : Nat := if s < 2 then 16 else lastBytes fieldSize

/-- The number of slice `s` of a row, PrtyReceiver.cpp:739-746, 791-795: the first two slices are
blocks 0 and 1; the last one is read from block 2 on and continues into block 3. -/
def sliceVal (fieldSize : Nat) (r : Row) (s : Nat) : Nat :=
  if s < 2 then (r s).toNat
  else ((r 2).toNat + 2 ^ 128 * (r 3).toNat) % 256 ^ lastBytes fieldSize

/-- `to_ZZ_p` of an item, PrtyReceiver.cpp:733-737, PrtySender.cpp:833-837. -/
def point (p : Nat) (x : Block) : ZMod p := (x.toNat : ZMod p)

/-- The receiver's polynomial of a slice, PrtyReceiver.cpp:749-754, 798-800: `n` items `xs`, rows
`rs`. -/
noncomputable def slicePoly (p : Nat) [Fact p.Prime] (fieldSize s n : Nat) (xs : Nat → Block)
    (rs : Nat → Row) : (ZMod p)[X] :=
  Lagrange.interpolate (Finset.range n) (fun i => point p (xs i))
    fun i => (sliceVal fieldSize (rs i) s : ZMod p)

/-- The message, PrtyReceiver.cpp:756-761, 802-807: `n` coefficients of `k` bytes each.  Reading
`rep[c]` behind the coefficients is undefined. -/
noncomputable def sendCoeffs {p : Nat} [Fact p.Prime] (k n : Nat) (P : (ZMod p)[X]) :
    Out (List Nat) :=
  if repLen P < n then .ub
  else .ok ((List.range n).map fun c => (P.coeff c).val % 256 ^ k)

/-- The sender's polynomial, PrtySender.cpp:852-861, 899-909: `n = mTheirInputSize` coefficients
are read from the message. -/
noncomputable def recvPoly (p : Nat) [Fact p.Prime] (n : Nat) (vals : List Nat) :
    Out (ZMod p)[X] :=
  if vals.length < n then .ub
  else .ok (∑ c ∈ Finset.range n, C (vals.getD c 0 : ZMod p) * X ^ c)

/-- The values at the sender's items, PrtySender.cpp:820-843, 864, 883-893, 912: tree and
evaluation are made for `n = mTheirInputSize` points, the arrays `zzX` and `zzY1` have the size
`m = inputs.size()`.  A fresh `ZZ_p` is zero. -/
noncomputable def evalItems {p : Nat} [Fact p.Prime] (n m : Nat) (ys : Nat → Block)
    (Q : (ZMod p)[X]) : Out (Nat → ZMod p) :=
  if m < n then .ub else .ok fun i => if i < n then Q.eval (point p (ys i)) else 0

/-- One slice from the receiver's rows to the sender's values; `n` the receiver's set size, `n'`
what the sender believes it to be (`mTheirInputSize`), `m` the sender's set size. -/
noncomputable def slice (p : Nat) [Fact p.Prime] (fieldSize s n n' m : Nat) (xs : Nat → Block)
    (rs : Nat → Row) (ys : Nat → Block) : Out (Nat → ZMod p) :=
  (sendCoeffs (width fieldSize s) n (slicePoly p fieldSize s n xs rs)).bind fun vals =>
    (recvPoly p n' vals).bind fun Q => evalItems n' m ys Q

/-- `rcvRowR` and `rcvLastRowRs`, PrtySender.cpp:936-951: the blocks of the row from the three
values.  The last two blocks are an uninitialised array (`junk` in its second block) of which the
first `lastPolyMaskBytes` bytes are written. -/
def recovered (fieldSize : Nat) (v : Nat → Nat) (junk : Block) : Row := fun j =>
  if j < 2 then BitVec.ofNat 128 (v j)
  else if j = 2 then BitVec.ofNat 128 (v 2 % 256 ^ lastBytes fieldSize)
  else BitVec.ofNat 128 (v 2 % 256 ^ lastBytes fieldSize / 2 ^ 128 +
    junk.toNat / 256 ^ (lastBytes fieldSize - 16) * 256 ^ (lastBytes fieldSize - 16))

/-! ### The bins of `output` and `outputBestComm` -/

section Bins
variable {F : Type} [Field F]

/-- `NTL::interpolate`: an error for repeated points. -/
noncomputable def interp (pts : List (F × F)) : Out F[X] :=
  open Classical in
  if (pts.map (·.1)).Nodup then
    .ok (Lagrange.interpolate (Finset.range pts.length) (fun i => (pts.getD i (0, 0)).1)
      fun i => (pts.getD i (0, 0)).2)
  else .throw

/-- `getSuperBlksCoefficients`, polyNTL.cpp:107-151: the points of the bin and random ones up to
`degree + 1`; the coefficients of the polynomial. -/
noncomputable def superCoeffs (degree : Nat) (pts rnd : List (F × F)) : Out (List F) :=
  (interp (pts ++ rnd.take (degree + 1 - pts.length))).bind fun P =>
    .ok ((List.range (repLen P)).map P.coeff)

/-- The coefficients of the bins of one message one behind the other, PrtyReceiver.cpp:114-144. -/
noncomputable def packBins (degree : Nat) : List (List (F × F) × List (F × F)) → Out (List F)
  | [] => .ok []
  | b :: bs => (superCoeffs degree b.1 b.2).bind fun c =>
    (packBins degree bs).bind fun rest => .ok (c ++ rest)

/-- The message, PrtyReceiver.cpp:112-144, 358-420: a buffer for `maxBin` coefficients per bin,
zero at the beginning. -/
noncomputable def binMessage (maxBin : Nat) (bins : List (List (F × F) × List (F × F))) :
    Out (List F) :=
  (packBins (maxBin - 1) bins).bind fun c =>
    if bins.length * maxBin < c.length then .ub
    else .ok (c ++ List.replicate (bins.length * maxBin - c.length) 0)

/-- The coefficients that the sender takes for bin `k` of the message, PrtySender.cpp:215-224,
523-532. -/
def binCoeffs (maxBin : Nat) (msg : List F) (k : Nat) : Out (List F) :=
  if msg.length < (k + 1) * maxBin then .ub
  else .ok ((List.range maxBin).map fun c => msg.getD (k * maxBin + c) 0)

/-- `evalSuperPolynomial`, polyNTL.cpp:211-247, at one item. -/
noncomputable def evalCoeffs (coeffs : List F) (x : F) : F :=
  (∑ c ∈ Finset.range coeffs.length, C (coeffs.getD c 0) * X ^ c : F[X]).eval x

/-- `getBlkCoefficients` with a degree, polyNTL.cpp:54-104: the interpolation polynomial plus a
random multiple of the polynomial with the roots `x`; `dummy` is the random polynomial of degree
below `degree - |X| + 1`. -/
noncomputable def paddedPoly (degree : Nat) (pts : List (F × F)) (dummy : F[X]) : Out F[X] :=
  (interp pts).bind fun P =>
    .ok (if pts.length - 1 < degree then P + dummy * (pts.map fun q => X - C q.1).prod else P)

end Bins

end Verif.PrtyCoeff
