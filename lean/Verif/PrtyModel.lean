import Verif.Basic
/-!
# PRTY: constants, block helpers, OT rows and the masks of `output`

Models `libPSI/PSI/Prty/PrtyDefines.h`, the parts of `PrtyReceiver.cpp` and `PrtySender.cpp`
that compute OT rows and masks, and the receiver's matching loop of `output`.

`PrtySender.cpp` does not compile as it stands (line 60: `simple.init(, , recvNumDummies)`,
lines 226 and 257 use members that `SimpleIndex` does not have); the sender's loops that are
modelled here are the ones whose meaning is clear from the text.

External functions: AES with the key of OT column `i` is an arbitrary function
`aes i : Block → Block`; the AES used as hash is an arbitrary function on the row.
-/
namespace Verif.Prty

/-- `_mm_slli_epi64(x, c)`: both 64-bit halves shifted towards higher bits; a count above 63
gives zero (which is what `BitVec` shifts do).  Intel intrinsic, used in
PrtyDefines.h:98,100,111. -/
def lanesShl (x : Block) (c : Nat) : Block :=
  (x.extractLsb' 64 64 <<< c) ++ (x.extractLsb' 0 64 <<< c)

/-- `_mm_srli_epi64(x, c)`, used in PrtyDefines.h:100,109,111. -/
def lanesShr (x : Block) (c : Nat) : Block :=
  (x.extractLsb' 64 64 >>> c) ++ (x.extractLsb' 0 64 >>> c)

/-- `_mm_slli_si128(x, 8)`: low half moved to the high half, low half zero. -/
def bytesShl8 (x : Block) : Block := x.extractLsb' 0 64 ++ (0 : BitVec 64)

/-- `_mm_srli_si128(x, 8)`: high half moved to the low half, high half zero. -/
def bytesShr8 (x : Block) : Block := (0 : BitVec 64) ++ x.extractLsb' 64 64

/-- `mm_bitshift_right`, PrtyDefines.h:94-102.  `count` is `unsigned`; `Nat` here. -/
def mmBitshiftRight (x : Block) (count : Nat) : Block :=
  let carry := bytesShl8 x
  if count ≥ 64 then lanesShl carry (count - 64)
  else lanesShl x count ||| lanesShr carry (64 - count)

/-- `mm_bitshift_left`, PrtyDefines.h:105-112. -/
def mmBitshiftLeft (x : Block) (count : Nat) : Block :=
  let carry := bytesShr8 x
  if count ≥ 64 then lanesShr carry (count - 64)
  else lanesShr x count ||| lanesShl carry (64 - count)

/-- `fillOneBlock`, PrtyDefines.h:114-118, applied to a vector of length `n`
(`mOneBlocks` has length 128, line 29). -/
def fillOneBlock (n : Nat) : List Block := (List.range n).map fun i => mmBitshiftRight oneBlock i

/-- `getFieldSizeInBits`, PrtyDefines.h:45-66. -/
def getFieldSizeInBits (setSize : Nat) : Nat :=
  if setSize ≤ 2 ^ 10 then 416
  else if setSize ≤ 2 ^ 12 then 420
  else if setSize ≤ 2 ^ 14 then 424
  else if setSize ≤ 2 ^ 16 then 428
  else if setSize ≤ 2 ^ 18 then 432
  else if setSize ≤ 2 ^ 20 then 436
  else if setSize ≤ 2 ^ 22 then 436
  else if setSize ≤ 2 ^ 24 then 444
  else 444

/-- PrtyDefines.h:35. -/
def mPrime128 : Nat := 340282366920938463463374607431768211507
/-- PrtyDefines.h:36. -/
def mPrime160 : Nat := 1461501637330902918203684832716283019655932542983
/-- PrtyDefines.h:37. -/
def mPrime164 : Nat := 23384026197294446691258957323460528314494920687733
/-- PrtyDefines.h:38. -/
def mPrime168 : Nat := 374144419156711147060143317175368453031918731001943
/-- PrtyDefines.h:39. -/
def mPrime172 : Nat := 5986310706507378352962293074805895248510699696029801
/-- PrtyDefines.h:40. -/
def mPrime176 : Nat := 95780971304118053647396689196894323976171195136475563
/-- PrtyDefines.h:41. -/
def mPrime180 : Nat := 1532495540865888858358347027150309183618739122183602191
/-- PrtyDefines.h:42. -/
def mPrime184 : Nat := 24519928653854221733733552434404946937899825954937634843
/-- PrtyDefines.h:43. -/
def mPrime188 : Nat := 392318858461667547739736838950479151006397215279002157113

/-- `getPrimeLastSlice`, PrtyDefines.h:69-90.  (The unsigned subtraction in line 71 does not
wrap for any value of `getFieldSizeInBits`; truncated subtraction is used here.) -/
def getPrimeLastSlice (fieldSize : Nat) : Nat :=
  let lastBit := fieldSize - 2 * 128
  if lastBit = 160 then mPrime160
  else if lastBit = 164 then mPrime164
  else if lastBit = 168 then mPrime168
  else if lastBit = 172 then mPrime172
  else if lastBit = 176 then mPrime176
  else if lastBit = 180 then mPrime180
  else if lastBit = 184 then mPrime184
  else if lastBit = 188 then mPrime188
  else mPrime188

/-- `std::array<block, numSuperBlocks>`: four blocks, given by their index. -/
abbrev Row := Nat → Block

/-- Assignment `r[j] = v`. -/
def setBlk (r : Row) (j : Nat) (v : Block) : Row := fun k => if k = j then v else r k

/-- The columns in the order of the loops of `prfOtRows`, PrtyDefines.h:125-126 and 139, as
pairs of super block and bit; `n` is `arrAes.size()`. -/
def columns (n : Nat) : List (Nat × Nat) :=
  ((List.range 3).flatMap fun j => (List.range 128).map fun i => (j, i)) ++
    (List.range (n - 384)).map fun i => (3, i)

/-- One assignment of the inner loop of `prfOtRows`, PrtyDefines.h:132-133 / 144-145, for the
item `x`. -/
def columnStep (aes : Nat → Block → Block) (x : Block) (r : Row) (c : Nat × Nat) : Row :=
  setBlk r c.1 (r c.1 ^^^ (aes (c.1 * 128 + c.2) x &&& (fillOneBlock 128).getD c.2 0))

/-- `prfOtRows`, PrtyDefines.h:120-150: for each column, all items.  `outs` is the content of
`outputs` after the `resize` in line 123.  Fails (`none`) if a column index is outside
`mOneBlocks` (more than 512 columns) or if fewer than 384 AES keys are given. -/
def prfOtRows (aes : Nat → Block → Block) (n : Nat) (inputs : List Block) (outs : List Row) :
    Option (List Row) :=
  if n < 384 ∨ 512 < n then none
  else some ((columns n).foldl
    (fun outs c => (inputs.zip outs).map fun p => columnStep aes p.1 p.2 c) outs)

/-- The columns in the order of the loops of `prfOtRow`, PrtyDefines.h:156-157 and 170-185
(`break` when the keys are used up). -/
def columnsOne (n : Nat) : List (Nat × Nat) :=
  ((List.range 3).flatMap fun j => (List.range 128).map fun i => (j, i)) ++
    ((List.range 128).takeWhile fun i => 384 + i < n).map fun i => (3, i)

/-- `prfOtRow`, PrtyDefines.h:152-191: one item; with `hIdx = 1` the item is XORed with
`OneBlock`. -/
def prfOtRow (aes : Nat → Block → Block) (n : Nat) (input : Block) (out : Row) (hIdx : Nat) :
    Row :=
  (columnsOne n).foldl
    (columnStep aes (if hIdx = 1 then input ^^^ oneBlock else input)) out

/-- `mTruncateBlk`, PrtyReceiver.cpp:30-35 and PrtySender.cpp:29-34. -/
def truncateBlk (fieldSize : Nat) : Block :=
  (List.range (fieldSize - 384)).foldl (fun b i => b ^^^ (fillOneBlock 128).getD i 0) 0

/-- `mOtChoices` padded with zeros to 512 bits, seen as four blocks (`getSpan<block>`),
PrtySender.cpp:43-58, 77: bit `i` of block `j` is choice `128 j + i`, or zero from the field
size on. -/
def choiceBlock (choice : Nat → Bool) (fieldSize : Nat) (j : Nat) : Block :=
  ofBits 128 fun i => decide (j * 128 + i < fieldSize) && choice (j * 128 + i)

/-- `rowR = rowT ^ rowU`, PrtyReceiver.cpp:130-132, 660-664. -/
def rowR (t u : Row) : Row := fun j => t j ^^^ u j

/-- The row the receiver hashes: the last block truncated, PrtyReceiver.cpp:159. -/
def receiverRow (fieldSize : Nat) (t : Row) : Row :=
  fun j => if j = 3 then t j &&& truncateBlk fieldSize else t j

/-- The row the sender hashes, PrtySender.cpp:244-250 (and 897-921 for the big polynomial):
`Q ^ (R & s)`, the last block truncated. -/
def senderRow (choice : Nat → Bool) (fieldSize : Nat) (q r : Row) : Row := fun j =>
  let v := q j ^^^ (r j &&& choiceBlock choice fieldSize j)
  if j = 3 then v &&& truncateBlk fieldSize else v

/-- The mask of a row: four AES encryptions XORed, PrtyReceiver.cpp:160-163,
PrtySender.cpp:252-255. -/
def maskOf (h : Block → Block) (r : Row) : Block :=
  ((h (r 0) ^^^ h (r 1)) ^^^ h (r 2)) ^^^ h (r 3)

/-- An entry of `localMasks[hIdx]`: 64-bit key, full mask and input index. -/
structure Entry where
  key : BitVec 64
  mask : Block
  idx : Nat
deriving DecidableEq, Repr

/-- `emplace` of `std::unordered_map`: an existing key is kept (PrtyReceiver.cpp:175, 180). -/
def emplace (m : List Entry) (e : Entry) : List Entry :=
  if m.any (fun f => f.key = e.key) then m else m ++ [e]

/-- `localMasks[hIdx]` after the insertions of all masks with that hash index, in some order
(the threads insert under a lock), PrtyReceiver.cpp:172-182. -/
def localMasks (ms : List (Block × Nat)) : List Entry :=
  ms.foldl (fun m p => emplace m ⟨p.1.setWidth 64, p.1, p.2⟩) []

/-- `memcmp(a, b, n) == 0` on the bytes of two blocks. -/
def bytesEq (n : Nat) (a b : Block) : Bool := a.setWidth (8 * n) == b.setWidth (8 * n)

/-- The matching loop for large sets, PrtyReceiver.cpp:239-266: for each received mask (given
as block; only the first `hashMaskBytes` bytes are received and looked at). -/
def matchLarge (m : List Entry) (hashMaskBytes : Nat) (recv : List Block) : List Nat :=
  recv.filterMap fun r =>
    match m.find? (fun e => e.key = r.setWidth 64) with
    | some e => if bytesEq hashMaskBytes r e.mask then some e.idx else none
    | none => none

/-- The comparisons of the loop for small sets, PrtyReceiver.cpp:269-280: pairs of the number
of the received mask that is read and the map entry compared with it.  The pointer
`theirMasks` is advanced inside the inner loop. -/
def smallReads (curStepSize : Nat) (m : List Entry) : List (Nat × Entry) :=
  ((List.range curStepSize).flatMap fun _ => m).zipIdx.map fun p => (p.2, p.1)

/-- One comparison of the loop for small sets, PrtyReceiver.cpp:274-277; reading a mask with a
number from `recv.length` on reads behind the received buffer. -/
def smallStep (hashMaskBytes : Nat) (recv : List Block) (acc : List Nat) (p : Nat × Entry) :
    Out (List Nat) :=
  match recv[p.1]? with
  | none => .ub
  | some r => .ok (if bytesEq hashMaskBytes r p.2.mask then acc ++ [p.2.idx] else acc)

/-- The loop for small sets, PrtyReceiver.cpp:267-281. -/
def matchSmall (m : List Entry) (hashMaskBytes : Nat) (recv : List Block) : Out (List Nat) :=
  (smallReads recv.length m).foldl
    (fun o p => o.bind fun acc => smallStep hashMaskBytes recv acc p) (.ok [])

end Verif.Prty
