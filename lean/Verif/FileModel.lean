import Verif.Basic
/-
Model of the file front end (libPSI/Tools/fileBased.cpp).

Simplifications:
  * a character or byte is a natural number below 256; a file is its list of bytes, `none` if it cannot be
    opened; text mode does not translate (as on POSIX systems); writing never fails once the file is open;
  * `std::isxdigit` is called with a plain `char`; for bytes above 127 that is a negative number, outside
    the domain of the C function. As in glibc the answer is taken to be no;
  * `strtol` is only modelled on two hexadecimal digits, the only strings it is given in `readSet`;
  * the random oracle is an arbitrary function;
  * the protocols called by `doFilePSI` are modelled elsewhere; networking and option parsing are not
    modelled.
-/
namespace Verif.File
open Verif

/-- `hasSuffix` (fileBased.cpp:16-20): compare the reversed strings over the length of `ending`. -/
def hasSuffix (value ending : List Nat) : Bool :=
  if ending.length > value.length then false
  else ending.reverse == value.reverse.take ending.length

/-- `std::isxdigit` in the C locale. -/
def isxdigit (c : Nat) : Bool :=
  (decide (48 ≤ c) && decide (c ≤ 57)) || (decide (97 ≤ c) && decide (c ≤ 102)) ||
    (decide (65 ≤ c) && decide (c ≤ 70))

/-- `isHexBlock` (fileBased.cpp:22-30). -/
def isHexBlock (buff : List Nat) : Bool :=
  if buff.length ≠ 32 then false
  else (List.range 32).foldl (fun ret i => ret && isxdigit (buff.getD i 0)) true

/-- Value of a hexadecimal digit as `strtol` reads it. -/
def hexVal (c : Nat) : Nat :=
  if c ≤ 57 then c - 48 else if 97 ≤ c then c - 97 + 10 else c - 65 + 10

/-- `toBlock(u8*)`: 16 bytes, little endian; also the meaning of `file.read` into a block. -/
def toBlockBytes (bytes : List Nat) : Block :=
  BitVec.ofNat 128 (bytes.foldr (fun b acc => b + 256 * acc) 0)

/-- `hexToBlock` (fileBased.cpp:32-47): `vv[15 - i]` is the pair of digits `2i`, `2i+1`. -/
def hexToBlock (buff : List Nat) : Block :=
  toBlockBytes ((List.range 16).map fun j =>
    let i := 15 - j
    (16 * hexVal (buff.getD (2 * i) 0) + hexVal (buff.getD (2 * i + 1) 0)) % 256)

/-- `enum class FileType` (fileBased.h:43-48). -/
inductive FileType where
  | bin
  | csv
  | unspecified
  deriving DecidableEq

/-- `file.read((char*)ret.data(), size)` into `k` blocks. -/
def readBlocks (bytes : List Nat) : Nat → List Block
  | 0 => []
  | k + 1 => toBlockBytes (bytes.take 16) :: readBlocks (bytes.drop 16) k

/-- The strings `std::getline` gives until it fails; `cur` is the line read so far. A last line without
line end is given unless it is empty. -/
def getlines (cur : List Nat) : List Nat → List (List Nat)
  | [] => if cur = [] then [] else [cur]
  | c :: rest => if c = 10 then cur :: getlines [] rest else getlines (cur ++ [c]) rest

/-- The duplicate check (fileBased.cpp:97-115): `seen` is the map's keys, `left` is `maxPrint`. -/
def debugLoop (seen : List Block) (left : Nat) : List Block → Nat
  | [] => left
  | x :: rest =>
    if x ∈ seen then
      if left - 1 = 0 then left - 1 else debugLoop seen (left - 1) rest
    else debugLoop (x :: seen) left rest

/-- `readSet` (fileBased.cpp:49-118). -/
def readSet (ro : List Nat → Block) (file : Option (List Nat)) (ft : FileType) (debug : Bool) :
    Out (List Block) :=
  let ret : Out (List Block) :=
    match ft, file with
    | .unspecified, _ => .throw
    | _, none => .throw
    | .bin, some bytes =>
      if bytes.length % 16 ≠ 0 then .throw else .ok (readBlocks bytes (bytes.length / 16))
    | .csv, some bytes =>
      .ok ((getlines [] bytes).map fun line => if isHexBlock line then hexToBlock line else ro line)
  ret.bind fun ret => if debug && debugLoop [] 40 ret != 40 then .throw else .ok ret

/-- Eight bytes of a u64, little endian. -/
def bytes8 (n : Nat) : List Nat := (List.range 8).map fun k => n / 256 ^ k % 256

/-- `file << i` for a u64: decimal digits, `fuel` bounds their number. -/
def decimal : Nat → Nat → List Nat
  | 0, _ => []
  | fuel + 1, n => if n < 10 then [48 + n] else decimal fuel (n / 10) ++ [48 + n % 10]

/-- `writeOutput` (fileBased.cpp:120-141): the bytes written. A u64 has at most 20 digits. -/
def writeOutput (ft : FileType) (inter : List Nat) : List Nat :=
  match ft with
  | .bin => inter.flatMap bytes8
  | _ => inter.flatMap fun i => decimal 20 i ++ [10]

/-- `padSmallSet` (fileBased.cpp:143-160): the padded set and the new `theirSize`; `rnd` is the stream of
random blocks. -/
def padSmallSet (flag : Bool) (rnd : Nat → Block) (set : List Block) (theirSize : Nat) :
    Out (List Block × Nat) :=
  if set.length ≠ theirSize then
    if flag = false then .throw
    else if set.length < theirSize then
      .ok (set ++ (List.range (theirSize - set.length)).map rnd, theirSize)
    else .ok (set, set.length)
  else .ok (set, theirSize)

/-- The part of `doFilePSI` between reading and writing for a protocol that needs equal sizes
(fileBased.cpp:226-249, 256-271): each party pads, the protocol gives the receiver the indices
`proto senderSet receiverSet`, and these are written out. -/
def paddedRun (proto : List Block → List Block → List Nat) (flag : Bool) (rndS rndR : Nat → Block)
    (sSet rSet : List Block) : Out (List Nat) :=
  (padSmallSet flag rndS sSet rSet.length).bind fun s =>
  (padSmallSet flag rndR rSet sSet.length).bind fun r => .ok (proto s.1 r.1)

/-- Choice of the file type (fileBased.cpp:169-181); ".bin" and ".csv". -/
def chooseType (path : List Nat) (binFlag csvFlag : Bool) : Out FileType :=
  let ft := if csvFlag then .csv else if binFlag then .bin else .unspecified
  let ft := if ft = .unspecified then
      if hasSuffix path [46, 98, 105, 110] then .bin
      else if hasSuffix path [46, 99, 115, 118] then .csv else .unspecified
    else ft
  if ft = .unspecified then .throw else .ok ft

end Verif.File
