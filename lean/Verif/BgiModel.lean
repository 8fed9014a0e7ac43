import Verif.Basic
/-
Model of the two-server PIR / distributed point function:
  libPSI/PIR/BgiPirClient.cpp  (keyGen, query)
  libPSI/PIR/BgiPirServer.cpp  (traverseOne, traversePath, evalOne, fullDomain,
                                fullDomainNaive, serve)

`aes b x` stands for `aes0.ecbEncBlock(x)` (b = false, key 0) and
`aes1.ecbEncBlock(x)` (b = true, key 1).  It is an arbitrary function.

Simplifications: spans are lists; `uint128_t` positions are `Nat`; `u64` counters do not wrap
(`2^kDepth * groupSize * 128 < 2^63`).
-/
namespace Verif.Bgi

open Verif

/-- `static_cast<u8>(idx >> shift) & 1` (BgiPirClient.cpp:115, BgiPirServer.cpp:137). -/
def keepBit (idx shift : Nat) : Bool := (idx >>> shift) % 256 &&& 1 == 1

/-- The PRG `G_b(s) = AES_b(s & ~3) ^ (s & ~3)` (BgiPirClient.cpp:123-133,
BgiPirServer.cpp:151-155). -/
def prg (aes : Bool → Block → Block) (b : Bool) (s : Block) : Block :=
  aes b (s &&& notThree) ^^^ (s &&& notThree)

/-- `BgiPirServer::traverseOne` (BgiPirServer.cpp:146-186). -/
def traverseOne (aes : Bool → Block → Block) (s cw : Block) (keep : Bool) : Block :=
  let tau0 := prg aes false s
  let tau1 := prg aes true s
  let scw := cw &&& notThree
  let mask := zeroAndAllOne (lsb s)
  let d0 := (cw >>> 1) &&& oneBlock
  let d1 := cw &&& oneBlock
  let c0 := (scw ^^^ d0) &&& mask
  let c1 := (scw ^^^ d1) &&& mask
  if keep then c1 ^^^ tau1 else c0 ^^^ tau0

/-- `BgiPirServer::traversePath` (BgiPirServer.cpp:130-144). The code reads `k[0..depth]`;
all callers pass `depth ≤ k.size() - 1`. -/
def traversePath (aes : Bool → Block → Block) (depth idx : Nat) (k : List Block) : Block :=
  (List.range depth).foldl
    (fun s i => traverseOne aes s (k.getD (i + 1) 0) (keepBit idx (depth - 1 - i)))
    (k.getD 0 0)

/-- State of the key generation loop: the two seeds and the correction words so far. -/
structure KgState where
  s0 : Block
  s1 : Block
  cws : List Block

/-- One iteration of the key generation loop after the four calls of the PRG (BgiPirClient.cpp:137-176); `sij` is
`si[i][j]`. -/
def kgCombine (st : KgState) (keep : Bool) (si00 si01 si10 si11 : Block) : KgState :=
  let a := if keep then oneBlock else 0#128
  let x0 := si00 ^^^ si10
  let x1 := si01 ^^^ si11
  let t0 := (oneBlock &&& x0) ^^^ a ^^^ oneBlock
  let t1 := (oneBlock &&& x1) ^^^ a
  let scw := (if keep then x0 else x1) &&& notThree
  let cw := scw ^^^ (t0 <<< 1) ^^^ t1
  let tKeep := if keep then t1 else t0
  { s0 := (if keep then si01 else si00) ^^^ (zeroAndAllOne (lsb st.s0) &&& (scw ^^^ tKeep))
    s1 := (if keep then si11 else si10) ^^^ (zeroAndAllOne (lsb st.s1) &&& (scw ^^^ tKeep))
    cws := st.cws ++ [cw] }

/-- One iteration of the key generation loop (BgiPirClient.cpp:113-176). -/
def kgStep (aes : Bool → Block → Block) (st : KgState) (keep : Bool) : KgState :=
  kgCombine st keep (prg aes false st.s0) (prg aes true st.s0) (prg aes false st.s1) (prg aes true st.s1)

/-- The block `AES_0((s & ~3) ^ i) ^ ((s & ~3) ^ i)` (BgiPirClient.cpp:184-194,
BgiPirServer.cpp:93-105). -/
def leafBlock (aes : Bool → Block → Block) (s : Block) (i : Nat) : Block :=
  aes false ((s &&& notThree) ^^^ toBlock i) ^^^ ((s &&& notThree) ^^^ toBlock i)

/-- Byte `i` of a block array seen through a `u8*`. -/
def bytesAt (l : List Block) (i : Nat) : BitVec 8 := byteOf (l.getD (i / 16) 0) (i % 16)

/-- `u8View[byteIdx] ^= u8(1) << bitIdx` on a block array (BgiPirClient.cpp:206-207). -/
def flipBit (l : List Block) (byteIdx bitIdx : Nat) : List Block :=
  l.set (byteIdx / 16)
    (l.getD (byteIdx / 16) 0 ^^^ (BitVec.setWidth 128 (1#8 <<< bitIdx) <<< (8 * (byteIdx % 16))))

/-- A DPF key: `k` has `depth + 1` blocks, `g` has `groupSize` blocks. -/
structure Key where
  k : List Block
  g : List Block
deriving DecidableEq

/-- The first seed: its last bit is the opposite of that of the second (BgiPirClient.cpp:104-105). -/
def rootSeed (r0 r1 : Block) : Block := (r0 &&& notOne) ^^^ ((r1 &&& oneBlock) ^^^ oneBlock)

/-- The words `g`, from the leaf blocks of both seeds (BgiPirClient.cpp:196-214). -/
def lastWord (groupSize gIdx : Nat) (gs0 gs1 : Nat → Block) : List Block :=
  let gs := (List.range groupSize).map fun i => gs0 i ^^^ gs1 i
  let byteIdx := gIdx % 16 + 16 * (gIdx / 128)
  let bitIdx := (gIdx % 128) / 16
  flipBit gs byteIdx bitIdx

/-- `BgiPirClient::keyGen` (BgiPirClient.cpp:87-215). `r0 r1` are the two blocks read from
`PRNG(seed)` at line 100. `kDepth = k0.size() - 1` and `groupSize = g0.size()`. -/
def keyGen (aes : Bool → Block → Block) (kDepth groupSize idx : Nat) (r0 r1 : Block) : Key × Key :=
  let kIdx := idx / (groupSize * 128)
  let gIdx := idx % (groupSize * 128)
  let s0 := rootSeed r0 r1
  let st := (List.range kDepth).foldl
    (fun st i => kgStep aes st (keepBit kIdx (kDepth - 1 - i))) { s0 := s0, s1 := r1, cws := [] }
  let g := lastWord groupSize gIdx (leafBlock aes st.s0) (leafBlock aes st.s1)
  ({ k := s0 :: st.cws, g := g }, { k := r1 :: st.cws, g := g })

/-- `BgiPirServer::evalOne` (BgiPirServer.cpp:66-128), the returned bit. -/
def evalOne (aes : Bool → Block → Block) (idx : Nat) (key : Key) : Bool :=
  let kDepth := key.k.length - 1
  let kIdx := idx / (key.g.length * 128)
  let gIdx := idx % (key.g.length * 128)
  let byteIdx := gIdx % 16 + 16 * (gIdx / 128)
  let bitIdx := (gIdx % 128) / 16
  let s := traversePath aes kDepth kIdx key.k
  let gs := (List.range key.g.length).map (leafBlock aes s)
  let t : BitVec 8 := if lsb s then 1 else 0
  let word := (bytesAt gs byteIdx ^^^ (bytesAt key.g byteIdx * t)) >>> bitIdx
  (word &&& 1#8) == 1#8

/-! ### fullDomain -/

/-- The 128 bytes written by `expandedS[b] = mask & _mm_srai_epi16(x, b)`, `b = 0..7`, seen through
a `u8*` (BgiPirServer.cpp:307-314, 568-575, 814-821, 974-981, 1298-1305). -/
def expandBytes (x : Block) : List (BitVec 8) :=
  (List.range 8).flatMap fun b => (List.range 16).map fun r => byteOf (oneBytes &&& srai16 x b) r

/-- `sum ^ (d & zeroAndAllOne[byte])`; `zeroAndAllOne` has two entries, a larger byte would read
outside of it (BgiPirServer.cpp:323, 628-653). -/
def accum (sum : Out Block) (p : Block × BitVec 8) : Out Block :=
  match sum with
  | .ok s => if p.2 = 0#8 then .ok (s ^^^ (p.1 &&& zeroAndAllOne false))
             else if p.2 = 1#8 then .ok (s ^^^ (p.1 &&& zeroAndAllOne true))
             else .ub
  | o => o

/-- First (at most three) levels, breadth first (BgiPirServer.cpp:262-273, 721-732). -/
def firstLevels (aes : Bool → Block → Block) (k : List Block) (levels : Nat) : List Block :=
  (List.range levels).foldl
    (fun prev i => prev.flatMap fun s =>
      [traverseOne aes s (k.getD (i + 1) 0) false, traverseOne aes s (k.getD (i + 1) 0) true])
    [k.getD 0 0]

/-- The `g.size()` output blocks of a leaf: `G_i(s) ^ (g[i] & zeroAndAllOne[t])`
(BgiPirServer.cpp:290-294, 495-542, 803-807, 1249-1291). -/
def leafBlocks (aes : Bool → Block → Block) (s : Block) (g : List Block) : List Block :=
  (List.range g.length).map fun i =>
    leafBlock aes s i ^^^ (g.getD i 0 &&& zeroAndAllOne (lsb s))

/-- All bytes of a leaf in the order in which they are consumed. -/
def leafBytes (aes : Bool → Block → Block) (s : Block) (g : List Block) : List (BitVec 8) :=
  (leafBlocks aes s g).flatMap expandBytes

/-- `fullDomain` for `kDepth < 3` (BgiPirServer.cpp:280-352): the data iterator and the
bytes advance together. -/
def fullDomainSmall (aes : Bool → Block → Block) (data : List Block) (key : Key) : Out Block :=
  let prev := firstLevels aes key.k (min 3 (key.k.length - 1))
  (data.zip (prev.flatMap fun s => leafBytes aes s key.g)).foldl accum (.ok 0)

/-- The depth-first walker: `ss d j` is the seed of lane `j` at level `d`
(`ss[d][j]`, BgiPirServer.cpp:366; `mS(d, j)` in MultiKey). -/
abbrev SS := Nat → Nat → Block

/-- One level of descent (BgiPirServer.cpp:414-485, 865-918, 1159-1232). `cw d j` is the
correction word used by lane `j` at level `d` (`kk[d]`, or `mK(d, j)`); `t_cw[d][b]` is
`(kk[d] >> 1) & 1` resp. `kk[d] & 1` (403-407, 778-782, 1106-1111). -/
def walkLevel (aes : Bool → Block → Block) (cw : Nat → Nat → Block) (leaf dEnd : Nat)
    (ss : SS) (d : Nat) : SS :=
  let keep := (leaf >>> (dEnd - 1 - d)) &&& 1 == 1
  let row := fun j =>
    let s := ss d j &&& notThree
    let tau := s ^^^ aes keep s
    let tcw := if keep then cw d j &&& oneBlock else (cw d j >>> 1) &&& oneBlock
    let c := tcw ^^^ (cw d j &&& notThree)
    (c &&& zeroAndAllOne (lsb (ss d j))) ^^^ tau
  fun l j => if l = d + 1 then row j else ss l j

/-- `while (d != dEnd) {…; ++d;}` starting at level `d ≤ dEnd`. -/
def walkDown (aes : Bool → Block → Block) (cw : Nat → Nat → Block) (leaf dEnd d : Nat)
    (ss : SS) : SS :=
  (List.range' d (dEnd - d)).foldl (walkLevel aes cw leaf dEnd) ss

/-- `d -= log2floor((idx + 1) ^ idx) + 1` starting from `d = dEnd` (BgiPirServer.cpp:657-658,
996-997, 1235-1236). On the last leaf the u64 wraps to `2^64 - 1`; the loop ends
then, and the (unused) value is 0 here. -/
def walkUp (leaf dEnd : Nat) : Nat := dEnd - (Nat.log2 ((leaf + 1) ^^^ leaf) + 1)

/-- Walker state between leaves. -/
structure Walk where
  leaf : Nat
  d : Nat
  ss : SS

/-- Produce one leaf: descend, report the lane seeds, move up. -/
def walkNext (aes : Bool → Block → Block) (cw : Nat → Nat → Block) (dEnd : Nat) (w : Walk) :
    (Nat → Block) × Walk :=
  let ss := walkDown aes cw w.leaf dEnd w.d w.ss
  (ss dEnd, { leaf := w.leaf + 1, d := walkUp w.leaf dEnd, ss := ss })

/-- One iteration of the `while (idx != end)` loop of `fullDomain` (BgiPirServer.cpp:410-698):
eight lanes, lane `j` reads `data` from `((j << d) + idx) * g.size() * 128`. The eight partial
sums are kept apart as in the code. -/
def fdStep (aes : Bool → Block → Block) (data : List Block) (key : Key) (dEnd : Nat)
    (p : Walk × (Nat → Out Block)) (_ : Nat) : Walk × (Nat → Out Block) :=
  let cw := fun d (_ : Nat) => key.k.getD (d + 4) 0
  let n := walkNext aes cw dEnd p.1
  (n.2, fun j =>
    ((data.drop (((j <<< dEnd) + p.1.leaf) * key.g.length * 128)).zip
      (leafBytes aes (n.1 j) key.g)).foldl accum (p.2 j))

/-- XOR of two outcomes. -/
def xorOut : Out Block → Out Block → Out Block
  | .ok a, .ok b => .ok (a ^^^ b)
  | .ok _, o => o
  | o, _ => o

/-- `fullDomain` for `kDepth ≥ 3` (BgiPirServer.cpp:353-711). -/
def fullDomainLarge (aes : Bool → Block → Block) (data : List Block) (key : Key) : Out Block :=
  let dEnd := max (key.k.length - 1) 3 - 3
  let prev := firstLevels aes key.k 3
  let ss0 : SS := fun d j => if d = 0 then prev.getD j 0 else 0
  let r := (List.range (2 ^ dEnd)).foldl (fdStep aes data key dEnd)
    ({ leaf := 0, d := 0, ss := ss0 }, fun _ => .ok 0)
  (List.range 8).foldl (fun acc j => xorOut acc (r.2 j)) (.ok 0)

/-- `BgiPirServer::fullDomain` (BgiPirServer.cpp:251-712). -/
def fullDomain (aes : Bool → Block → Block) (data : List Block) (key : Key) : Out Block :=
  if data.length ≠ 2 ^ (key.k.length - 1) * key.g.length * 128 then .throw
  else if key.k.length - 1 < 3 then fullDomainSmall aes data key
  else fullDomainLarge aes data key

/-! ### fullDomainNaive -/

/-- State of `fullDomainNaive`: the word stack and the depth. -/
structure NaiveState where
  words : Nat → Block
  depth : Nat
  sum : Block

/-- `fullDomainNaive`, one iteration of the outer loop (BgiPirServer.cpp:204-246). The branch bit
at `depth` is bit `depth` of `idx`, and `g` is not used. `BitIterator((u8*)gs, 0)` walks the bits
of `gs` from bit 0 upwards. -/
def naiveStep (aes : Bool → Block → Block) (data : List Block) (key : Key) (kDepth : Nat)
    (st : NaiveState) (idx : Nat) : NaiveState :=
  let words := (List.range' st.depth (kDepth - st.depth)).foldl
    (fun w dep => fun l =>
      if l = dep + 1 then traverseOne aes (w dep) (key.k.getD (dep + 1) 0) (idx.testBit dep)
      else w l) st.words
  let gs := (List.range key.g.length).map (leafBlock aes (words kDepth))
  let base := idx * key.g.length * 128
  { words := words
    depth := kDepth - (Nat.log2 ((idx + 1) ^^^ idx) + 1)
    sum := (List.range (key.g.length * 128)).foldl
      (fun s i => if (gs.getD (i / 128) 0).getLsbD (i % 128) then s ^^^ data.getD (base + i) 0
                  else s) st.sum }

/-- `BgiPirServer::fullDomainNaive` (BgiPirServer.cpp:188-249). -/
def fullDomainNaive (aes : Bool → Block → Block) (data : List Block) (key : Key) : Out Block :=
  let kDepth := key.k.length - 1
  if data.length ≠ 2 ^ kDepth * 128 * key.g.length then .throw
  else .ok ((List.range (2 ^ kDepth)).foldl (naiveStep aes data key kDepth)
    { words := fun _ => key.k.getD 0 0, depth := 0, sum := 0 }).sum

/-- `BgiPirServer::serve` (BgiPirServer.cpp:35-55): the byte counts received must be exactly those
of a key of the configured shape (cryptoTools' `recv` into a fixed-size buffer throws otherwise),
then the answer is `fullDomain`. -/
def serve (aes : Bool → Block → Block) (mKDepth mGroupBlkSize : Nat) (data : List Block)
    (key : Key) : Out Block :=
  if key.k.length ≠ mKDepth + 1 then .throw
  else if key.g.length ≠ mGroupBlkSize then .throw
  else fullDomain aes data key

/-- `BgiPirClient::query` (BgiPirClient.cpp:62-79) against two servers. -/
def query (aes : Bool → Block → Block) (kDepth groupSize idx : Nat) (r0 r1 : Block)
    (srv0 srv1 : Key → Out Block) : Out Block :=
  let kk := keyGen aes kDepth groupSize idx r0 r1
  xorOut (srv0 kk.1) (srv1 kk.2)

end Verif.Bgi
