import Verif.CuckooModel
/-
Model of the KKRT protocol (libPSI/PSI/Kkrt/KkrtPsiSender.cpp, KkrtPsiReceiver.cpp).

Simplifications:
  * the OPRF (`NcoOtExtSender`/`NcoOtExtReceiver`, libOTe) is one arbitrary function `F bin item` that
    both parties evaluate; a mask is the number whose little-endian bytes are the first `mb` bytes of the
    output (`mb` is `maskSize`/`maskByteSize`, a floating point expression, and hence a parameter);
  * AES with the agreed hashing seed is an arbitrary function `aes`;
  * `PRNG` output is an arbitrary stream (`rand`, `junk`);
  * `mParams.numBins()`, a floating point product, is the parameter `nb`, the same for both parties
    (sender line 54 and receiver line 55 call `selectParams` with the same arguments);
  * matrices are functions of the position together with an explicit range check;
  * the thread that receives corrections is an arbitrary list of the values that the main thread loads
    from `recvedIdx`;
  * the step size `1 << 10` is the parameter `step`;
  * the seed exchange, base OTs and timers are not modelled, nor is the final one-byte message of the
    sender (line 504), which the receiver does not read.
-/
namespace Verif.Kkrt
open Verif Cuckoo

/-- `u64(-1)`. -/
def noBin : Nat := 2 ^ 64 - 1

/-! ### sender: init -/

/-- One pass of the permutation loop (KkrtPsiSender.cpp:101-106); `x` is `mPrng.get<u64>()`. -/
def permStep (n i x : Nat) (p : List Nat × List Nat) : Out (List Nat × List Nat) :=
  if n - i = 0 then .ub
  else
    let j := x % (n - i) + i
    if i < p.1.length ∧ j < p.1.length then
      let perm := (p.1.set i (p.1.getD j 0)).set j (p.1.getD i 0)
      let a := perm.getD i 0
      if a < p.2.length then .ok (perm, p.2.set a i) else .ub
    else .ub

/-- `k` passes from number `i` on. -/
def permLoop (rand : Nat → Nat) (n : Nat) : Nat → Nat → List Nat × List Nat →
    Out (List Nat × List Nat)
  | 0, _, p => .ok p
  | k + 1, i, p => (permStep n i (rand i) p).bind fun p => permLoop rand n k (i + 1) p

/-- The tables `mPermute` and `mPermuteInv` (KkrtPsiSender.cpp:94-106). -/
def permInit (rand : Nat → Nat) (n : Nat) : Out (List Nat × List Nat) :=
  if n > 2 ^ 32 - 1 then .throw
  else permLoop rand n n 0 (List.range n, List.replicate n 0)

/-! ### sender: hashItems -/

/-- Item-to-bin map and mask buffer. -/
structure St where
  map : Nat → Nat → Nat
  masks : Nat → Nat

/-- Bin indices and collision flags of an item in the unrolled loop (KkrtPsiSender.cpp:173-262). -/
def rowMain (hash : Block) (nb : Nat) : List (Nat × Nat) :=
  let b0 := getHash hash 0 nb
  let b1 := getHash hash 1 nb
  let c1 := if b0 = b1 then 1 else 0
  let b2 := getHash hash 2 nb
  let c2 := if b0 = b2 ∨ b1 = b2 then 1 else 0
  [(b0, 0), (b1 ||| c1 * noBin, c1), (b2 ||| c2 * noBin, c2)]

/-- The same for the last `items.size() % 8` items (KkrtPsiSender.cpp:280-293). -/
def rowRem (hash : Block) (nb : Nat) : List (Nat × Nat) :=
  (List.range 3).map fun h =>
    let b := getHash hash h nb
    let c := if (List.range h).any (fun hh => getHash hash hh nb == b) then 1 else 0
    (b ||| c * noBin, c)

/-- Write a row of the map; where the flag is set, fill the mask at the final position with junk
(KkrtPsiSender.cpp:184-231, 255-271, 291-292). -/
def writeRow (inv : List Nat) (n : Nat) (junk : Nat → Nat → Nat) (item : Nat) (row : List (Nat × Nat))
    (s : St) : Out St :=
  if item < inv.length ∧ item < n ∧ inv.getD item 0 < n then
    .ok { map := fun i h => if i = item then (row.getD h (0, 0)).1 else s.map i h
          masks := fun r => if r / 3 = inv.getD item 0 ∧ (row.getD (r % 3) (0, 0)).2 = 1
            then junk item (r % 3) else s.masks r }
  else .ub

/-- `AES(x) ^ x` (KkrtPsiSender.cpp:163-171, 278). -/
def hashOfItem (aes : Block → Block) (x : Block) : Block := aes x ^^^ x

/-- `k` items from number `i` on. The first `items.size() / 8 * 8` items go through the unrolled loop, the
others through the last loop. The eight items of a step are done one after another, which writes the
same entries. -/
def hashLoop (aes : Block → Block) (nb : Nat) (items : List Block) (inv : List Nat)
    (junk : Nat → Nat → Nat) : Nat → Nat → St → Out St
  | 0, _, s => .ok s
  | k + 1, i, s =>
    if nb = 0 then .ub
    else
      let hash := hashOfItem aes (items.getD i 0)
      let row := if i < items.length / 8 * 8 then rowMain hash nb else rowRem hash nb
      (writeRow inv items.length junk i row s).bind fun s => hashLoop aes nb items inv junk k (i + 1) s

/-- `hashItems`, three hash functions (KkrtPsiSender.cpp:125-295). -/
def hashItems (aes : Block → Block) (nb : Nat) (items : List Block) (inv : List Nat)
    (junk : Nat → Nat → Nat) (s : St) : Out St :=
  hashLoop aes nb items inv junk items.length 0 s

/-! ### sender: sendInput -/

/-- `mOtSender->encode(bIdx, item, dest, mb)`. The correction for the bin must have been received; `r` is a
number of corrections known to have been received. -/
def encode (F : Nat → Block → Nat) (mb r b : Nat) (x : Block) : Out Nat :=
  if b < r then .ok (F b x % 256 ^ mb) else .ub

/-- The hash function loop of the first phase (KkrtPsiSender.cpp:427-443), hash functions `h, …`. -/
def tryItem (F : Nat → Block → Nat) (mb r : Nat) (x : Block) (item i : Nat) : List Nat → St → Out St
  | [], s => .ok s
  | h :: hs, s =>
    let b := s.map item h
    if b < r then
      (encode F mb r b x).bind fun e =>
        tryItem F mb r x item i hs
          { map := fun a c => if a = item ∧ c = h then noBin else s.map a c
            masks := fun q => if q = i * 3 + h then e else s.masks q }
    else tryItem F mb r x item i hs s

/-- `cnt` attempts (KkrtPsiSender.cpp:420-447). -/
def pass (F : Nat → Block → Nat) (mb : Nat) (items : List Block) (perm : List Nat) (r : Nat) :
    Nat → Nat → St → Out (Nat × St)
  | 0, i, s => .ok (i, s)
  | cnt + 1, i, s =>
    if i < perm.length ∧ perm.getD i 0 < items.length then
      let item := perm.getD i 0
      (tryItem F mb r (items.getD item 0) item i [0, 1, 2] s).bind fun s =>
        if items.length = 0 then .ub
        else pass F mb items perm r cnt ((i + 1) % items.length) s
    else .ub

/-- The first phase (KkrtPsiSender.cpp:410-452): `sched` are the values loaded from `recvedIdx`. Not
seeing `nb` there means waiting for ever. -/
def early (F : Nat → Block → Nat) (mb step : Nat) (items : List Block) (perm : List Nat) (nb : Nat) :
    List Nat → Nat → Nat → St → Out St
  | sched, r, i, s =>
    if r = nb then .ok s
    else (pass F mb items perm r step i s).bind fun q =>
      match sched with
      | [] => .ub
      | r' :: sched => early F mb step items perm nb sched r' q.1 q.2

/-- The hash function loop of the second phase (KkrtPsiSender.cpp:479-490). -/
def lineItem (F : Nat → Block → Nat) (mb r : Nat) (x : Block) (item i : Nat) : List Nat → St → Out St
  | [], s => .ok s
  | h :: hs, s =>
    let b := s.map item h
    if b ≠ noBin then
      (encode F mb r b x).bind fun e =>
        lineItem F mb r x item i hs { s with masks := fun q => if q = i * 3 + h then e else s.masks q }
    else lineItem F mb r x item i hs s

/-- `cnt` items from position `i` on (KkrtPsiSender.cpp:473-491). -/
def lineItems (F : Nat → Block → Nat) (mb : Nat) (items : List Block) (perm : List Nat) (nb : Nat) :
    Nat → Nat → St → Out St
  | 0, _, s => .ok s
  | cnt + 1, i, s =>
    if i < perm.length ∧ perm.getD i 0 < items.length then
      let item := perm.getD i 0
      (lineItem F mb nb (items.getD item 0) item i [0, 1, 2] s).bind fun s =>
        lineItems F mb items perm nb cnt (i + 1) s
    else .ub

/-- The second phase (KkrtPsiSender.cpp:468-497); the result is the list of messages. The first argument
bounds the number of steps. -/
def linear (F : Nat → Block → Nat) (mb step : Nat) (items : List Block) (perm : List Nat) (nb : Nat) :
    Nat → Nat → St → Out (List (List Nat))
  | fuel, i, s =>
    if i < items.length then
      match fuel with
      | 0 => .ub
      | fuel + 1 =>
        let cur := min step (items.length - i)
        (lineItems F mb items perm nb cur i s).bind fun s =>
          (linear F mb step items perm nb fuel (i + cur) s).bind fun msgs =>
            .ok ((List.range (cur * 3)).map (fun q => s.masks (i * 3 + q)) :: msgs)
    else .ok []

/-- `KkrtPsiSender::sendInput` (KkrtPsiSender.cpp:338-508); `n` is `mSenderSize`. -/
def send (F : Nat → Block → Nat) (aes : Block → Block) (mb step n nb : Nat) (perm inv : List Nat)
    (junk : Nat → Nat → Nat) (sched : List Nat) (items : List Block) : Out (List (List Nat)) :=
  if items.length ≠ n then .throw
  else
    (hashItems aes nb items inv junk { map := fun _ _ => 0, masks := fun _ => 0 }).bind fun s =>
    (early F mb step items perm nb sched 0 0 s).bind fun s =>
    linear F mb step items perm nb items.length 0 s

/-! ### receiver -/

/-- `minCollidingHashIdx` (CuckooIndex2.cpp:286-296), `k` hash functions from `i` on; 255 is `u8(-1)`. -/
def minColl (target : Nat) (hash : Block) (nb : Nat) : Nat → Nat → Nat
  | 0, _ => 255
  | k + 1, i => if target = getHash hash i nb then i else minColl target hash nb k (i + 1)

/-- An entry of one of the maps: first eight bytes, mask, input index. -/
abbrev Entry := Nat × Nat × Nat

/-- `unordered_map::find`. -/
def lookup (l : List Entry) (key : Nat) : Option (Nat × Nat) := (l.find? (·.1 == key)).map (·.2)

/-- `unordered_map::emplace`: no effect if the key is present. -/
def emplace (l : List Entry) (key : Nat) (v : Nat × Nat) : List Entry :=
  match lookup l key with
  | some _ => l
  | none => l ++ [(key, v)]

/-- One bin (KkrtPsiReceiver.cpp:158-186). -/
def recvBin (F : Nat → Block → Nat) (mb : Nat) (items : List Block) (c : Cuckoo) (b : Nat)
    (maps : Nat → List Entry) : Out (Nat → List Entry) :=
  let v := c.bins.getD b emptyVal
  if v ≠ emptyVal then
    let idx := idxOf v
    if idx < items.length ∧ idx < c.hashes.length ∧ mb ≤ 16 then
      let h := minColl b (c.hashes.getD idx 0) c.bins.length 3 0
      if h < 3 then
        let e := F b (items.getD idx 0) % 256 ^ mb
        .ok fun k => if k = h then emplace (maps k) (e % 2 ^ 64) (e, idx) else maps k
      else .ub
    else .ub
  else .ok maps

/-- The bins in order (KkrtPsiReceiver.cpp:145-190), `k` bins from `b` on. -/
def recvBins (F : Nat → Block → Nat) (mb : Nat) (items : List Block) (c : Cuckoo) :
    Nat → Nat → (Nat → List Entry) → Out (Nat → List Entry)
  | 0, _, maps => .ok maps
  | k + 1, b, maps => (recvBin F mb items c b maps).bind fun maps => recvBins F mb items c k (b + 1) maps

/-- The comparison of one received mask (KkrtPsiReceiver.cpp:221-233). -/
def matchMask (maps : Nat → List Entry) (k m : Nat) : List Nat :=
  match lookup (maps k) (m % 2 ^ 64) with
  | some (e, idx) => if e = m then [idx] else []
  | none => []

/-- The regions (KkrtPsiReceiver.cpp:205-240); a message of the wrong size makes `recv` throw. -/
def recvRegions (maps : Nat → List Entry) (step : Nat) : Nat → Nat → List (List Nat) → Out (List Nat)
  | remaining, fuel, msgs =>
    match fuel with
    | 0 => .ok []
    | fuel + 1 =>
      match msgs with
      | [] => .ub
      | m :: msgs =>
        let cur := min remaining step
        if m.length ≠ cur * 3 then .throw
        else (recvRegions maps step (remaining - cur) fuel msgs).bind fun rest =>
          .ok ((List.range cur).flatMap (fun i =>
            (List.range 3).flatMap fun k => matchMask maps k (m.getD (i * 3 + k) 0)) ++ rest)

/-- `KkrtPsiReceiver::sendInput` (KkrtPsiReceiver.cpp:115-245); `c` is the cuckoo index made by `init`,
`n` is `mRecverSize`, `ns` is `mSenderSize`. -/
def recv (F : Nat → Block → Nat) (aes : Block → Block) (mb step n ns : Nat) (c : Cuckoo)
    (items : List Block) (msgs : List (List Nat)) : Out (List Nat) :=
  if items.length ≠ n then .throw
  else
    (insertItems aes c items 0).bind fun c =>
    (recvBins F mb items c c.bins.length 0 fun _ => []).bind fun maps =>
    recvRegions maps step ns ((ns + step - 1) / step) msgs

end Verif.Kkrt
