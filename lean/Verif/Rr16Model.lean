import Verif.PartModel
/-
Model of the RR16 protocol, online phase (libPSI/MPSI/Rr16/AknBfMPsiSender.cpp,
AknBfMPsiReceiver.cpp).

Simplifications:
  * the k-out-of-n OT (`AknOtSender`/`AknOtReceiver`, libOTe) is arbitrary: `msgs` are the sender's pairs,
    `recvd` the receiver's strings, `zeros` and `ones` the lists `mZeros`, `mOnes`, `sampled` the bit vector
    `mSampled` of opened OTs, `total` the number of OTs;
  * the hash of an item (`RandomOracle` with the agreed seed, then AES in counter mode) is an arbitrary list of
    numbers;
  * hash tables are lists of pairs in order of insertion;
  * the order in which threads merge their masks and append their results is arbitrary;
  * channels deliver what was sent.
-/
namespace Verif.Rr16
open Verif Part

/-! ### hashing phase

Both parties have one buffer `bv` for all threads (sender line 110, receiver line 136). Every thread writes
the hash values of an item to it (156 / 165) and then reads them (162-171 / 173-188). The buffer is
represented by the item whose values it holds; writing and reading are single steps. -/

/-- State: buffer, and for every thread the items to do, whether the first of them was written, and the items
whose values were read, in order. -/
structure HSt where
  bv : Block
  todo : Nat → List Block
  written : Nat → Bool
  got : Nat → List Block

/-- One step of thread `t`. -/
def hashStep (st : HSt) (t : Nat) : HSt :=
  match st.todo t with
  | [] => st
  | x :: xs =>
    if st.written t then
      HSt.mk st.bv (fun u => if u = t then xs else st.todo u)
        (fun u => if u = t then false else st.written u)
        (fun u => if u = t then st.got t ++ [st.bv] else st.got u)
    else HSt.mk x st.todo (fun u => if u = t then true else st.written u) st.got

/-- The items of thread `t` (sender lines 127-128, receiver lines 140-141). -/
def part (items : List Block) (T t : Nat) : List Block :=
  (interval (bound items.length T t) (bound items.length T (t + 1))).map fun i => items.getD i 0

/-- The hashing phase of a party under a schedule. The result lists, in the order of the inputs, the items
whose hash values were used for them; it is `none` if the schedule ends too early. -/
def hashPhase (items : List Block) (T : Nat) (sched : List Nat) : Option (List Block) :=
  let st := sched.foldl hashStep (HSt.mk 0 (part items T) (fun _ => false) (fun _ => []))
  if (List.range T).all fun t => (st.todo t).isEmpty then some ((List.range T).flatMap st.got) else none

/-- Bloom filter positions (sender lines 157, 164, receiver lines 166, 180). -/
def positions (hash : Block → List Nat) (bf : Nat) (x : Block) : List Nat := (hash x).map (· % bf)

/-! ### receiver: the permutation -/

/-- The second loop (AknBfMPsiReceiver.cpp:230-237). Reading past the end of `mOnes` is undefined. -/
def build2 : Nat → List Nat → Out (List Nat)
  | 0, _ => .ok []
  | _ + 1, [] => .ub
  | k + 1, o :: os => (build2 k os).bind fun r => .ok (o :: r)

/-- The first loop (AknBfMPsiReceiver.cpp:219-228) and then the second. -/
def build : List Bool → List Nat → List Nat → Out (List Nat)
  | [], _, _ => .ok []
  | bits, [], os => build2 bits.length os
  | false :: bits, z :: zs, os => (build bits zs os).bind fun r => .ok (z :: r)
  | true :: _, _ :: _, [] => .ub
  | true :: bits, z :: zs, o :: os => (build bits (z :: zs) os).bind fun r => .ok (o :: r)

/-- The Bloom filter (lines 107, 183). -/
def bloom (hash : Block → List Nat) (bf : Nat) (R : List Block) : List Bool :=
  (List.range bf).map fun p => R.any fun x => (positions hash bf x).contains p

/-- The vector `permute` of 32-bit numbers (lines 130-133, 219-237). -/
def permute (hash : Block → List Nat) (bf total : Nat) (zeros ones : List Nat) (R : List Block) :
    Out (List Nat) :=
  if total > 2 ^ 32 then .throw
  else (build (bloom hash bf R) zeros ones).bind fun r => .ok (r.map (· % 2 ^ 32))

/-! ### receiver: masks -/

/-- The loops for one mask: two positions at a time, then the rest (lines 280-330). -/
def maskLoop (f : Nat → Block) : List Nat → Block → Block
  | a :: b :: ps, acc => maskLoop f ps (acc ^^^ f a ^^^ f b)
  | [a], acc => acc ^^^ f a
  | [], acc => acc

/-- The receiver's mask of an item. -/
def recvMask (hash : Block → List Nat) (bf : Nat) (perm : List Nat) (recvd : Nat → Block) (x : Block) : Block :=
  maskLoop (fun p => recvd (perm.getD p 0)) (positions hash bf x) 0

/-- First eight bytes. -/
def low (b : Block) : Nat := b.toNat % 2 ^ 64

/-- `masks.find` (line 384). -/
def find (m : List (Nat × Nat)) (key : Nat) : Option Nat := (m.find? (·.1 == key)).map (·.2)

/-- `emplace`/`insert`: no effect if the key is present (lines 332, 345, 352). -/
def emplace (m : List (Nat × Nat)) (key i : Nat) : List (Nat × Nat) :=
  match find m key with
  | some _ => m
  | none => m ++ [(key, i)]

/-- The merged table; `ord` is the order in which the indices arrive. -/
def table (masks : List Block) (ord : List Nat) : List (Nat × Nat) :=
  ord.foldl (fun m i => emplace m (low (masks.getD i 0)) i) []

/-- The matches of one thread (lines 371-389). -/
def matches_ (m : List (Nat × Nat)) (theirs : List Block) : List Nat := theirs.filterMap fun b => find m (low b)

/-! ### sender -/

/-- How the sender's `sendInput` ends. -/
inductive Verdict where
  | sends (masks : List Block)
  | terminates
  | throws
  | ub
deriving DecidableEq

/-- The loop over the received map (AknBfMPsiSender.cpp:210-220): `some true` if it is accepted, `none` for
an index outside the bit vector. -/
def check (total : Nat) : List Nat → (Nat → Bool) → Option Bool
  | [], _ => some true
  | i :: is, used =>
    if total ≤ i then none
    else if used i then some false
    else check total is fun j => if j = i then true else used j

/-- The sender's mask of an item (AknBfMPsiSender.cpp:143, 162-171). -/
def sendMask (hash : Block → List Nat) (bf : Nat) (perm : List Nat) (msgs : Nat → Bool → Block) (x : Block) :
    Block :=
  (positions hash bf x).foldl (fun acc p => acc ^^^ msgs (perm.getD p 0) true) 0

/-- `sendInput` of the sender after hashing (lines 112-225); `src` are the items whose hash values were used.
The threads read `mMessages[permutes[idx]]` without a check. A second call of `set_value` (line 222 after
215) throws while the threads are running, which ends the process. An index outside of `mSampled` makes
`BitVector::operator[]` (cryptoTools) throw, again with running threads, or is undefined if that operator does
not check its argument (`checked`). -/
def send (checked : Bool) (hash : Block → List Nat) (bf total n : Nat) (sampled : Nat → Bool)
    (msgs : Nat → Bool → Block) (perm : List Nat) (src : List Block) : Verdict :=
  if src.length ≠ n then .throws
  else if perm.length ≠ bf then .throws
  else if bf = 0 ∧ src ≠ [] then .ub
  else if src.any fun x => (positions hash bf x).any fun p => total ≤ perm.getD p 0 then .ub
  else match check total perm sampled with
    | none => if checked then .terminates else .ub
    | some false => .terminates
    | some true => .sends (src.map (sendMask hash bf perm msgs))

/-! ### the protocol -/

/-- The part of a list that belongs to thread `t`. -/
def chunk (l : List Block) (T t : Nat) : List Block := part l T t

/-- The online phase after hashing. `srcS`, `srcR` are the results of the hashing phases; `ord` is the order of
insertion of the receiver's masks, `tord` the order in which its threads append their matches. -/
def run (checked : Bool) (hash : Block → List Nat) (bf total n T : Nat) (sampled : Nat → Bool)
    (msgs : Nat → Bool → Block) (recvd : Nat → Block) (zeros ones : List Nat) (ord tord : List Nat)
    (srcS srcR : List Block) : Out (List Nat) :=
  if srcR.length ≠ n then .throw
  else if bf = 0 ∧ srcR ≠ [] then .ub
  else
    (permute hash bf total zeros ones srcR).bind fun perm =>
    match send checked hash bf total n sampled msgs perm srcS with
    | .ub => .ub
    | .throws => .throw
    | .terminates => .throw
    | .sends masks =>
      let m := table (srcR.map (recvMask hash bf perm recvd)) ord
      .ok (tord.flatMap fun t => matches_ m (chunk masks T t))

end Verif.Rr16
