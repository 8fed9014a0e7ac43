import Verif.PartModel
/-
Model of the ECDH protocol (libPSI/PSI/ECDH/EcdhPsiSender.cpp, EcdhPsiReceiver.cpp).

Simplifications:
  * points are an arbitrary type; multiplication with the parties' secret scalars, hashing to the curve and
    hashing a point to a block are arbitrary functions;
  * `toBytes`/`fromBytes` are inverse to each other, so messages are lists of points;
  * `mapXab` is a list of pairs in order of insertion; the order in which the threads insert is arbitrary
    (`merge`);
  * an exception in one of the threads (`std::terminate`) is the outcome `throw` of the whole run;
  * channels deliver what was sent.
-/
namespace Verif.Ecdh
open Verif Part

/-- What the protocol needs of the curve and the hash functions. `hs`, `hr`: hash to the curve at the sender
(`RandomOracle(sizeof(block))`, EcdhPsiSender.cpp:82-87) and at the receiver (`RandomOracle` with its
default length, of which the first 16 bytes are used, EcdhPsiReceiver.cpp:64, 91-95). `mulA`, `mulB`:
multiplication with the secret of the sender / receiver. `ro`: `RandomOracle(sizeof(block))` of the bytes of a
point (EcdhPsiSender.cpp:120-124, EcdhPsiReceiver.cpp:132-136). -/
structure Env (P : Type) where
  hs : Block → P
  hr : Block → P
  mulA : P → P
  mulB : P → P
  ro : P → Block

variable {P : Type}

/-- `u64(40 + 2*log2(n) + 7) / 8` (EcdhPsiSender.cpp:42, EcdhPsiReceiver.cpp:47), the logarithm taken
exactly. For `n = 0` the conversion of minus infinity to `u64` is undefined, see `run`. -/
def maskBytes (n : Nat) : Nat := (47 + Nat.log2 (n * n)) / 8

/-- First `mb` bytes of a block. -/
def cut (mb : Nat) (b : Block) : Nat := b.toNat % 256 ^ mb

/-- The indices of thread `t` (EcdhPsiSender.cpp:53-55, EcdhPsiReceiver.cpp:58-60, 175-177). -/
def idxs (n T t : Nat) : List Nat := interval (bound n T t) (bound n T (t + 1))

/-- First message of sender thread `t` (EcdhPsiSender.cpp:80-98). -/
def senderFirst (E : Env P) (S : List Block) (T t : Nat) : List P :=
  (idxs S.length T t).map fun i => E.mulA (E.hs (S.getD i 0))

/-- First message of receiver thread `t` (EcdhPsiReceiver.cpp:87-108). -/
def receiverFirst (E : Env P) (R : List Block) (T t : Nat) : List P :=
  (idxs R.length T t).map fun i => E.mulB (E.hr (R.getD i 0))

/-- Second message of sender thread `t` (EcdhPsiSender.cpp:101-135). -/
def senderSecond (E : Env P) (n T t : Nat) (msg : List P) : Out (List Nat) :=
  if msg.length ≠ (idxs n T t).length then .throw
  else .ok (msg.map fun yb => cut (maskBytes n) (E.ro (E.mulA yb)))

/-- Blocks that receiver thread `t` inserts into `mapXab` (EcdhPsiReceiver.cpp:114-159). -/
def receiverBlocks (E : Env P) (n T t : Nat) (msg : List P) : Out (List Block) :=
  if msg.length ≠ (idxs n T t).length then .throw
  else .ok (msg.map fun xa => E.ro (E.mulB xa))

/-- `mapXab.find` (EcdhPsiReceiver.cpp:206). -/
def find (m : List (Nat × Block)) (key : Nat) : Option Block := (m.find? (·.1 == key)).map (·.2)

/-- `mapXab.insert({idx, blk})` with `idx` the first four bytes of `blk` (EcdhPsiReceiver.cpp:137, 148-158). -/
def insert (m : List (Nat × Block)) (b : Block) : List (Nat × Block) :=
  match find m (cut 4 b) with
  | some _ => m
  | none => m ++ [(cut 4 b, b)]

/-- `mapXab` after all insertions. -/
def mapOf (order : List Block) : List (Nat × Block) := order.foldl insert []

/-- The test for one received mask (EcdhPsiReceiver.cpp:199-212). -/
def hit (m : List (Nat × Block)) (mb mask : Nat) : Bool :=
  match find m (mask % 2 ^ 32) with
  | some b => cut mb b == mask
  | none => false

/-- Output of receiver thread `t` (EcdhPsiReceiver.cpp:173-225). -/
def receiverSecond (m : List (Nat × Block)) (n T t : Nat) (msg : List Nat) : Out (List Nat) :=
  if msg.length ≠ (idxs n T t).length then .throw
  else .ok (((idxs n T t).zip msg).filterMap fun p => if hit m (maskBytes n) p.2 then some p.1 else none)

/-- Results of all threads. -/
def seqOut {α : Type} : List (Out α) → Out (List α)
  | [] => .ok []
  | x :: xs => x.bind fun a => (seqOut xs).bind fun as => .ok (a :: as)

/-- The whole protocol. `T` is the number of channels. Line 45 of the receiver throws for `T = 0`; for an
empty set line 42 / 47 is undefined; for masks of more than 16 bytes so is the copy in line 125 of the
sender. -/
def run (E : Env P) (S R : List Block) (T : Nat) (merge : List (List Block) → List Block) :
    Out (List Nat) :=
  if T = 0 then .throw
  else if S.length = 0 ∨ R.length = 0 then .ub
  else if maskBytes S.length > 16 then .ub
  else
    (seqOut ((List.range T).map fun t => senderSecond E S.length T t (receiverFirst E R T t))).bind fun masks =>
    (seqOut ((List.range T).map fun t => receiverBlocks E R.length T t (senderFirst E S T t))).bind fun blks =>
    (seqOut ((List.range T).map fun t =>
      receiverSecond (mapOf (merge blks)) R.length T t (masks.getD t []))).bind fun outs =>
    .ok outs.flatten

end Verif.Ecdh
