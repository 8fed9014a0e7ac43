import Verif.Basic
/-!
# Choice of the joint hash seed

The malicious-secure protocols choose the seed of their hash function with the same sequence of
operations: `MPSI/Rr16/AknBfMPsiSender.cpp:37-41, 63-68`, `MPSI/Rr16/AknBfMPsiReceiver.cpp:54-56,
79-84`, `MPSI/Rr17/Rr17a/Rr17aMPsiSender.cpp:88-97`, `Rr17aMPsiReceiver.cpp:106-118`,
`MPSI/Rr17/Rr17b/Rr17bMPsiSender.cpp:95-104`, `Rr17bMPsiReceiver.cpp:110-122`,
`MPSI/Grr18/Grr18MPsiSender.cpp:91-100`, `Grr18MPsiReceiver.cpp:117-129`.

The commitment (`Commit`, cryptoTools, a hash) is a parameter.  Timing of the asynchronous
operations is left out except for what matters here: what has been sent before a message of the
peer has arrived.  In RR16 other messages (the aknOT) are between the two receptions; they do not
touch the variables of this code.
-/
namespace Verif.Seed

variable {K : Type}

/-- Operations of a party. -/
inductive Op
  | sendComm | recvComm | sendSeed | recvSeed
  deriving DecidableEq, Repr

/-- Messages that the party sends. -/
inductive Msg (K : Type)
  | comm (c : K)
  | seed (s : Block)

/-- The operations in program order (all eight places). -/
def program : List Op := [.sendComm, .recvComm, .sendSeed, .recvSeed]

/-- The other party, honest or not: its messages may depend on everything sent to it so far. -/
structure Peer (K : Type) where
  comm : List (Msg K) → K
  seed : List (Msg K) → Block

/-- Variables of the party: messages sent, `theirComm`, `theirHashingSeed`. -/
structure State (K : Type) where
  sent : List (Msg K) := []
  theirComm : Option K := none
  theirSeed : Option Block := none

/-- One operation. -/
def step (commit : Block → K) (my : Block) (p : Peer K) (s : State K) : Op → State K
  | .sendComm => { s with sent := s.sent ++ [.comm (commit my)] }
  | .recvComm => { s with theirComm := some (p.comm s.sent) }
  | .sendSeed => { s with sent := s.sent ++ [.seed my] }
  | .recvSeed => { s with theirSeed := some (p.seed s.sent) }

/-- All operations. -/
def run (commit : Block → K) (my : Block) (p : Peer K) : State K :=
  program.foldl (step commit my p) {}

/-- `mHashingSeed = myHashSeed ^ theirHashingSeed`: there is no other use of the received
values, in particular `theirComm` is not read. -/
def hashingSeed (commit : Block → K) (my : Block) (p : Peer K) : Option Block :=
  (run commit my p).theirSeed.map fun s => my ^^^ s

/-- A peer that runs the same program with its own seed. -/
def honest (commit : Block → K) (s : Block) : Peer K := ⟨fun _ => commit s, fun _ => s⟩

end Verif.Seed
