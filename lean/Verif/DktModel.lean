import Mathlib.Algebra.Module.Defs
import Verif.PartModel
/-
Model of the DKT protocol (libPSI/MPSI/DKT/DktMPsiSender.cpp, DktMPsiReceiver.cpp).

Simplifications:
  * the curve is an arbitrary module over an arbitrary ring of scalars; `toBytes`/`fromBytes` are inverse to each
    other, so messages are lists of points, scalars and blocks;
  * hashing to the curve, the hash of the output and the two challenges are arbitrary functions; both parties hash
    the same bytes in the same order, so a challenge is a function of the points hashed by each thread;
  * `ggg` is never given a value by the code (`gg.randomize` is called twice, Receiver lines 115-116, Sender lines
    83-84); it is an arbitrary point, the same for both parties;
  * the order in which the threads proceed has no influence on the values (see PromiseModel for the shared objects);
  * an exception in a thread is the outcome `throw` of the run;
  * channels deliver what was sent.
-/
namespace Verif.Dkt
open Verif Part

/-- Curve points, hash functions and challenges. `dflt`: value of a default constructed point. `hp`: hash to the curve
at the receiver (`point.randomize(toBlock(hashOut))`, Receiver lines 134-142), `hps`: at the sender, which makes a `PRNG`
of the hash first (`point.randomize(inputPrng)`, Sender lines 105-114). `H`: the first 16 bytes
of the hash of (bytes of a point, bytes of a point, item). `ch1`, `ch2`: the challenges `sigmaE` and `sigma2C` from the
points hashed by each thread. -/
structure Env (S G : Type) where
  g : G
  gg : G
  ggg : G
  dflt : G
  hp : Block → G
  hps : Block → G
  H : G → G → Block → Block
  ch1 : List (List G) → S
  ch2 : List (List G) → S

/-- Random scalars of the receiver: `Rc` (lines 150-152), `sigmaD` of thread 0 (153), and for every input `Rcs`
(215) and `sigmaDs` (210). -/
structure RecvRand (S : Type) where
  Rc : S
  d : S
  rc : Nat → S
  dd : Nat → S

/-- Random scalars of the sender: `Rs` (Sender lines 95-96) and `sigma2R` (174-175). -/
structure SendRand (S : Type) where
  Rs : S
  r2 : S

variable {S G : Type} [CommRing S] [AddCommGroup G] [Module S G] (E : Env S G)

/-- The indices of thread `t` (Receiver lines 90-91, Sender lines 70-71). -/
def idxs (n T t : Nat) : List Nat := interval (bound n T t) (bound n T (t + 1))

/-- Sum of the points of a thread (Receiver lines 129, 144-147). -/
def pch (pts : List G) : G :=
  match pts with
  | [] => E.dflt
  | p :: ps => ps.foldl (· + ·) p

/-- The points of receiver thread `t` (lines 132-142). -/
def pts (Y : List Block) (T t : Nat) : List G := (idxs Y.length T t).map fun i => E.hp (Y.getD i 0)

/-- `inputPoints.back()` of thread `t` (lines 213, 217): the point of the last input of the thread. -/
def lastPt (Y : List Block) (T t : Nat) : G := (pts E Y T t).getLastD E.dflt

/-! ### receiver, first messages -/

/-- `Ms` (lines 216-217). -/
def msgM (Y : List Block) (T : Nat) (rr : RecvRand S) (t i : Nat) : G := lastPt E Y T t + rr.rc i • E.gg

/-- `Ns` (lines 213, 219). -/
def msgN (Y : List Block) (T : Nat) (rr : RecvRand S) (t i : Nat) : G :=
  (pch E (pts E Y T t) - lastPt E Y T t) + rr.rc i • E.ggg

/-- `sigmaBs` (line 211). -/
def msgB (rr : RecvRand S) (i : Nat) : G := rr.dd i • (E.gg + E.ggg)

/-- `X` of thread 0, the only one that is sent (lines 157-158, 164-173). -/
def msgX (Y : List Block) (T : Nat) (rr : RecvRand S) : G := pch E (pts E Y T 0) + rr.Rc • E.g

/-- `sigmaA` of thread 0 (line 161). -/
def msgA (rr : RecvRand S) : G := rr.d • E.g

/-- What the threads hash for the first challenge: thread 0 starts with the first point. -/
def transcript (first : G) (per : Nat → List G) (T : Nat) : List (List G) :=
  (List.range T).map fun t => if t = 0 then first :: per t else per t

/-- `sigmaE` (Receiver lines 238-246, Sender lines 250-253, 275-276). -/
def challenge1 (n T : Nat) (rr : RecvRand S) : S :=
  E.ch1 (transcript (msgA E rr) (fun t => (idxs n T t).map (msgB E rr)) T)

/-- `sigmaPhi` (Receiver line 247). -/
def phi (n T : Nat) (rr : RecvRand S) : S := rr.d + rr.Rc * challenge1 E n T rr

/-- `sigmaPhis` (Receiver line 289). -/
def phis (n T : Nat) (rr : RecvRand S) (i : Nat) : S := rr.dd i + rr.rc i * challenge1 E n T rr

/-! ### sender -/

/-- The sender's test of one item (Sender lines 335-339) with the values of thread 0 for `X`, `sigmaA`,
`sigmaGZ = g * sigmaPhi` (283). -/
def senderTest [DecidableEq G] (X A M N B : G) (e phi phii : S) : Bool :=
  decide (phi • E.g - phii • (E.gg + E.ggg) = A - B + e • (X - (M + N)))

/-- The tests of sender thread `t`: numbers of the items for which a message is printed (lines 339-348; the `throw`
is commented out). -/
def senderBad [DecidableEq G] (X A : G) (msgs : List (G × G × G)) (e phi : S) (ps : List S) : List Nat :=
  (List.range msgs.length).filter fun k =>
    !senderTest E X A (msgs.getD k (0, 0, 0)).1 (msgs.getD k (0, 0, 0)).2.1 (msgs.getD k (0, 0, 0)).2.2 e phi
      (ps.getD k 0)

/-- The messages of the sender. -/
structure SMsg (S G : Type) where
  A2 : G
  A2s : Nat → List G
  Z : G
  phi2 : S
  Mps : Nat → List G
  outs : Nat → List Block

/-- `sigma2C` (Sender lines 250-262, Receiver lines 330-369). -/
def challenge2 (A2 : G) (A2s : Nat → List G) (T : Nat) : S := E.ch2 (transcript A2 A2s T)

/-- The sender (lines 95-99, 174-241, 258-271, 353-402), for points `Ms t` received by thread `t`; first component:
the items for which thread `t` prints that the proof is bad. -/
def send [DecidableEq G] (X : List Block) (T : Nat) (sr : SendRand S) (XA : G × G) (msgs : Nat → List (G × G × G))
    (e phi : S) (ps : Nat → List S) : (Nat → List Nat) × SMsg S G :=
  let A2 := sr.r2 • E.gg
  let A2s := fun t => (msgs t).map fun m => sr.r2 • m.1
  (fun t => senderBad E XA.1 XA.2 (msgs t) e phi (ps t),
   { A2 := A2, A2s := A2s, Z := sr.Rs • E.gg, phi2 := sr.r2 + challenge2 E A2 A2s T * sr.Rs,
     Mps := fun t => (msgs t).map fun m => sr.Rs • m.1,
     outs := fun t => (idxs X.length T t).map fun j =>
      E.H (sr.Rs • E.hps (X.getD j 0)) (E.hps (X.getD j 0)) (X.getD j 0) })

/-! ### receiver, second part -/

/-- The first eight bytes of a block. -/
def low (b : Block) : Nat := b.toNat % 2 ^ 64

/-- `hashs.find` and `hashs.insert` (lines 457, 484, 508). -/
def tfind (m : List (Nat × Block × Nat)) (k : Nat) : Option (Block × Nat) := (m.find? (·.1 == k)).map (·.2)

/-- `hashs.insert(...)` (line 457 and following): an entry that is there already stays. -/
def tinsert (m : List (Nat × Block × Nat)) (e : Block × Nat) : List (Nat × Block × Nat) :=
  match tfind m (low e.1) with
  | some _ => m
  | none => m ++ [(low e.1, e)]

/-- The hash of input `i` with `Kci` (lines 432-451). -/
def recvHash (Y : List Block) (rr : RecvRand S) (Z : G) (i : Nat) (Mp : G) : Block :=
  E.H ((0 - rr.rc i) • Z + Mp) (E.hp (Y.getD i 0)) (Y.getD i 0)

/-- The hashes of thread `t` (lines 412-463). -/
def hashVec (Y : List Block) (T : Nat) (rr : RecvRand S) (m : SMsg S G) (t : Nat) : List (Block × Nat) :=
  ((idxs Y.length T t).zip (m.Mps t)).map fun p => (recvHash E Y rr m.Z p.1 p.2, p.1)

/-- `hashs` after the merging (lines 457, 478-486). -/
def table (Y : List Block) (T : Nat) (rr : RecvRand S) (m : SMsg S G) : List (Nat × Block × Nat) :=
  ((List.range T).flatMap (hashVec E Y T rr m)).foldl tinsert []

/-- The tests of the receiver: sizes (lines 349, 419), `Z` (379-386), and every `Mpi` (465-472). -/
def recvTests [DecidableEq G] (Y : List Block) (T : Nat) (rr : RecvRand S) (m : SMsg S G) : Bool :=
  let c := challenge2 E m.A2 m.A2s T
  decide (m.A2 + c • m.Z = m.phi2 • E.gg) &&
  (List.range T).all fun t =>
    (m.A2s t).length == (idxs Y.length T t).length && (m.Mps t).length == (idxs Y.length T t).length &&
    ((idxs Y.length T t).zip ((m.A2s t).zip (m.Mps t))).all fun p =>
      decide (p.2.1 + c • p.2.2 = m.phi2 • msgM E Y T rr t p.1)

/-- Lookup of one received block (lines 505-526). -/
def hit (tb : List (Nat × Block × Nat)) (b : Block) : Option Nat :=
  match tfind tb (low b) with
  | some e => if e.1 = b then some e.2 else none
  | none => none

/-- `mIntersection` (lines 497-531, 551-555); `init` clears it. -/
def receive [DecidableEq G] (Y : List Block) (T : Nat) (rr : RecvRand S) (m : SMsg S G) : Out (List Nat) :=
  if recvTests E Y T rr m then
    .ok ((List.range T).flatMap fun t => (m.outs t).filterMap (hit (table E Y T rr m)))
  else .throw

/-- Messages of the receiver's thread `t`. -/
def recvFirst (Y : List Block) (T : Nat) (rr : RecvRand S) (t : Nat) : List (G × G × G) :=
  (idxs Y.length T t).map fun i => (msgM E Y T rr t i, msgN E Y T rr t i, msgB E rr i)

/-- What the honest sender computes in a run with the honest receiver. -/
def sendHonest [DecidableEq G] (X Y : List Block) (T : Nat) (rr : RecvRand S) (sr : SendRand S) :
    (Nat → List Nat) × SMsg S G :=
  send E X T sr (msgX E Y T rr, msgA E rr) (recvFirst E Y T rr) (challenge1 E Y.length T rr) (phi E Y.length T rr)
    fun t => (idxs Y.length T t).map (phis E Y.length T rr)

/-- The whole protocol. -/
def run [DecidableEq G] (X Y : List Block) (T : Nat) (rr : RecvRand S) (sr : SendRand S) : Out (List Nat) :=
  receive E Y T rr (sendHonest E X Y T rr sr).2

end Verif.Dkt
