import Verif.FileModel
/-
Model of `doFilePSI` (libPSI/Tools/fileBased.cpp:162-300) as run by two parties: options, reading,
size exchange, choice of protocol, padding, output. Reading, padding and writing are those of
FileModel.lean. The protocol itself is a function of the two sets; the theorems put the models of
KKRT, RR17a and ECDH in its place.

Simplifications: exceptions end the run of both parties without output (`throw`); in the code each party catches
them, prints a message and returns, and the other party's next operation on the closed channel
throws. A run that waits for ever for a connection, parties that choose different protocols, and
two parties with the same role are `ub`. All three protocols are compiled in.
-/
namespace Verif.FileRun
open Verif Verif.File

/-- Command line options (fileBased.cpp:165-190, 207, 213, 217-266; `padSmallSet` 147); `role` and `server` are `int`. -/
structure Opts where
  path : List Nat
  bin : Bool
  csv : Bool
  debug : Bool
  role : Int
  server : Option Int
  senderSize : Option Nat
  receiverSize : Option Nat
  pad : Bool
  kkrt : Bool
  rr17a : Bool
  ecdh : Bool

/-- The protocols (fileBased.cpp:217, 240, 266). -/
inductive Proto
  | kkrt | rr17a | ecdh
  deriving DecidableEq

/-- Up to the connection (fileBased.cpp:165-192): type, set, check of the role. The check that is meant
for `-server` (lines 191-192) tests the role again. -/
def localPart (ro : List Nat → Block) (o : Opts) (file : Option (List Nat)) :
    Out (List Block × FileType) :=
  (chooseType o.path o.bin o.csv).bind fun ft =>
  (readSet ro file ft o.debug).bind fun set =>
    if o.role ≠ 0 ∧ o.role ≠ 1 then .throw else .ok (set, ft)

/-- `mode` (fileBased.cpp:190, 194): server if the option, or else the role, is not 0. -/
def Opts.isServer (o : Opts) : Bool := decide (o.server.getD o.role ≠ 0)

/-- The size options of the own and of the other set (fileBased.cpp:207, 213). -/
def Opts.ownSize (o : Opts) : Option Nat := if o.role = 0 then o.senderSize else o.receiverSize
/-- The size option of the other set (fileBased.cpp:213). -/
def Opts.theirSize (o : Opts) : Option Nat := if o.role ≠ 0 then o.senderSize else o.receiverSize

/-- Both size checks pass (fileBased.cpp:207, 213). -/
def Opts.sizesOk (o : Opts) (mine theirs : Nat) : Bool :=
  decide (mine = o.ownSize.getD mine) && decide (theirs = o.theirSize.getD theirs)

/-- The chain of protocol flags (fileBased.cpp:217, 240, 266, 288-291). -/
def Opts.choose (o : Opts) : Out Proto :=
  if o.kkrt then .ok .kkrt else if o.rr17a then .ok .rr17a else if o.ecdh then .ok .ecdh else .throw

/-- The set that goes into the protocol (fileBased.cpp:243, 269): KKRT does not pad. -/
def prepare (p : Proto) (flag : Bool) (rnd : Nat → Block) (set : List Block) (theirs : Nat) :
    Out (List Block) :=
  if p = .kkrt then .ok set else (padSmallSet flag rnd set theirs).bind fun r => .ok r.1

/-- Both parties after the local part (fileBased.cpp:194-291): the bytes of the receiver's output file. -/
def joint (proto : Proto → List Block → List Block → Out (List Nat)) (s r : Opts)
    (rndS rndR : Nat → Block) (S R : List Block) (ft : FileType) : Out (List Nat) :=
  if s.isServer = r.isServer then .ub
  else if (s.sizesOk S.length R.length && r.sizesOk R.length S.length) = false then .throw
  else s.choose.bind fun p => r.choose.bind fun q =>
    if p ≠ q then .ub else
    (prepare p s.pad rndS S R.length).bind fun S' =>
    (prepare p r.pad rndR R S.length).bind fun R' =>
    (proto p S' R').bind fun out => .ok (writeOutput ft out)

/-- `doFilePSI` of two parties (fileBased.cpp:162-300). -/
def filePsi (ro : List Nat → Block) (proto : Proto → List Block → List Block → Out (List Nat))
    (s r : Opts) (fs fr : Option (List Nat)) (rndS rndR : Nat → Block) : Out (List Nat) :=
  (localPart ro s fs).bind fun a => (localPart ro r fr).bind fun b =>
    if s.role = 0 ∧ r.role = 1 then joint proto s r rndS rndR a.1 b.1 b.2 else .ub

end Verif.FileRun
