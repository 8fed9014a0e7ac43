import Verif.Basic
/-!
# The check of the number of inputs

The beginning of the online phase of the protocols whose models start after this check (RR17a, RR17b, GRR18, DRRN).
`n` is the size given to `init`, `rest` all that follows, which includes every message. KKRT, DCW and RR16 have the check
in their own models.
-/
namespace Verif.Size
open Verif

variable {α : Type}

/-- `Rr17aMPsiSender::sendInput` (Rr17aMPsiSender.cpp:240-243). -/
def rr17aSend (n : Nat) (rest : List Block → Out α) (items : List Block) : Out α :=
  if items.length ≠ n then .throw else rest items

/-- `Rr17aMPsiReceiver::sendInput` (Rr17aMPsiReceiver.cpp:272-279). -/
def rr17aRecv (n : Nat) (rest : List Block → Out α) (items : List Block) : Out α :=
  if items.length ≠ n then .throw else rest items

/-- `Rr17bMPsiSender::sendInput` (Rr17bMPsiSender.cpp:193-196). -/
def rr17bSend (n : Nat) (rest : List Block → Out α) (items : List Block) : Out α :=
  if items.length ≠ n then .throw else rest items

/-- `Rr17bMPsiReceiver::sendInput` (Rr17bMPsiReceiver.cpp:226-233). -/
def rr17bRecv (n : Nat) (rest : List Block → Out α) (items : List Block) : Out α :=
  if items.length ≠ n then .throw else rest items

/-- `Grr18MPsiSender::sendInput` (Grr18MPsiSender.cpp:199-202). -/
def grr18Send (n : Nat) (rest : List Block → Out α) (items : List Block) : Out α :=
  if items.length ≠ n then .throw else rest items

/-- `Grr18MPsiReceiver::sendInput` (Grr18MPsiReceiver.cpp:207-214). -/
def grr18Recv (n : Nat) (rest : List Block → Out α) (items : List Block) : Out α :=
  if items.length ≠ n then .throw else rest items

/-- `DrrnPsiClient::recv` (DrrnPsiClient.cpp:43-46); `n` is `mClientSetSize`. -/
def drrnClient (n : Nat) (rest : List Block → Out α) (items : List Block) : Out α :=
  if items.length ≠ n then .throw else rest items

end Verif.Size
