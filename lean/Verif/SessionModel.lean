import Verif.Basic
/-!
# Two parties on one channel

What the protocols use of a `Channel` (cryptoTools) and of the OT classes (libOTe):
  * `asyncSend` puts a message behind the earlier ones and does not wait;
  * `recv` into a buffer of fixed size waits for the next message and throws unless it has this size;
  * an OT protocol (`send`/`receive`, `init`, `setBaseOts`, `genBaseOts`) runs when both parties have reached it, on a
    channel without left-over messages, with the two different roles and the same number of OTs.
`asyncRecv` followed later by `get` is a `recv` at the place of the `asyncRecv` (that is where its place in the order of
the messages is fixed).
-/
namespace Verif.Session
open Verif

/-- The OT protocols. -/
inductive Proto
  | base     -- DefaultBaseOT / NaorPinkas / genBaseOts
  | setBase  -- setBaseOts of an extension
  | kos | iknp | akn
  | nco      -- init of an N-choose-one OT
  | ext      -- send/receive of the OT extension given by the caller
  | check    -- check of an N-choose-one OT
  deriving DecidableEq

/-- One operation on a channel. -/
inductive Act
  | send (bytes : Nat)
  | recv (bytes : Nat)
  | ot (p : Proto) (sender : Bool) (count : Nat)
  deriving DecidableEq

/-- What is left to do, and the messages under way in the two directions. -/
structure St where
  a : List Act
  b : List Act
  toB : List Nat
  toA : List Nat

/-- One step of one party, or a protocol run by both. -/
inductive Step : St → St → Prop
  | sendA {n a b p q} : Step ⟨.send n :: a, b, p, q⟩ ⟨a, b, p ++ [n], q⟩
  | sendB {n a b p q} : Step ⟨a, .send n :: b, p, q⟩ ⟨a, b, p, q ++ [n]⟩
  | recvA {n a b p q} : Step ⟨.recv n :: a, b, p, n :: q⟩ ⟨a, b, p, q⟩
  | recvB {n a b p q} : Step ⟨a, .recv n :: b, n :: p, q⟩ ⟨a, b, p, q⟩
  | ot {k r n a b} : Step ⟨.ot k r n :: a, .ot k (!r) n :: b, [], []⟩ ⟨a, b, [], []⟩

/-- Any number of steps. -/
inductive Reach : St → St → Prop
  | refl {s} : Reach s s
  | head {s t u} : Step s t → Reach t u → Reach s u

/-- Both parties are through and no message is left. -/
def Final (s : St) : Prop := s = ⟨[], [], [], []⟩

/-- No step is possible. -/
def Stuck (s : St) : Prop := ∀ t, ¬ Step s t

/-- Whatever the order of the steps, the parties get through: a state from which there is no step is final. (There are no
infinite runs, every step shortens a script.) -/
def Completes (a b : List Act) : Prop := ∀ s, Reach ⟨a, b, [], []⟩ s → Stuck s → Final s

/-- Whatever the order of the steps, the parties never get through. -/
def Fails (a b : List Act) : Prop := ∀ s, Reach ⟨a, b, [], []⟩ s → ¬ Final s

end Verif.Session
