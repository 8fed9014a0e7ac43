import Verif.SessionModel
import Mathlib.Logic.Function.Basic
/-!
# Several threads of several parties

Extends SessionModel to parties with several threads, each of which has its own channel to a thread of another party.
A *process* is a thread of a party. It works through a list of operations:
  * an operation on the channel to another process (as in SessionModel);
  * a barrier: the processes of a group go on when all of them have reached it. This stands for
    `ThreadBarrier::decrementWait`, for a counter with a promise that the last thread fulfils (`if (--remaining)
    fut.get(); else prom.set_value();`), for a thread that collects a value of every other thread while the others wait
    for its result, and for `join` of all threads followed by the start of new ones.
-/
namespace Verif.Net
open Verif Session

/-- One operation of a process. -/
inductive Op (ι : Type) where
  /-- operation on the channel to `peer` -/
  | io (peer : ι) (a : Act)
  /-- barrier of the processes in `g` -/
  | sync (g : List ι)

/-- What every process has left to do; `q (p, p')` are the messages under way from `p` to `p'`. -/
structure St (ι : Type) where
  pc : ι → List (Op ι)
  q : ι × ι → List Nat

variable {ι : Type} [DecidableEq ι]

/-- One step of one process, a protocol run by two, or a barrier. -/
inductive Step : St ι → St ι → Prop
  | send {s : St ι} {p p' n r} : s.pc p = .io p' (.send n) :: r →
      Step s ⟨Function.update s.pc p r, Function.update s.q (p, p') (s.q (p, p') ++ [n])⟩
  | recv {s : St ι} {p p' n r l} : s.pc p = .io p' (.recv n) :: r → s.q (p', p) = n :: l →
      Step s ⟨Function.update s.pc p r, Function.update s.q (p', p) l⟩
  | ot {s : St ι} {p p' k rl n r r'} : p ≠ p' → s.pc p = .io p' (.ot k rl n) :: r →
      s.pc p' = .io p (.ot k (!rl) n) :: r' → s.q (p, p') = [] → s.q (p', p) = [] →
      Step s ⟨Function.update (Function.update s.pc p r) p' r', s.q⟩
  | sync {s : St ι} {g} : g ≠ [] → (∀ p ∈ g, ∃ r, s.pc p = .sync g :: r) →
      Step s ⟨fun p => if p ∈ g then (s.pc p).tail else s.pc p, s.q⟩

/-- Any number of steps. -/
inductive Reach : St ι → St ι → Prop
  | refl {s} : Reach s s
  | head {s t u} : Step s t → Reach t u → Reach s u

/-- All processes are through and no message is left. -/
def Final (s : St ι) : Prop := (∀ p, s.pc p = []) ∧ ∀ c, s.q c = []

/-- No step is possible. -/
def Stuck (s : St ι) : Prop := ∀ t, ¬ Step s t

/-- The processes start with these scripts and empty channels. -/
def start (f : ι → List (Op ι)) : St ι := ⟨f, fun _ => []⟩

/-- Whatever the order of the steps, the processes get through: a state from which there is no step is final. -/
def Completes (f : ι → List (Op ι)) : Prop := ∀ s, Reach (start f) s → Stuck s → Final s

/-- Whatever the order of the steps, the processes never get through. -/
def Fails (f : ι → List (Op ι)) : Prop := ∀ s, Reach (start f) s → ¬ Final s

/-! ### Two parties with the same number of threads -/

/-- An operation of one of the threads of a party. -/
inductive TAct
  | act (a : Act)
  /-- barrier of all threads of the party -/
  | bar
  deriving DecidableEq

/-- Processes: party (`false` the receiver, `true` the sender) and thread. -/
abbrev Thread : Type := Bool × Nat

/-- The threads of a party. -/
def group (b : Bool) (T : Nat) : List Thread := (List.range T).map (b, ·)

/-- The channel of thread `t` is the one to thread `t` of the other party. -/
def toOp (T : Nat) (i : Thread) : TAct → Op Thread
  | .act a => .io (!i.1, i.2) a
  | .bar => .sync (group i.1 T)

/-- `R t`, `S t`: what thread `t` of the receiver and of the sender does. -/
def two (T : Nat) (R S : Nat → List TAct) (i : Thread) : List (Op Thread) :=
  if i.2 < T then (if i.1 then S i.2 else R i.2).map (toOp T i) else []

end Verif.Net
