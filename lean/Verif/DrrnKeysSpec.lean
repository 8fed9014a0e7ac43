import Verif.DrrnKeysModel
import Verif.BgiPrivSpec
/-
Specification for property C162: what the DPF keys of DRRN show about the client's set.
-/
namespace Verif.Drrn
open Verif
open scoped ENNReal

/-- How often the client's items are hashed into region `b`. -/
def asked (c : Params) (slot : Block → Nat → Nat) (xs : List Block) (b : Nat) : Nat :=
  (xs.map fun x => (List.range c.h).countP fun j => slot x j * c.S / c.N == b).sum

/-- What a server can count in a message: the rows of `keySize` blocks, of the first `L`, that are not zero. -/
def rowsUsed (c : Params) (msg : List Block) : Nat :=
  (List.range c.L).countP fun j => ((msg.drop (j * c.keySize)).take c.keySize).any (· != 0)

/-- `n` independent pairs of uniform blocks. -/
noncomputable def pairs : Nat → PMF (List (Block × Block))
  | 0 => PMF.pure []
  | n + 1 => Bgi.unif.bind fun r0 => Bgi.unif.bind fun r1 => (pairs n).bind fun l => PMF.pure ((r0, r1) :: l)

/-- The distribution of the messages with keys. -/
noncomputable def viewDist (c : Params) (aes : Bool → Block → Block) (slot : Block → Nat → Nat) (xs : List Block) (side : Bool) :
    PMF (List (List Block)) :=
  (pairs (xs.length * c.h)).map (keysView c aes slot xs side)

/-- Independent values. -/
noncomputable def each {α : Type} : List (PMF α) → PMF (List α)
  | [] => PMF.pure []
  | p :: ps => p.bind fun a => (each ps).bind fun l => PMF.pure (a :: l)

/-- The messages for keys in the order of the queries, where the regions have `loads` queries. -/
def arrange (c : Params) : List Nat → List Bgi.Key → List (List Block)
  | [], _ => []
  | n :: ls, ks => ((ks.take n).flatMap keyRow ++ List.replicate ((c.L - n) * c.keySize) 0) :: arrange c ls (ks.drop n)

/-- The positions asked for, in the order of the queries. -/
def positions (c : Params) (slot : Block → Nat → Nat) (xs : List Block) : List Nat :=
  (List.range c.S).flatMap fun b => (bin c slot xs b).map (target c slot xs b)

/-- The keys for a list of positions where one of them is replaced: those before it are ideal, those behind it as in the code. -/
noncomputable def mixed (c : Params) (aes : Bool → Block → Block) (side : Bool) (pre post : List Nat) (K : PMF Bgi.Key) :
    PMF (List Bgi.Key) :=
  K.bind fun k => (each (pre.map (Bgi.idealKey aes side c.kDepth c.groupSize))).bind fun a =>
    (each (post.map (Bgi.realKey aes side c.kDepth c.groupSize))).bind fun b => PMF.pure (a ++ k :: b)

/-- How well the event tells the values of the PRG on a random seed from random blocks. -/
noncomputable def prgGapOn {α : Type} (aes : Bool → Block → Block) (K : Block → Block → PMF α) (E : Set α) : ℝ :=
  |((Bgi.unif.bind fun s => K (Bgi.prg aes false s) (Bgi.prg aes true s)).toOuterMeasure E).toReal -
    ((Bgi.unif.bind fun u => Bgi.unif.bind fun v => K u v).toOuterMeasure E).toReal|

/-- The same for the leaf blocks of a random seed. -/
noncomputable def leafGapOn {α : Type} (aes : Bool → Block → Block) (groupSize : Nat) (K : List Block → PMF α) (E : Set α) : ℝ :=
  |((Bgi.unif.bind fun s => K ((List.range groupSize).map (Bgi.leafBlock aes s))).toOuterMeasure E).toReal -
    (((Bgi.blocks groupSize).bind K).toOuterMeasure E).toReal|

/-- On the keys for the positions `idxs`, the event `E` tells no PRG value and no leaf blocks of a random seed from random blocks by more
than `ε`, where everything else is made as said. -/
def Safe (c : Params) (aes : Bool → Block → Block) (side : Bool) (idxs : List Nat) (E : Set (List Bgi.Key)) (ε : ℝ) : Prop :=
  ∀ pre i post, idxs = pre ++ i :: post →
    (∀ j, j < c.kDepth → prgGapOn aes (fun u v => mixed c aes side pre post (Bgi.prgKey aes side c.kDepth c.groupSize i j u v)) E ≤ ε) ∧
    leafGapOn aes c.groupSize (fun ws => mixed c aes side pre post (Bgi.leafKey aes side c.kDepth c.groupSize i ws)) E ≤ ε

end Verif.Drrn
