import Verif.DrrnFullModel
/-
What the client of DRRN sees: the result of the final PSI before the queries are mapped to items (DrrnPsiClient.cpp:239-245). Besides this
result and the messages of the final PSI the client receives nothing from the servers.
-/
namespace Verif.Drrn
open Verif

variable (c : Params)

/-- `mPsi.mIntersection`: the positions of the queries whose share is in the servers' set (client line 239). -/
def psiOut (aes : Bool → Block → Block) (old : Bgi.Multi) (psi : List Block → List Block → Out (List Nat))
    (slot : Block → Nat → Nat) (seeds : Nat → Nat → Block × Block) (w : Rand) (xs : List Block)
    (tbl : List (Nat × Block)) : Out (List Nat) :=
  if (List.range c.S).all (fun b => decide ((bin c slot xs b).length ≤ c.L)) then
    (serverBits c aes old tbl (keyMsg c aes slot xs seeds false)).bind fun bits0 =>
    (serverBits c aes old tbl (keyMsg c aes slot xs seeds true)).bind fun bits1 =>
      psi (serverValues c slot xs tbl w bits0 bits1) (clientShares c slot xs w.r)
  else .ub

/-- `psiOut` after the servers have inserted their set into the empty index `cu`. -/
def clientSees (aesH : Block → Block) (aes : Bool → Block → Block) (old : Bgi.Multi)
    (psi : List Block → List Block → Out (List Nat)) (cu : Cuckoo.Cuckoo) (seeds : Nat → Nat → Block × Block)
    (w : Rand) (xs ys : List Block) : Out (List Nat) :=
  (Cuckoo.insertItems aesH cu ys 0).bind fun cu' =>
    psiOut c aes old psi (slotOf aesH c.N) seeds w xs (cuckooData cu'.bins ys)

end Verif.Drrn
