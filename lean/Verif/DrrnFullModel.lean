import Verif.DrrnModel
import Verif.BgiStreamModel
import Verif.CuckooModel
/-
The DRRN protocol from the sets to the result, with the parts that DrrnModel leaves open: the servers' cuckoo table
(DrrnPsiServer.cpp:105-147), the DPF keys of the client and their way to the servers (DrrnPsiClient.cpp:124-201,
DrrnPsiServer.cpp:148-205), and the final PSI (DrrnPsiClient.cpp:237-243, DrrnPsiServer.cpp:453).

Simplifications: those of DrrnModel, but for the table, the DPF and the final PSI; `aesH` is `AES(mHashingSeed)`,
`aes` the two ciphers of the DPF; the exceptions of one party end the run; the seeds of the keys are arbitrary;
`std::vector<block>(n)` holds zeros.
-/
namespace Verif.Drrn
open Verif

/-- The slot of an item (client lines 59-66). -/
def slotOf (aesH : Block → Block) (N : Nat) (x : Block) (j : Nat) : Nat := Cuckoo.getHash (aesH x ^^^ x) j N

/-- One cell of the index in `setInputs` (server lines 131-139). -/
def cellData (cells : List Nat) (ys : List Block) (p : Nat) : Option (Nat × Block) :=
  if cells.getD p Cuckoo.emptyVal = Cuckoo.emptyVal then none
  else some (p, ys.getD (Cuckoo.idxOf (cells.getD p Cuckoo.emptyVal)) 0)

/-- `mCuckooData` (server lines 118-141). -/
def cuckooData (cells : List Nat) (ys : List Block) : List (Nat × Block) :=
  (List.range cells.length).filterMap (cellData cells ys)

/-! ### keys -/

variable (c : Params)

/-- `keySize` (client line 124, server lines 155-158). -/
def Params.keySize : Nat := c.kDepth + 1 + c.groupSize

/-- The keys of query `k` of region `b` (client lines 156, 158): `seeds b k` are the two blocks of the generator
seeded for this key. -/
def keyPair (aes : Bool → Block → Block) (slot : Block → Nat → Nat) (xs : List Block)
    (seeds : Nat → Nat → Block × Block) (b k : Nat) : Bgi.Key × Bgi.Key :=
  Bgi.keyGen aes c.kDepth c.groupSize (target c slot xs b ((bin c slot xs b).getD k (0, 0))) (seeds b k).1 (seeds b k).2

/-- `kk0`, `g0` one after the other (client lines 142-146). -/
def keyRow (key : Bgi.Key) : List Block := key.k ++ key.g

/-- The message `k0` (`side = false`) or `k1` for region `b` (client lines 134-201). -/
def keyMsg (aes : Bool → Block → Block) (slot : Block → Nat → Nat) (xs : List Block)
    (seeds : Nat → Nat → Block × Block) (side : Bool) (b : Nat) : List Block :=
  ((List.range (bin c slot xs b).length).flatMap fun k =>
    keyRow (if side then (keyPair c aes slot xs seeds b k).2 else (keyPair c aes slot xs seeds b k).1)) ++
  List.replicate ((c.L - (bin c slot xs b).length) * c.keySize) 0

/-- Row `j` of `mKeys`, divided into its two parts (server lines 176-181; `setKey`, BgiPirServer.cpp:1121-1130). -/
def srvKey (msg : List Block) (j : Nat) : Bgi.Key :=
  { k := ((msg.drop (j * c.keySize)).take c.keySize).take (c.kDepth + 1)
    g := ((msg.drop (j * c.keySize)).take c.keySize).drop (c.kDepth + 1) }

/-- One byte as a bit: `zeroAndAllOne[byte]` has two entries (server lines 225-245). -/
def bitOf (b : BitVec 8) : Out Bool := if b = 0#8 then .ok false else if b = 1#8 then .ok true else .ub

/-- The bits of one call of `yeild`. -/
def bitsOf : List (BitVec 8) → Out (List Bool)
  | [] => .ok []
  | b :: bs => (bitOf b).bind fun x => (bitsOf bs).bind fun r => .ok (x :: r)

/-- `n` calls of `yeild` (server lines 216-246). -/
def yields (aes : Bool → Block → Block) : Nat → Bgi.Multi → Out (List (List Bool))
  | 0, _ => .ok []
  | n + 1, m => (Bgi.multiYield aes m).1.bind fun bs => (bitsOf bs).bind fun r =>
      (yields aes n (Bgi.multiYield aes m).2).bind fun rest => .ok (r :: rest)

/-- Bit of key `j` for block `i`. -/
def bitAt (rows : List (List Bool)) (j i : Nat) : Bool := (rows.getD i []).getD j false

/-- The bits that a server uses in `eval` for a region (server lines 184-246): `ni` is the number of the items of the
region, `size` is `tableSize`, `old` the uninitialised object `mk`. A message of another length than `mKeys` makes
the receive operation throw. -/
def regionBits (aes : Bool → Block → Block) (old : Bgi.Multi) (msg : List Block) (ni size : Nat) :
    Out (Nat → Nat → Bool) :=
  if size % c.bb ≠ 0 then .throw
  else if msg.length ≠ c.L * c.keySize then .throw
  else if ni = 0 then .ok fun _ _ => false
  else (Bgi.multiSetKeys (Bgi.multiInit old c.L (c.kDepth + 1) c.groupSize) 0
      ((List.range c.L).map (srvKey c msg))).bind fun m =>
    (yields aes (divCeil size c.bb) m).bind fun rows => .ok (bitAt rows)

/-- The bits of all regions `b`, `b + 1`, … (server lines 368-397). -/
def allBits (f : Nat → Out (Nat → Nat → Bool)) : Nat → Nat → Out (Nat → Nat → Nat → Bool)
  | 0, _ => .ok fun _ _ _ => false
  | n + 1, b => (f b).bind fun r => (allBits f n (b + 1)).bind fun rest =>
      .ok fun b' => if b' = b then r else rest b'

/-- The bits of a server. -/
def serverBits (aes : Bool → Block → Block) (old : Bgi.Multi) (tbl : List (Nat × Block)) (msg : Nat → List Block) :
    Out (Nat → Nat → Nat → Bool) :=
  allBits (fun b => regionBits c aes old (msg b) (regionItems c tbl b).length (c.srvStart (b + 1) - c.srvStart b))
    c.S 0

/-- The protocol after the servers' table is made. A bin with more than `L` queries is written behind its row (client
line 69). The client's result is the item of every reported query (client lines 241-244, `inputMap`). -/
def fullRun (aes : Bool → Block → Block) (old : Bgi.Multi) (psi : List Block → List Block → Out (List Nat))
    (slot : Block → Nat → Nat) (seeds : Nat → Nat → Block × Block) (w : Rand) (xs : List Block)
    (tbl : List (Nat × Block)) : Out (List Nat) :=
  if (List.range c.S).all (fun b => decide ((bin c slot xs b).length ≤ c.L)) then
    (serverBits c aes old tbl (keyMsg c aes slot xs seeds false)).bind fun bits0 =>
    (serverBits c aes old tbl (keyMsg c aes slot xs seeds true)).bind fun bits1 =>
    (psi (serverValues c slot xs tbl w bits0 bits1) (clientShares c slot xs w.r)).bind fun out =>
      .ok (out.map fun k => ((queries c slot xs).getD k (0, 0, 0)).2.2)
  else .ub

/-- The whole protocol: both servers insert the same set into the empty index `cu`. -/
def protocol (aesH : Block → Block) (aes : Bool → Block → Block) (old : Bgi.Multi)
    (psi : List Block → List Block → Out (List Nat)) (cu : Cuckoo.Cuckoo) (seeds : Nat → Nat → Block × Block)
    (w : Rand) (xs ys : List Block) : Out (List Nat) :=
  (Cuckoo.insertItems aesH cu ys 0).bind fun cu' =>
    fullRun c aes old psi (slotOf aesH c.N) seeds w xs (cuckooData cu'.bins ys)

end Verif.Drrn
