import Verif.BgiModel
import Mathlib.Probability.ProbabilityMassFunction.Constructions
import Mathlib.Probability.Distributions.Uniform
/-
Specification for property C116: one DPF key says nothing about the index.

The security of the PRG in its ideal form: what it gives on the seeds that the server does not know is replaced
by independent uniform blocks; on the server's own seeds it is the function of the code (any function `aes`).
-/
namespace Verif.Bgi
open Verif
open scoped ENNReal

/-! ### Specification -/

/-- The key of server `srv` (`false`: `k0, g0`; `true`: `k1, g1`), where the PRG on the other server's seed `s` of level `i` gives
`ext i s b` instead of `G_b(s)`, and `leaf s j` at the end. -/
def keyGenOther (aes : Bool → Block → Block) (srv : Bool) (kDepth groupSize idx : Nat) (r0 r1 : Block)
    (ext : Nat → Block → Bool → Block) (leaf : Block → Nat → Block) : Key :=
  let kIdx := idx / (groupSize * 128)
  let gIdx := idx % (groupSize * 128)
  let st := (List.range kDepth).foldl (fun st i =>
    if srv then kgCombine st (keepBit kIdx (kDepth - 1 - i)) (ext i st.s0 false) (ext i st.s0 true)
      (prg aes false st.s1) (prg aes true st.s1)
    else kgCombine st (keepBit kIdx (kDepth - 1 - i)) (prg aes false st.s0) (prg aes true st.s0)
      (ext i st.s1 false) (ext i st.s1 true)) { s0 := rootSeed r0 r1, s1 := r1, cws := [] }
  if srv then { k := r1 :: st.cws, g := lastWord groupSize gIdx (leaf st.s0) (leafBlock aes st.s1) }
  else { k := rootSeed r0 r1 :: st.cws, g := lastWord groupSize gIdx (leafBlock aes st.s0) (leaf st.s1) }

/-- A uniform block. -/
noncomputable def unif : PMF Block := (PMF.uniformOfFintype (Fin (2 ^ 128))).map BitVec.ofFin

/-- `n` independent uniform blocks. -/
noncomputable def blocks : Nat → PMF (List Block)
  | 0 => PMF.pure []
  | n + 1 => unif.bind fun x => (blocks n).bind fun l => PMF.pure (x :: l)

/-- What server `srv` gets, with random blocks `us`, `vs`, `ws` in place of the PRG on the other server's seeds. -/
noncomputable def idealKey (aes : Bool → Block → Block) (srv : Bool) (kDepth groupSize idx : Nat) : PMF Key :=
  unif.bind fun r0 => unif.bind fun r1 => (blocks kDepth).bind fun us => (blocks kDepth).bind fun vs =>
    (blocks groupSize).bind fun ws => PMF.pure (keyGenOther aes srv kDepth groupSize idx r0 r1
      (fun i _ b => if b then vs.getD i 0 else us.getD i 0) (fun _ j => ws.getD j 0))

/-! ### the steps from the real keys to the ideal ones -/

/-- The PRG where the first `us.length` levels are random and the others as in the code. -/
def extFrom (aes : Bool → Block → Block) (us vs : List Block) : Nat → Block → Bool → Block := fun i s b =>
  if i < us.length then (if b then vs.getD i 0 else us.getD i 0) else prg aes b s

/-- The key of server `srv` as the code makes it, with uniform `r0`, `r1`. -/
noncomputable def realKey (aes : Bool → Block → Block) (srv : Bool) (kDepth groupSize idx : Nat) : PMF Key :=
  unif.bind fun r0 => unif.bind fun r1 => PMF.pure
    (if srv then (keyGen aes kDepth groupSize idx r0 r1).2 else (keyGen aes kDepth groupSize idx r0 r1).1)

/-- A distinguisher for the PRG on level `j`: given two blocks `u v` it makes a key by itself, with random blocks on the
levels before `j`, with `u v` on level `j` and with the PRG behind. It does not know a seed of which `u v` are the values. -/
noncomputable def prgKey (aes : Bool → Block → Block) (srv : Bool) (kDepth groupSize idx j : Nat) (u v : Block) : PMF Key :=
  unif.bind fun r0 => unif.bind fun r1 => (blocks j).bind fun us => (blocks j).bind fun vs =>
    PMF.pure (keyGenOther aes srv kDepth groupSize idx r0 r1 (extFrom aes (us ++ [u]) (vs ++ [v])) (leafBlock aes))

/-- A distinguisher for the leaf blocks: it makes a key with random blocks on all levels and the given leaf blocks. -/
noncomputable def leafKey (aes : Bool → Block → Block) (srv : Bool) (kDepth groupSize idx : Nat) (ws : List Block) : PMF Key :=
  unif.bind fun r0 => unif.bind fun r1 => (blocks kDepth).bind fun us => (blocks kDepth).bind fun vs =>
    PMF.pure (keyGenOther aes srv kDepth groupSize idx r0 r1 (extFrom aes us vs) fun _ j => ws.getD j 0)

/-- How well the event `E` on what `K` makes of two blocks tells the values of the PRG on a random seed from random blocks. -/
noncomputable def prgGap (aes : Bool → Block → Block) (K : Block → Block → PMF Key) (E : Set Key) : ℝ :=
  |((unif.bind fun s => K (prg aes false s) (prg aes true s)).toOuterMeasure E).toReal -
    ((unif.bind fun u => unif.bind fun v => K u v).toOuterMeasure E).toReal|

/-- The same for the leaf blocks of a random seed. -/
noncomputable def leafGap (aes : Bool → Block → Block) (groupSize : Nat) (K : List Block → PMF Key) (E : Set Key) : ℝ :=
  |((unif.bind fun s => K ((List.range groupSize).map (leafBlock aes s))).toOuterMeasure E).toReal -
    (((blocks groupSize).bind K).toOuterMeasure E).toReal|

end Verif.Bgi
