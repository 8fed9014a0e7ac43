import Verif.SeedModel
/-!
# Choice of the joint hash seed: C49

The property: a seed is accepted only if it fits the commitment that was received first.
-/
namespace Verif.Seed

variable {K : Type}

/-- The party accepts a peer's seed only if it opens the peer's commitment. -/
def Checked (commit : Block → K) : Prop :=
  ∀ (my : Block) (p : Peer K), (hashingSeed commit my p).isSome →
    (run commit my p).theirComm = (run commit my p).theirSeed.map commit

/-- **C49** is false: for every commitment scheme with at least two commitments some peer is
accepted that opens its commitment wrongly. -/
theorem C49_not_checked (commit : Block → K) (a : K) (ha : a ≠ commit 0) : ¬ Checked commit := by
  intro h
  have := h 0 ⟨fun _ => a, fun _ => 0⟩ rfl
  exact ha (Option.some.inj this)

/-- What a malicious peer gains: for every value there is a peer that forces it as hash seed,
whatever the commitment function and the own seed. -/
theorem C49_forced (commit : Block → K) (target : Block) :
    ∃ p : Peer K, ∀ my : Block, hashingSeed commit my p = some target := by
  refine ⟨⟨fun _ => commit 0, fun sent => match sent.getLast? with
    | some (.seed s) => s ^^^ target
    | _ => 0⟩, fun my => ?_⟩
  show some (my ^^^ (my ^^^ target)) = some target
  congr 1
  apply BitVec.eq_of_getLsbD_eq
  intro k _
  simp only [BitVec.getLsbD_xor]
  cases my.getLsbD k <;> cases target.getLsbD k <;> rfl

/-- The received commitment has no influence at all. -/
theorem C49_comm_unused (commit : Block → K) (my : Block) (c c' : List (Msg K) → K)
    (s : List (Msg K) → Block) :
    hashingSeed commit my ⟨c, s⟩ = hashingSeed commit my ⟨c', s⟩ := rfl

/-- **C49**, part that holds: two parties that run the program get the same seed, the XOR of
their seeds, and the commitment that is received belongs to the seed (a check would pass). -/
theorem C49_honest_partial (commit : Block → K) (s t : Block) :
    hashingSeed commit s (honest commit t) = some (s ^^^ t) ∧
    hashingSeed commit s (honest commit t) = hashingSeed commit t (honest commit s) ∧
    (run commit s (honest commit t)).theirComm = some (commit t) ∧
    (run commit s (honest commit t)).theirSeed = some t := by
  refine ⟨rfl, ?_, rfl, rfl⟩
  show some (s ^^^ t) = some (t ^^^ s)
  rw [BitVec.xor_comm]

/-- **C49**, part that holds: the peer's commitment is received before the own seed is sent, so
with a binding commitment every peer that opens correctly has a seed that depends on the own
commitment only.  Missing: that peers who open wrongly are rejected (`C49_not_checked`). -/
theorem C49_order_partial (commit : Block → K) (hb : Function.Injective commit) (p : Peer K) :
    ∃ f : K → Option Block, ∀ my : Block,
      (run commit my p).theirComm = (run commit my p).theirSeed.map commit →
      (run commit my p).theirSeed = f (commit my) := by
  classical
  refine ⟨fun k => if h : ∃ s, commit s = p.comm [.comm k] then some h.choose else none,
    fun my h => ?_⟩
  have h1 : p.comm [.comm (commit my)] = commit (p.seed [.comm (commit my), .seed my]) :=
    Option.some.inj h
  have hex : ∃ s, commit s = p.comm [.comm (commit my)] := ⟨_, h1.symm⟩
  show some (p.seed [.comm (commit my), .seed my]) = _
  simp only [dif_pos hex]
  congr 1
  exact hb (by rw [hex.choose_spec, h1])

example : ¬ Checked (fun s : Block => s) := C49_not_checked _ 1 (by decide)
example : ∃ p : Peer Block, ∀ my : Block, hashingSeed id my p = some 42 := C49_forced _ _
example : hashingSeed id (3 : Block) (honest id 5) = some 6 := by decide

end Verif.Seed
