import Verif.BenchProps
import Verif.BenchDrrnProps
/-!
Property theorems C178 and C180: the seeds that the receivers' drivers hand to the protocol, and the keys of the generators.
-/
namespace Verif.Bench
open Verif
variable {D : Type}

/-- If each trial calls `init` once with the same seed, all trials do (helper). -/
theorem seeds_const (st : Nat → Block) (sys s : Block) (body : List Op)
    (h : ∀ (c : Cfg D) p, (trial st sys c body ⟨p, []⟩).2.filterMap initSeed = [s]) :
    ∀ (cs : List (Cfg D)) (p : Nat) (es : List (Ev D)), trials st sys body cs p = .ok es →
      es.filterMap initSeed = List.replicate cs.length s
  | [], p, es, he => by cases he; rfl
  | c :: cs, p, es, he => by
    unfold trials at he
    split at he
    · cases he
    · cases ht : trials st sys body cs (trial st sys c body ⟨p, []⟩).1.p with
      | ok es' =>
        rw [ht] at he
        cases he
        rw [List.filterMap_append, h, seeds_const st sys s body h cs _ es' ht]
        rfl
      | throw => rw [ht] at he; cases he
      | ub => rw [ht] at he; cases he

/-- C178. The receivers of the benchmarks of RR16, DKT and ECDH are started with the seed zero in every trial, whatever the
generators are: all their secrets are the same in every run of the benchmark. -/
theorem C178_zero_seed (prng : Nat → Nat → Block) (sys : Block) (P : Params D) (d : Driver)
    (hd : d = rr16Recv ∨ d = dktRecv ∨ d = ecdhRecv) (es : List (Ev D)) (h : run prng sys d P = .ok es) :
    es.filterMap initSeed = List.replicate (cfgs d P).length 0 := by
  refine seeds_const (prng d.key) sys 0 d.body ?_ _ 0 es h
  intro c p
  rcases hd with rfl | rfl | rfl <;> rfl

/-- C178. The receiver of the benchmark of DCW is started with a seed of the system in every trial (the model has one such seed
per run). -/
theorem C178_system_seed (prng : Nat → Nat → Block) (sys : Block) (P : Params D) (es : List (Ev D))
    (h : run prng sys dcwRecv P = .ok es) : es.filterMap initSeed = List.replicate (cfgs dcwRecv P).length sys :=
  seeds_const (prng dcwRecv.key) sys sys dcwRecv.body (fun _ _ => rfl) _ 0 es h

/-- C178. The two sides of the benchmark of KKRT use different keys; of the other benchmarks, both sides use the same one. -/
theorem C178_keys : kkrtSend.key ≠ kkrtRecv.key ∧
    ∀ x ∈ pairs, x.1.key = x.2.1.key ∨ x = (kkrtSend, kkrtRecv, false) := by
  constructor
  · decide
  · intro x hx
    simp only [pairs, List.mem_cons, List.not_mem_nil, or_false] at hx
    rcases hx with rfl | rfl | rfl | rfl | rfl | rfl | rfl | rfl
    case inr.inr.inl => exact Or.inr rfl
    all_goals exact Or.inl rfl

/-- C180. The keys of the client (DrrnPSIMain.cpp:110) and of the servers (DrrnPSIMain.cpp:30) are different 128-bit words. -/
theorem C180_keys : keyA < 2 ^ 128 ∧ keyC < 2 ^ 128 ∧ keyA ≠ keyC := by decide

example : ∃ es : List (Ev Unit), run (fun _ i => BitVec.ofNat 128 (i + 5)) 9 ecdhRecv ⟨[2], [1], [()], [], 2⟩ = .ok es ∧
    es.filterMap initSeed = [0, 0] := ⟨_, rfl, by decide⟩
example : ∃ es : List (Ev Unit), run (fun _ i => BitVec.ofNat 128 (i + 5)) 9 dcwRecv ⟨[2], [1], [()], [], 2⟩ = .ok es ∧
    es.filterMap initSeed = [9, 9] := ⟨_, rfl, by decide⟩

end Verif.Bench
