import Verif.BenchLemmas
import Verif.SeedModel
/-!
Property theorems C178: the two sides of a benchmark make the same trials and do not block each other, but only in some of the
benchmarks they have the same sets.
-/
namespace Verif.Bench
open Verif
variable {D : Type}

/-- Sender and receiver of the eight benchmarks, and whether `init` works without the channel. -/
def pairs : List (Driver × Driver × Bool) :=
  [(rr17aSend, rr17aRecv, false), (rr17bSend, rr17bRecv, false), (kkrtSend, kkrtRecv, false), (grr18Send, grr18Recv, false),
   (rr16Send, rr16Recv, false), (dcwSend, dcwRecv, false), (dktSend, dktRecv, true), (ecdhSend, ecdhRecv, true)]

/-- The blocks that a trial draws besides its set. -/
def extra (d : Driver) : Nat := if .init .drawn ∈ d.body then 1 else 0

/-- All sixteen drivers. -/
def drivers : List Driver := pairs.flatMap fun x => [x.1, x.2.1]

private theorem shape (st : Nat → Block) (sys : Block) : ∀ d ∈ drivers, Shape (D := D) st sys d.body
    (fun p c => (trial st sys c d.body ⟨p, []⟩).2) (extra d) := by
  intro d hd
  refine ⟨fun c p => ?_, fun _ _ => rfl⟩
  simp only [drivers, pairs, List.flatMap_cons, List.flatMap_nil, List.cons_append, List.nil_append, List.mem_cons,
    List.not_mem_nil, or_false] at hd
  rcases hd with rfl | rfl | rfl | rfl | rfl | rfl | rfl | rfl | rfl | rfl | rfl | rfl | rfl | rfl | rfl | rfl <;> rfl

private theorem calls (st : Nat → Block) (sys : Block) (p : Nat) (c : Cfg D) : ∀ d ∈ drivers,
    (trial st sys c d.body ⟨p, []⟩).2.filterMap initCfg = [c] ∧ (trial st sys c d.body ⟨p, []⟩).2.filterMap inputCfg = [c] ∧
    (trial st sys c d.body ⟨p, []⟩).2.filterMap inputSet = [window st p c.n] := by
  intro d hd
  simp only [drivers, pairs, List.flatMap_cons, List.flatMap_nil, List.cons_append, List.nil_append, List.mem_cons,
    List.not_mem_nil, or_false] at hd
  rcases hd with rfl | rfl | rfl | rfl | rfl | rfl | rfl | rfl | rfl | rfl | rfl | rfl | rfl | rfl | rfl | rfl <;>
    exact ⟨rfl, rfl, rfl⟩

private theorem run_eq (prng : Nat → Nat → Block) (sys : Block) (d : Driver) (hd : d ∈ drivers) (P : Params D) :
    run prng sys d P = if ∃ c ∈ cfgs d P, c.threads = 0 then .ub else
      .ok (evsFrom (fun p c => (trial (prng d.key) sys c d.body ⟨p, []⟩).2) (extra d) (cfgs d P) 0) :=
  trials_eq (shape (prng d.key) sys d hd) _ _

/-- The combinations that are measured: every one of the given values, as often as there are trials. -/
theorem C178_configs (d : Driver) (P : Params D) :
    (cfgs d P).length = (if d.overEps then P.eps.length else 1) * (P.items.length *
      ((if d.oneThread then P.threads.countP (· = 1) else P.threads.length) *
        ((if d.overScaler then P.scalers.length else 1) * P.trials))) ∧
    ∀ c, c ∈ cfgs d P ↔ 0 < P.trials ∧ c.n ∈ P.items ∧ c.threads ∈ P.threads ∧ (d.oneThread → c.threads = 1) ∧
      (if d.overEps then ∃ e ∈ P.eps, c.eps = some e else c.eps = none) ∧
      (if d.overScaler then ∃ s ∈ P.scalers, c.scaler = some s else c.scaler = none) := by
  constructor
  · have hax : ∀ (b : Bool) (l : List D), (axis b l).length = if b then l.length else 1 := by
      intro b l; cases b <;> simp [axis]
    have hth : (threadsOf d.oneThread P.threads).length =
        if d.oneThread then P.threads.countP (· = 1) else P.threads.length := by
      unfold threadsOf; split <;> simp [List.countP_eq_length_filter]
    have hc : ∀ {α β : Type} (l : List α) (g : α → List β) (k : Nat), (∀ x, (g x).length = k) →
        (l.flatMap g).length = l.length * k := by
      intro α β l g k h
      induction l with
      | nil => simp
      | cons a l ih => rw [List.flatMap_cons, List.length_append, ih, h, List.length_cons]; ring
    unfold cfgs
    rw [hc _ _ _ fun e => hc _ _ _ fun n => hc _ _ _ fun t => hc _ _ P.trials fun s => by simp, hax, hax, hth]
  · intro c
    obtain ⟨e, n, t, s⟩ := c
    have hax : ∀ (b : Bool) (l : List D) (x : Option D), x ∈ axis b l ↔ if b then ∃ y ∈ l, x = some y else x = none := by
      intro b l x; cases b
      · simp [axis]
      · simp only [axis, if_true, List.mem_map]
        exact ⟨fun ⟨y, h, h'⟩ => ⟨y, h, h'.symm⟩, fun ⟨y, h, h'⟩ => ⟨y, h, h'.symm⟩⟩
    have hth : t ∈ threadsOf d.oneThread P.threads ↔ t ∈ P.threads ∧ (d.oneThread → t = 1) := by
      unfold threadsOf; split <;> simp_all
    simp only [cfgs, List.mem_flatMap, List.mem_replicate, Cfg.mk.injEq, ← hax]
    constructor
    · rintro ⟨e', he, n', hn, t', ht, s', hs, h0, rfl, rfl, rfl, rfl⟩
      exact ⟨by omega, hn, (hth.1 ht).1, (hth.1 ht).2, he, hs⟩
    · rintro ⟨h0, hn, ht, ht', he, hs⟩
      exact ⟨e, he, n, hn, t, hth.2 ⟨ht, ht'⟩, s, hs, by omega, rfl, rfl, rfl, rfl⟩

/-- Both sides of a benchmark make the same trials in the same order: they call `init` and `sendInput` with the same set
sizes, numbers of channels, bin scalers and epsilons, once per trial, and with sets of the size announced. -/
theorem C178_same_trials (prng prng' : Nat → Nat → Block) (sys sys' : Block) (P : Params D) (x : Driver × Driver × Bool)
    (hx : x ∈ pairs) (hP : ∀ t ∈ P.threads, 0 < t) :
    ∃ es er, run prng sys x.1 P = .ok es ∧ run prng' sys' x.2.1 P = .ok er ∧ cfgs x.1 P = cfgs x.2.1 P ∧
      es.filterMap initCfg = cfgs x.1 P ∧ er.filterMap initCfg = cfgs x.1 P ∧
      es.filterMap inputCfg = cfgs x.1 P ∧ er.filterMap inputCfg = cfgs x.1 P ∧
      (es.filterMap inputSet).map List.length = (cfgs x.1 P).map (·.n) ∧
      (er.filterMap inputSet).map List.length = (cfgs x.1 P).map (·.n) := by
  have h1 : x.1 ∈ drivers := List.mem_flatMap.2 ⟨x, hx, by simp⟩
  have h2 : x.2.1 ∈ drivers := List.mem_flatMap.2 ⟨x, hx, by simp⟩
  have hc : cfgs x.1 P = cfgs x.2.1 P := by
    simp only [pairs, List.mem_cons, List.not_mem_nil, or_false] at hx
    rcases hx with rfl | rfl | rfl | rfl | rfl | rfl | rfl | rfl <;> rfl
  have hz : ∀ d, ¬ ∃ c ∈ cfgs d P, c.threads = 0 := by
    rintro d ⟨c, hc, h0⟩
    have := hP _ (((C178_configs d P).2 c).1 hc).2.2.1
    omega
  have key : ∀ (prng : Nat → Nat → Block) (sys : Block) (d : Driver), d ∈ drivers → ∃ es, run prng sys d P = .ok es ∧
      es.filterMap initCfg = cfgs d P ∧ es.filterMap inputCfg = cfgs d P ∧
      (es.filterMap inputSet).map List.length = (cfgs d P).map (·.n) := by
    intro prng sys d hd
    refine ⟨_, by rw [run_eq prng sys d hd P, if_neg (hz d)], ?_, ?_, ?_⟩
    · rw [filterMap_evsFrom initCfg (fun _ c => c) (fun p c => (calls (prng d.key) sys p c d hd).1)]
      rw [range_filterMap_get _ (fun c => c), List.map_id']
    · rw [filterMap_evsFrom inputCfg (fun _ c => c) (fun p c => (calls (prng d.key) sys p c d hd).2.1)]
      rw [range_filterMap_get _ (fun c => c), List.map_id']
    · rw [filterMap_evsFrom inputSet _ (fun p c => (calls (prng d.key) sys p c d hd).2.2), List.map_filterMap]
      simp only [Option.map_map, Function.comp_def, window_length]
      exact range_filterMap_get _ _
  obtain ⟨es, a1, a2, a3, a4⟩ := key prng sys x.1 h1
  obtain ⟨er, b1, b2, b3, b4⟩ := key prng' sys' x.2.1 h2
  rw [← hc] at b2 b3 b4
  exact ⟨es, er, a1, b1, hc, a2, b2, a3, b3, a4, b4⟩

/-- The number of threads zero is taken (the drivers use `chls[0]` of no channels). -/
theorem C178_no_threads (prng : Nat → Nat → Block) (sys : Block) (P : Params D) (d : Driver) (hd : d ∈ drivers) :
    run prng sys d P = .ub ↔ ∃ c ∈ cfgs d P, c.threads = 0 := by
  rw [run_eq prng sys d hd P]
  split
  · rename_i h; simp only [h]
  · rename_i h; simp only [h]; simp

/-- The bytes that the two sides send each other between the calls of the protocol never leave one of them waiting, and no
call finds a byte of the other side in the channel. -/
theorem C178_sync (prng prng' : Nat → Nat → Block) (sys sys' : Block) (P : Params D) (x : Driver × Driver × Bool)
    (hx : x ∈ pairs) (es er : List (Ev D)) (h1 : run prng sys x.1 P = .ok es) (h2 : run prng' sys' x.2.1 P = .ok er) :
    Session.Completes (es.flatMap (actOf true x.2.2)) (er.flatMap (actOf false x.2.2)) := by
  have hd1 : x.1 ∈ drivers := List.mem_flatMap.2 ⟨x, hx, by simp⟩
  have hd2 : x.2.1 ∈ drivers := List.mem_flatMap.2 ⟨x, hx, by simp⟩
  have hc : cfgs x.1 P = cfgs x.2.1 P := by
    simp only [pairs, List.mem_cons, List.not_mem_nil, or_false] at hx
    rcases hx with rfl | rfl | rfl | rfl | rfl | rfl | rfl | rfl <;> rfl
  rw [run_eq _ _ _ hd1] at h1
  rw [run_eq _ _ _ hd2] at h2
  split at h1
  · cases h1
  · split at h2
    · cases h2
    · cases h1; cases h2
      rw [← hc]
      apply Session.Pre.completes
      apply pre_evsFrom
      intro pA pB c
      simp only [pairs, List.mem_cons, List.not_mem_nil, or_false] at hx
      rcases hx with rfl | rfl | rfl | rfl | rfl | rfl | rfl | rfl
      · exact pre_turns _ _ (.ot _ _ _ (.exchange _ _ (.ot _ _ _ .nil)))
      · exact pre_turns _ _ (.ot _ _ _ (.exchange _ _ (.ot _ _ _ .nil)))
      · exact pre_turns _ _ (.ot _ _ _ (.ot _ _ _ .nil))
      · exact pre_turns _ _ (.ot _ _ _ (.ot _ _ _ .nil))
      · exact .ot _ _ _ (.exchange _ _ (.ot _ _ _ .nil))
      · exact .ot _ _ _ (pre_one _ (.ot _ _ _ .nil))
      · exact pre_one _ (.ot _ _ _ .nil)
      · exact pre_one _ (.ot _ _ _ .nil)

/-- The set of trial `j`: the stream from where the sets of the trials before end, and one block further for each of these
trials if the driver draws the seed of the protocol from the same stream. -/
theorem C178_set (prng : Nat → Nat → Block) (sys : Block) (P : Params D) (d : Driver) (hd : d ∈ drivers) (es : List (Ev D))
    (h : run prng sys d P = .ok es) (j : Nat) (c : Cfg D) (hj : (cfgs d P)[j]? = some c) :
    (es.filterMap inputSet)[j]? = some ((List.range c.n).map fun i =>
      prng d.key (before (cfgs d P) j + (if .init .drawn ∈ d.body then j else 0) + i)) := by
  rw [run_eq _ _ _ hd] at h
  split at h
  · cases h
  · cases h
    rw [filterMap_evsFrom inputSet _ (fun p c => (calls (prng d.key) sys p c d hd).2.2), getElem?_filterMap_range, hj,
      Option.map_some]
    have he : j * extra d = if .init .drawn ∈ d.body then j else 0 := by unfold extra; split <;> simp
    rw [he, Nat.zero_add]
    rfl

/-- The benchmarks in which both sides draw the seed of the protocol from a stream with the same key. -/
def alike : List (Driver × Driver) := [(rr17aSend, rr17aRecv), (rr17bSend, rr17bRecv), (grr18Send, grr18Recv)]

/-- RR17a, RR17b, GRR18: both sides have the same set in every trial, so what is measured is the case that all elements are
common. They also hand the same seed to the protocol. -/
theorem C178_same_sets_partial (prng : Nat → Nat → Block) (sys sys' : Block) (P : Params D) (x : Driver × Driver)
    (hx : x ∈ alike) (es er : List (Ev D)) (h1 : run prng sys x.1 P = .ok es) (h2 : run prng sys' x.2 P = .ok er) :
    es.filterMap inputSet = er.filterMap inputSet ∧ es.filterMap initSeed = er.filterMap initSeed := by
  have hm : x.1 ∈ drivers ∧ x.2 ∈ drivers := by
    simp only [alike, List.mem_cons, List.not_mem_nil, or_false] at hx
    rcases hx with rfl | rfl | rfl <;> exact ⟨by simp [drivers, pairs], by simp [drivers, pairs]⟩
  have hsame : cfgs x.1 P = cfgs x.2 P ∧ extra x.1 = extra x.2 ∧ x.1.key = x.2.key := by
    simp only [alike, List.mem_cons, List.not_mem_nil, or_false] at hx
    rcases hx with rfl | rfl | rfl <;> exact ⟨rfl, rfl, rfl⟩
  have hs : ∀ (d : Driver) (sys : Block), (d = x.1 ∨ d = x.2) → ∀ p (c : Cfg D),
      (trial (prng d.key) sys c d.body ⟨p, []⟩).2.filterMap initSeed = [prng x.1.key (p + c.n)] := by
    simp only [alike, List.mem_cons, List.not_mem_nil, or_false] at hx
    intro d sys hd p c
    rcases hx with rfl | rfl | rfl <;> rcases hd with rfl | rfl <;> rfl
  rw [run_eq _ _ _ hm.1] at h1
  rw [run_eq _ _ _ hm.2] at h2
  split at h1
  · cases h1
  · split at h2
    · cases h2
    · cases h1; cases h2
      constructor
      · rw [filterMap_evsFrom inputSet _ (fun p c => (calls (prng x.1.key) sys p c x.1 hm.1).2.2),
          filterMap_evsFrom inputSet _ (fun p c => (calls (prng x.2.key) sys' p c x.2 hm.2).2.2), hsame.1, hsame.2.1, hsame.2.2]
      · rw [filterMap_evsFrom initSeed _ (hs x.1 sys (Or.inl rfl)), filterMap_evsFrom initSeed _ (hs x.2 sys' (Or.inr rfl)),
          hsame.1, hsame.2.1]

/-- With the same seed on both sides the hash function of these protocols is always the one with key zero (`first s` is the
first block of a `PRNG` with seed `s`, the `myHashSeed` of the parties). -/
theorem C178_hash_seed {K : Type} (commit : Block → K) (first : Block → Block) (prng : Nat → Nat → Block) (sys sys' : Block)
    (P : Params D) (x : Driver × Driver) (hx : x ∈ alike) (es er : List (Ev D)) (h1 : run prng sys x.1 P = .ok es)
    (h2 : run prng sys' x.2 P = .ok er) (j : Nat) (s r : Block) (hs : (es.filterMap initSeed)[j]? = some s)
    (hr : (er.filterMap initSeed)[j]? = some r) :
    Seed.hashingSeed commit (first s) (Seed.honest commit (first r)) = some 0 := by
  have := (C178_same_sets_partial prng sys sys' P x hx es er h1 h2).2
  rw [this, hr] at hs
  cases hs
  show some (first s ^^^ first s) = some 0
  rw [BitVec.xor_self]
  rfl

/-- The benchmarks in which only the sender draws the seed of the protocol from the stream of the sets. -/
def drifting : List (Driver × Driver) :=
  [(rr16Send, rr16Recv), (dcwSend, dcwRecv), (dktSend, dktRecv), (ecdhSend, ecdhRecv)]

/-- RR16, DCW, DKT, ECDH: only in the first trial both sides have the same set. In each further trial the sets are one block
further apart, so trial `j` has `n - j` common elements. -/
theorem C178_drift (prng : Nat → Nat → Block) (hst : ∀ i j, prng keyA i = prng keyA j → i = j) (sys sys' : Block)
    (P : Params D) (x : Driver × Driver) (hx : x ∈ drifting) (es er : List (Ev D)) (h1 : run prng sys x.1 P = .ok es)
    (h2 : run prng sys' x.2 P = .ok er) (j : Nat) (c : Cfg D) (hj : (cfgs x.1 P)[j]? = some c) :
    ∃ s r, (es.filterMap inputSet)[j]? = some s ∧ (er.filterMap inputSet)[j]? = some r ∧ common r s = c.n - j := by
  have hm : x.1 ∈ drivers ∧ x.2 ∈ drivers ∧ cfgs x.1 P = cfgs x.2 P ∧ x.1.key = keyA ∧ x.2.key = keyA ∧
      Op.init .drawn ∈ x.1.body ∧ Op.init .drawn ∉ x.2.body := by
    simp only [drifting, List.mem_cons, List.not_mem_nil, or_false] at hx
    rcases hx with rfl | rfl | rfl | rfl <;>
      exact ⟨by simp [drivers, pairs], by simp [drivers, pairs], rfl, rfl, rfl, by decide, by decide⟩
  obtain ⟨m1, m2, hc, k1, k2, d1, d2⟩ := hm
  refine ⟨_, _, C178_set prng sys P x.1 m1 es h1 j c hj, C178_set prng sys' P x.2 m2 er h2 j c (hc ▸ hj), ?_⟩
  rw [if_pos d1, if_neg d2, ← hc, k1, k2]
  exact common_window (prng keyA) hst (before (cfgs x.1 P) j) c.n j

/-- KKRT: the two sides use different keys; if the two streams have no block in common, neither have the sets. -/
theorem C178_kkrt (prng : Nat → Nat → Block) (hst : ∀ i j, prng keyA i ≠ prng keyB j) (sys sys' : Block) (P : Params D)
    (es er : List (Ev D)) (h1 : run prng sys kkrtSend P = .ok es) (h2 : run prng sys' kkrtRecv P = .ok er) (j : Nat)
    (c : Cfg D) (hj : (cfgs kkrtSend P)[j]? = some c) :
    ∃ s r, (es.filterMap inputSet)[j]? = some s ∧ (er.filterMap inputSet)[j]? = some r ∧ common r s = 0 := by
  refine ⟨_, _, C178_set prng sys P kkrtSend (by simp [drivers, pairs]) es h1 j c hj,
    C178_set prng sys' P kkrtRecv (by simp [drivers, pairs]) er h2 j c hj, ?_⟩
  apply common_eq_zero
  intro x hx hx'
  obtain ⟨i, _, rfl⟩ := List.mem_map.1 hx
  obtain ⟨k, _, hk⟩ := List.mem_map.1 hx'
  exact hst _ _ hk

/-- GRR18 without `-epsBins`: nothing is measured (the default of the front end is set for `-eps`, main.cpp:438). -/
theorem C178_grr18_nothing (prng : Nat → Nat → Block) (sys : Block) (P : Params D) (h : P.eps = []) :
    run prng sys grr18Send P = .ok [] ∧ run prng sys grr18Recv P = .ok [] := by
  simp [run, cfgs, axis, grr18Send, grr18Recv, h, trials]

/-- Two trials of RR16 with three elements: two common elements in the second one. -/
example : ∃ es er : List (Ev Unit),
    run (fun _ i => BitVec.ofNat 128 i) 0 rr16Send ⟨[3], [1], [()], [], 2⟩ = .ok es ∧
    run (fun _ i => BitVec.ofNat 128 i) 0 rr16Recv ⟨[3], [1], [()], [], 2⟩ = .ok er ∧
    es.filterMap inputSet = [[0, 1, 2], [4, 5, 6]] ∧ er.filterMap inputSet = [[0, 1, 2], [3, 4, 5]] ∧
    common [3, 4, 5] [4, 5, 6] = 2 := ⟨_, _, rfl, rfl, by decide, by decide, by decide⟩

/-- Two trials of RR17a: the same sets. -/
example : ∃ es : List (Ev Unit), run (fun _ i => BitVec.ofNat 128 i) 0 rr17aSend ⟨[2], [1, 4], [()], [], 1⟩ = .ok es ∧
    es.filterMap inputSet = [[0, 1], [3, 4]] ∧ es.filterMap initSeed = [2, 5] ∧ es.length = 12 :=
  ⟨_, rfl, by decide, by decide, by decide⟩

/-- With DCW only the single thread is measured. -/
example : cfgs dcwSend (⟨[5], [1, 2, 4], [()], [], 1⟩ : Params Unit) = [⟨none, 5, 1, none⟩] := by decide

end Verif.Bench
