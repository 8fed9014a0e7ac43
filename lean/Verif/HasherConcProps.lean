import Verif.HasherConcLemmas
import Verif.HasherProps
/-
Property theorems C111: threads that insert into one `CuckooHasher` at the same time.

Specification vocabulary:
  * `tss`                  for each thread the list of its calls of `insert` and `insertBatch`;
  * a schedule             a list of thread numbers; each entry lets that thread make one access to
                           the shared table;
  * `Good n nh tss.flatten`, `stored`, `Params`  as for C15: the items of all threads together have
                           distinct indices below `n`.
-/
namespace Verif.Hasher
open Verif Verif.Cuckoo

theorem start_inv {n nh nb ss : Nat} (hp : Params n nh nb) {tss : List (List Call)} (hg : Good n nh tss.flatten) :
    CInv (init n nh nb ss) (tss.map Thread.new) (tss.flatten.flatMap Call.items) [] := by
  have e1 : ((tss.map Thread.new).flatMap fun t => t.act.held (init n nh nb ss).numHashes) = [] := by
    simp [List.flatMap_map, Thread.new, Act.held]
  have e2 : (tss.map Thread.new).flatMap Thread.pend = tss.flatten.flatMap Call.items := by
    rw [List.flatMap_map]
    have : (fun a => (Thread.new a).pend) = fun a : List Call => a.flatMap Call.items := by
      funext a; simp [Thread.new, Thread.pend, Act.pend]
    rw [this]
    clear hg e1
    induction tss with
    | nil => rfl
    | cons a l ih => simp [ih]
  refine ⟨?_, ?_, ?_, ?_, ?_⟩
  · rw [e1]; exact init_inv n nh nb ss hp.n_lt hp.nh_pos hp.nh_lt hp.bins_pos
  · rw [e2]; exact ⟨by simpa [init] using hg.lt, by simpa [init] using hg.len, hg.nodup, by simp⟩
  · rw [e2]; simp
  · intro t ht
    obtain ⟨a, _, rfl⟩ := List.mem_map.mp ht
    trivial
  · intro t ht x hx
    obtain ⟨a, ha, rfl⟩ := List.mem_map.mp ht
    exact hg.ws x (List.mem_flatten.mpr ⟨a, ha, hx⟩)

theorem run_inv {n nh nb ss : Nat} (hp : Params n nh nb) {tss : List (List Call)} (hg : Good n nh tss.flatten)
    {sched : List Nat} {c' : Hasher} {ts' : List Thread}
    (hr : runSched (init n nh nb ss) (tss.map Thread.new) sched = .ok (c', ts')) :
    ∃ H, CInv c' ts' (tss.flatten.flatMap Call.items) H ∧ SameShape (init n nh nb ss) c' := by
  rcases runSched_spec sched (start_inv (ss := ss) hp hg) with ⟨d, ts2, H, e, h1, h2⟩ | ⟨e, _⟩
  · rw [hr] at e
    simp only [Out.ok.injEq, Prod.mk.injEq] at e
    obtain ⟨rfl, rfl⟩ := e
    exact ⟨H, h1, h2⟩
  · rw [hr] at e; cases e

theorem run_done {n nh nb ss : Nat} (hp : Params n nh nb) {tss : List (List Call)} (hg : Good n nh tss.flatten)
    {sched : List Nat} {c' : Hasher} {ts' : List Thread}
    (hr : runSched (init n nh nb ss) (tss.map Thread.new) sched = .ok (c', ts'))
    (hd : ∀ t ∈ ts', t.done = true) :
    ∃ H, Inv c' [] H ∧ (tss.flatten.flatMap Call.items).Perm H ∧ SameShape (init n nh nb ss) c' := by
  obtain ⟨H, h1, h2⟩ := run_inv hp hg hr
  have hd' : ∀ t ∈ ts', t.act = .idle ∧ t.calls = [] := fun t ht => by
    have := hd t ht
    simpa [Thread.done] using this
  have e1 : (ts'.flatMap fun t => t.act.held c'.numHashes) = [] := by
    rw [List.flatMap_eq_nil_iff]
    intro t ht
    rw [(hd' t ht).1]
    rfl
  have e2 : ts'.flatMap Thread.pend = [] := by
    rw [List.flatMap_eq_nil_iff]
    intro t ht
    unfold Thread.pend
    rw [(hd' t ht).1, (hd' t ht).2]
    rfl
  refine ⟨H, ?_, ?_, h2⟩
  · have := h1.inv
    rwa [e1] at this
  · have := h1.all
    rwa [e2, List.append_nil] at this

/-- C111, placement. Any number of threads, any calls of `insert` and `insertBatch`, any schedule: if
all threads come back, every item of every thread is in exactly one cell, no other item is stored,
and an occupied bin holds an item that one of its own hash values sends to this bin. -/
theorem C111_placed (n nh nb ss : Nat) (hp : Params n nh nb) (tss : List (List Call)) (hg : Good n nh tss.flatten)
    (sched : List Nat) (c' : Hasher) (ts' : List Thread)
    (hr : runSched (init n nh nb ss) (tss.map Thread.new) sched = .ok (c', ts'))
    (hd : ∀ t ∈ ts', t.done = true) :
    (∀ i, stored (c'.bins ++ c'.stash) i =
      if i ∈ (tss.flatten.flatMap Call.items).map (·.1) then 1 else 0) ∧
    ∀ b v, c'.bins[b]? = some v → v ≠ 2 ^ 64 - 1 →
      ∃ i hs h, (i, hs) ∈ tss.flatten.flatMap Call.items ∧ h < nh ∧ v = h * 2 ^ 56 + i ∧
        hs.getD h 0 % nb = b := by
  obtain ⟨H, hI, hperm, hs⟩ := run_done hp hg hr hd
  refine ⟨fun i => ?_, fun b v hv hne => ?_⟩
  · have := hI.count i
    rw [stored_eq]
    simp only [(hperm.map (·.1)).mem_iff]
    simpa [heldCount] using this
  · obtain ⟨hb, rfl⟩ := List.getElem?_eq_some_iff.mp hv
    have hg' : c'.bins.getD b emptyVal = c'.bins[b] := by simp [List.getD, hb]
    have h1 := hI.bins b hb
    rw [hg'] at h1
    rcases h1 with he | ⟨i, h, e1, e2, e3, e4⟩
    · exact absurd he hne
    · obtain ⟨p, hp', rfl⟩ := List.mem_map.mp e2
      obtain ⟨r1, r2, r3⟩ := hI.row p hp'
      have hnh : c'.numHashes = nh := hs.1
      have hnb : c'.bins.length = nb := by rw [hs.2.2.1]; simp [init]
      refine ⟨p.1, p.2, h, hperm.mem_iff.mpr hp', by rw [← hnh]; exact e3, ?_, ?_⟩
      · have := hI.small; have := hI.nh_le
        rw [e1, pack_eq _ _ (by omega) (by omega)]
      · rw [← e4]
        unfold addrOf
        rw [r3, hnb]
        simp [List.getD, e3]

/-- C111, lookup. After any such run `find` reports only inserted items with the queried hash values,
and misses none. -/
theorem C111_find (n nh nb ss : Nat) (hp : Params n nh nb) (tss : List (List Call)) (hg : Good n nh tss.flatten)
    (sched : List Nat) (c' : Hasher) (ts' : List Thread)
    (hr : runSched (init n nh nb ss) (tss.map Thread.new) sched = .ok (c', ts'))
    (hd : ∀ t ∈ ts', t.done = true) (hs : List Nat) (hl : hs.length = nh) :
    ∃ r, find c' hs = .ok r ∧
      (r = none ↔ ∀ p ∈ tss.flatten.flatMap Call.items, p.2.take nh ≠ hs) ∧
      (∀ i, r = some i → ∃ hs', (i, hs') ∈ tss.flatten.flatMap Call.items ∧ hs'.take nh = hs) := by
  obtain ⟨H, hI, hperm, hsh⟩ := run_done hp hg hr hd
  have hnh : c'.numHashes = nh := hsh.1
  have ht : hs.take nh = hs := List.take_of_length_le (by omega)
  obtain ⟨r, e, h1, h2⟩ := find_spec hI (hs := hs) (by omega)
  rw [hnh, ht] at h1 h2
  refine ⟨r, e, ⟨fun hn p hp' => h1 hn p (hperm.mem_iff.mp hp'), fun hall => ?_⟩, fun i hi => ?_⟩
  · cases r with
    | none => rfl
    | some i =>
      obtain ⟨p, hp', _, he⟩ := h2 i rfl
      exact absurd he (hall p (hperm.mem_iff.mpr hp'))
  · obtain ⟨p, hp', rfl, he⟩ := h2 i hi
    exact ⟨p.2, hperm.mem_iff.mpr hp', he⟩

/-- C111, at every moment. Also while the threads run no cell holds an item that was not inserted and
no item is in two cells: the other threads hold what is missing. -/
theorem C111_running (n nh nb ss : Nat) (hp : Params n nh nb) (tss : List (List Call)) (hg : Good n nh tss.flatten)
    (sched : List Nat) (c' : Hasher) (ts' : List Thread)
    (hr : runSched (init n nh nb ss) (tss.map Thread.new) sched = .ok (c', ts')) (i : Nat) :
    stored (c'.bins ++ c'.stash) i ≤ if i ∈ (tss.flatten.flatMap Call.items).map (·.1) then 1 else 0 := by
  obtain ⟨H, h1, _⟩ := run_inv hp hg hr
  have := h1.inv.count i
  rw [stored_eq]
  by_cases hi : i ∈ H.map (·.1)
  · have hi' : i ∈ (tss.flatten.flatMap Call.items).map (·.1) := by
      rw [(h1.all.map (·.1)).mem_iff, List.map_append]
      exact List.mem_append_left _ hi
    rw [if_pos hi] at this
    rw [if_pos hi']
    omega
  · rw [if_neg hi] at this
    omega

/-- C111, no undefined behaviour when only batches are inserted: no schedule makes a thread leave
the table. -/
theorem C111_batches (n nh nb ss : Nat) (hp : Params n nh nb) (tss : List (List Call)) (hg : Good n nh tss.flatten)
    (hb : ∀ i hs, Call.single i hs ∉ tss.flatten) (sched : List Nat) :
    ∃ c' ts', runSched (init n nh nb ss) (tss.map Thread.new) sched = .ok (c', ts') := by
  have hI := start_inv (ss := ss) hp hg
  rcases runSched_spec sched hI with ⟨d, ts2, H, e, _, _⟩ | ⟨e, _⟩
  · exact ⟨d, ts2, e⟩
  · refine absurd e (runSched_batches sched hI fun t ht => ?_)
    obtain ⟨a, ha, rfl⟩ := List.mem_map.mp ht
    exact ⟨fun _ _ _ => by simp [Thread.new], fun _ _ _ => by simp [Thread.new],
      fun i hs hm => hb i hs (List.mem_flatten.mpr ⟨a, ha, hm⟩)⟩

/-- C111, no undefined behaviour and no exception when the stash has an entry per item. -/
theorem C111_enough (n nh nb ss : Nat) (hp : Params n nh nb) (tss : List (List Call)) (hg : Good n nh tss.flatten)
    (hs : (tss.flatten.flatMap Call.items).length ≤ ss) (sched : List Nat) :
    ∃ c' ts', runSched (init n nh nb ss) (tss.map Thread.new) sched = .ok (c', ts') ∧ ∀ t ∈ ts', t.threw = false := by
  rcases runSched_spec sched (start_inv (ss := ss) hp hg) with ⟨d, ts2, H, e, h1, h2⟩ | ⟨e, ho⟩
  · refine ⟨d, ts2, e, fun t ht => ?_⟩
    cases hact : t.act with
    | failed slots =>
      exfalso
      have hok := h1.acts t ht
      rw [hact] at hok
      obtain ⟨hne, hf⟩ := hok
      obtain ⟨s, rest, rfl⟩ := List.exists_cons_of_ne_nil hne
      obtain ⟨a, b, rfl⟩ := List.append_of_mem ht
      have hI : Inv d (s :: (rest ++ (a ++ b).flatMap fun t => t.act.held d.numHashes)) H := by
        refine h1.inv.perm ((flatMap_mid (fun t : Thread => t.act.held d.numHashes) a b t).trans ?_)
        simp only [hact, Act.held, List.cons_append]
        exact List.Perm.refl _
      have ho : Overflow d H.length := ⟨d, s.1, s.2, _, H, SameShape.refl d, hI, hf.2, Nat.le_refl _⟩
      have h3 := overflow_items ho
      have h4 : d.stash.length = ss := by rw [h2.2.2.2]; simp [init]
      have h5 := h1.all.length_eq
      rw [List.length_append] at h5
      omega
    | _ => simp [Thread.threw, hact]
  · have h3 := overflow_items ho
    have h4 : (init n nh nb ss).stash.length = ss := by simp [init]
    omega

/-- C111, exceptions. A thread throws only when there are more items than stash entries. -/
theorem C111_throw (n nh nb ss : Nat) (hp : Params n nh nb) (tss : List (List Call)) (hg : Good n nh tss.flatten)
    (sched : List Nat) (c' : Hasher) (ts' : List Thread)
    (hr : runSched (init n nh nb ss) (tss.map Thread.new) sched = .ok (c', ts')) (t : Thread) (ht : t ∈ ts')
    (hf : t.threw = true) : ss < (tss.flatten.flatMap Call.items).length := by
  by_cases h : ss < (tss.flatten.flatMap Call.items).length
  · exact h
  · exfalso
    obtain ⟨d, ts2, e, h1⟩ := C111_enough n nh nb ss hp tss hg (by omega) sched
    rw [hr] at e
    simp only [Out.ok.injEq, Prod.mk.injEq] at e
    obtain ⟨rfl, rfl⟩ := e
    have := h1 t ht
    rw [hf] at this
    cases this

theorem le_sum (l : List Nat) (x : Nat) (h : x ∈ l) : x ≤ l.sum := by
  induction l with
  | nil => simp at h
  | cons a l ih =>
    rw [List.sum_cons]
    rcases List.mem_cons.mp h with rfl | h
    · omega
    · have := ih h
      omega

/-- C111, progress. There is a bound such that every thread that has been given that many steps has
come back or has thrown, whatever the others did in between. -/
theorem C111_ends (n nh nb ss : Nat) (hp : Params n nh nb) (tss : List (List Call)) (hg : Good n nh tss.flatten) :
    ∃ N, ∀ (sched : List Nat) (c' : Hasher) (ts' : List Thread),
      runSched (init n nh nb ss) (tss.map Thread.new) sched = .ok (c', ts') →
      ∀ (k : Nat) (t : Thread), ts'[k]? = some t → N ≤ sched.count k → t.done = true ∨ t.threw = true := by
  refine ⟨(tss.map fun calls => cost ss (Thread.new calls)).sum, ?_⟩
  intro sched c' ts' hr k t ht hc
  have hlen := runSched_length sched hr
  have hk : k < tss.length := by
    have := (List.getElem?_eq_some_iff.mp ht).1
    rw [hlen, List.length_map] at this
    exact this
  have hk0 : (tss.map Thread.new)[k]? = some (Thread.new tss[k]) := by simp [hk]
  rcases runSched_cost sched (start_inv (ss := ss) hp hg) hr k _ t hk0 ht with h | h
  · exact h
  · have hss : (init n nh nb ss).stash.length = ss := by simp [init]
    rw [hss] at h
    have hle : cost ss (Thread.new tss[k]) ≤ (tss.map fun calls => cost ss (Thread.new calls)).sum :=
      le_sum _ _ (List.mem_map_of_mem (List.getElem_mem hk))
    cases hd : t.done with
    | true => exact Or.inl rfl
    | false =>
      cases hf : t.threw with
      | true => exact Or.inr rfl
      | false =>
        have := cost_pos (ss := ss) hd hf
        omega

/-! ### non-vacuity -/

/-- Two threads with a batch of three and of two items in a table of five bins; all hash values lead
to few bins, so that they evict each other's items and meet in the stash. -/
def concTss : List (List Call) :=
  [[.batch [(0, [0, 1]), (1, [0, 1]), (2, [1, 2])] 3], [.batch [(3, [0, 1]), (4, [2, 0])] 2, .single 5 [3, 4]]]

example : Params 6 2 5 := ⟨by decide, by decide, by decide, by decide⟩

example : Good 6 2 concTss.flatten :=
  ⟨by decide, by decide, by decide, by decide⟩

/-- Under an alternating schedule all threads come back, with two items in the stash. -/
def concRun (sched : List Nat) : Out (Hasher × List Thread) := runSched (init 6 2 5 6) (concTss.map Thread.new) sched

/-- All threads are through, number of stashed items, how often each item is stored. -/
def concEnd : Out (Hasher × List Thread) → Option (Bool × Nat × List Nat)
  | .ok (c, ts) => some (ts.all Thread.done, (c.stash.filter (· ≠ emptyVal)).length,
      (List.range 6).map fun i => stored (c.bins ++ c.stash) i)
  | _ => none

example : concEnd (concRun ((List.range 1600).map (· % 2))) = some (true, 2, [1, 1, 1, 1, 1, 1]) := by decide +kernel

/-- In the middle items are in the hands of the threads. -/
example : concEnd (concRun ((List.range 900).map (· % 2))) = some (false, 0, [0, 0, 1, 1, 1, 1]) := by decide +kernel

/-- Exceptions occur: three items for one bin and a stash of one entry. -/
def throwTss : List (List Call) := [[.batch [(0, [0]), (1, [0])] 2], [.batch [(2, [0])] 1]]

example : Good 3 1 throwTss.flatten := ⟨by decide, by decide, by decide, by decide⟩

example : (match runSched (init 3 1 1 1) (throwTss.map Thread.new) (List.replicate 800 0 ++ List.replicate 800 1) with
    | .ok (_, ts) => ts.map Thread.threw
    | _ => []) = [false, true] := by decide +kernel

/-- The hypothesis of `C111_batches` is needed: with `insert` the second thread leaves the stash. -/
example : (match runSched (init 3 1 1 1)
      ([[Call.batch [(0, [0]), (1, [0])] 2], [Call.single 2 [0]]].map Thread.new)
      (List.replicate 800 0 ++ List.replicate 800 1) with
    | .ub => true
    | _ => false) = true := by decide +kernel

end Verif.Hasher
