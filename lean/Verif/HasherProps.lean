import Verif.HasherLemmas
import Verif.ListLemmas
/-
Property theorems C15, C16, C53: `CuckooHasher`.

Specification vocabulary:
  * a cell is a 64 bit value; `2^64 - 1` is empty, otherwise the low 56 bits are the item index and
    the bits above the hash function number;
  * `stored cells i`       number of cells that hold item `i`;
  * a history is a list of calls of `insert` and `insertBatch`, in any order;
  * `Good n nh calls`      the items of all calls have distinct indices below `n`, at least `nh` hash
                           values each, and each workspace is large enough.
-/
namespace Verif.Hasher
open Verif Verif.Cuckoo

/-- Number of cells holding item `i`. -/
def stored (cells : List Nat) (i : Nat) : Nat :=
  (cells.filter fun v => decide (v ≠ 2 ^ 64 - 1) && decide (v % 2 ^ 56 = i)).length

/-- Admissible table parameters. -/
structure Params (n nh nb : Nat) : Prop where
  n_lt : n < 2 ^ 56
  nh_pos : 0 < nh
  nh_lt : nh < 255
  bins_pos : 0 < nb

/-- Admissible histories. -/
structure Good (n nh : Nat) (calls : List Call) : Prop where
  lt : ∀ p ∈ calls.flatMap Call.items, p.1 < n
  len : ∀ p ∈ calls.flatMap Call.items, nh ≤ p.2.length
  nodup : ((calls.flatMap Call.items).map (·.1)).Nodup
  ws : ∀ x ∈ calls, x.wsOk = true

theorem stored_eq (c : Hasher) (i : Nat) : stored (c.bins ++ c.stash) i = occ c i := by
  unfold stored occ cnt
  rw [← List.countP_eq_length_filter, List.countP_append]
  have : (fun v => decide (v ≠ 2 ^ 64 - 1) && decide (v % 2 ^ 56 = i)) = holds i := by
    funext v
    unfold holds
    rw [idxOf_eq]
    by_cases h1 : v = emptyVal <;> by_cases h2 : v % 2 ^ 56 = i <;>
      simp [h1, h2, emptyVal] <;> simp_all [emptyVal]
  rw [this]

theorem history {n nh nb ss : Nat} (hp : Params n nh nb) {calls : List Call} (hg : Good n nh calls) :
    (∃ c', runCalls (init n nh nb ss) calls = .ok c' ∧ Inv c' [] (calls.flatMap Call.items) ∧
        SameShape (init n nh nb ss) c') ∨
      ((runCalls (init n nh nb ss) calls = .throw ∨
          (runCalls (init n nh nb ss) calls = .ub ∧ ∃ i hs, Call.single i hs ∈ calls)) ∧
        Overflow (init n nh nb ss) (calls.flatMap Call.items).length) := by
  have hI := init_inv n nh nb ss hp.n_lt hp.nh_pos hp.nh_lt hp.bins_pos
  have := runCalls_spec calls hI
    ⟨by simpa [init] using hg.lt, by simpa [init] using hg.len, hg.nodup, by simp⟩ hg.ws
  simpa using this

theorem history_ok {n nh nb ss : Nat} (hp : Params n nh nb) {calls : List Call}
    (hg : Good n nh calls) {c' : Hasher} (hok : runCalls (init n nh nb ss) calls = .ok c') :
    Inv c' [] (calls.flatMap Call.items) ∧ SameShape (init n nh nb ss) c' := by
  rcases history (ss := ss) hp hg with ⟨d, e, hI, hs⟩ | ⟨e | ⟨e, _⟩, _⟩
  · rw [hok] at e; simp at e; subst e; exact ⟨hI, hs⟩
  · rw [hok] at e; simp at e
  · rw [hok] at e; simp at e

/-! ### C15 -/

/-- C15, placement. After any successful history every inserted item is in exactly one cell, no
other item is stored, and an occupied bin holds an inserted item that one of its own hash values
sends to this bin. -/
theorem C15_placed (n nh nb ss : Nat) (hp : Params n nh nb) (calls : List Call)
    (hg : Good n nh calls) (c' : Hasher) (hok : runCalls (init n nh nb ss) calls = .ok c') :
    (∀ i, stored (c'.bins ++ c'.stash) i =
      if i ∈ (calls.flatMap Call.items).map (·.1) then 1 else 0) ∧
    ∀ b v, c'.bins[b]? = some v → v ≠ 2 ^ 64 - 1 →
      ∃ i hs h, (i, hs) ∈ calls.flatMap Call.items ∧ h < nh ∧ v = h * 2 ^ 56 + i ∧
        hs.getD h 0 % nb = b := by
  obtain ⟨hI, hs⟩ := history_ok hp hg hok
  refine ⟨fun i => ?_, fun b v hv hne => ?_⟩
  · have := hI.count i
    rw [stored_eq]
    simpa [heldCount] using this
  · obtain ⟨hb, rfl⟩ := List.getElem?_eq_some_iff.mp hv
    have hg' : c'.bins.getD b emptyVal = c'.bins[b] := by simp [List.getD, hb]
    have h1 := hI.bins b hb
    rw [hg'] at h1
    rcases h1 with he | ⟨i, h, e1, e2, e3, e4⟩
    · exact absurd he hne
    · obtain ⟨p, hp', rfl⟩ := List.mem_map.mp e2
      obtain ⟨r1, r2, r3⟩ := hI.row p hp'
      have hnh : c'.numHashes = nh := hs.1
      have hnb : c'.bins.length = nb := by rw [hs.2.2.1]; simp [init]
      refine ⟨p.1, p.2, h, hp', by rw [← hnh]; exact e3, ?_, ?_⟩
      · have := hI.small; have := hI.nh_le
        rw [e1, pack_eq _ _ (by omega) (by omega)]
      · rw [← e4]
        unfold addrOf
        rw [r3, hnb]
        simp [List.getD, e3]

/-- C15, lookup. After any successful history `find` terminates normally, reports only inserted
items with the queried hash values, and misses none. -/
theorem C15_find (n nh nb ss : Nat) (hp : Params n nh nb) (calls : List Call)
    (hg : Good n nh calls) (c' : Hasher) (hok : runCalls (init n nh nb ss) calls = .ok c')
    (hs : List Nat) (hl : hs.length = nh) :
    ∃ r, find c' hs = .ok r ∧
      (r = none ↔ ∀ p ∈ calls.flatMap Call.items, p.2.take nh ≠ hs) ∧
      (∀ i, r = some i → ∃ hs', (i, hs') ∈ calls.flatMap Call.items ∧ hs'.take nh = hs) := by
  obtain ⟨hI, hsh⟩ := history_ok hp hg hok
  have hnh : c'.numHashes = nh := hsh.1
  have ht : hs.take nh = hs := List.take_of_length_le (by omega)
  obtain ⟨r, e, h1, h2⟩ := find_spec hI (hs := hs) (by omega)
  rw [hnh, ht] at h1 h2
  refine ⟨r, e, ⟨h1, fun hall => ?_⟩, fun i hi => ?_⟩
  · cases r with
    | none => rfl
    | some i =>
      obtain ⟨p, hp', _, he⟩ := h2 i rfl
      exact absurd he (hall p hp')
  · obtain ⟨p, hp', rfl, he⟩ := h2 i hi
    exact ⟨p.2, hp', he⟩

/-- C15, batched lookup: for two hash functions each entry of the result of `findBatch` has the same
property. -/
theorem C15_findBatch (n nb ss : Nat) (hp : Params n 2 nb) (calls : List Call)
    (hg : Good n 2 calls) (c' : Hasher) (hok : runCalls (init n 2 nb ss) calls = .ok c')
    (qs : List (List Nat)) (hl : ∀ q ∈ qs, q.length = 2) :
    ∃ rs, findBatch c' qs = .ok rs ∧ rs.length = qs.length ∧
      ∀ (k : Nat) (hs : List Nat) (r : Option Nat), qs[k]? = some hs → rs[k]? = some r →
        (r = none ↔ ∀ p ∈ calls.flatMap Call.items, p.2.take 2 ≠ hs) ∧
        (∀ i, r = some i → ∃ hs', (i, hs') ∈ calls.flatMap Call.items ∧ hs'.take 2 = hs) := by
  obtain ⟨hI, hsh⟩ := history_ok hp hg hok
  have hnh : c'.numHashes = 2 := hsh.1
  have hb := hI.bins_pos
  refine ⟨qs.map (findLast c'), ?_, by simp, ?_⟩
  · unfold findBatch
    rw [if_pos hnh, if_neg (by omega), if_neg]
    intro hany
    rw [List.any_eq_true] at hany
    obtain ⟨q, hq, hlt⟩ := hany
    have := hl q hq
    simp at hlt
    omega
  · intro k hs r hk hr
    rw [List.getElem?_map, hk] at hr
    simp at hr
    have hlen := hl hs (List.mem_of_getElem? hk)
    have ht : hs.take 2 = hs := List.take_of_length_le (by omega)
    obtain ⟨h1, h2⟩ := findLast_spec hI (hs := hs) hnh (by omega)
    rw [ht] at h1 h2
    subst hr
    refine ⟨⟨h1, fun hall => ?_⟩, fun i hi => ?_⟩
    · cases hf : findLast c' hs with
      | none => rfl
      | some i =>
        obtain ⟨p, hp', _, he⟩ := h2 i hf
        exact absurd he (hall p hp')
    · obtain ⟨p, hp', rfl, he⟩ := h2 i hi
      exact ⟨p.2, hp', he⟩

/-- A mixed history that uses evictions and the stash succeeds, and both answers of the lookups
occur. -/
example :
    let calls := [Call.single 0 [0, 1], Call.batch [(2, [0, 1]), (1, [1, 0])] 4]
    Params 3 2 2 ∧ Good 3 2 calls ∧
    (∃ c, runCalls (init 3 2 2 1) calls = .ok c ∧ c.stash = [0 * 2 ^ 56 + 0] ∧
      find c [1, 0] = .ok (some 1) ∧ find c [1, 1] = .ok none ∧
      findBatch c [[1, 0], [1, 1]] = .ok [some 1, none]) := by
  refine ⟨⟨by decide, by decide, by decide, by decide⟩,
    ⟨by decide, by decide, by decide, by simp [Call.wsOk]⟩,
    ⟨Hasher.mk 2 [[0, 1], [1, 0], [0, 1]] [pack 1 1, pack 2 1] [pack 0 0], by decide +kernel,
      by decide +kernel, by decide +kernel, by decide +kernel, by decide +kernel⟩⟩

/-! ### C16

Full property: no history writes outside the stash, overflow is reported by an exception. It is
false of the code: `insertHelper` does not test the stash index (`C16_single_out_of_range`). -/

theorem overflow_items {c : Hasher} {m : Nat} (h : Overflow c m) : c.stash.length < m := by
  obtain ⟨d, i, hx, held, H, hs, hI, hfull, hle⟩ := h
  have hfull' : ∀ v ∈ d.stash, v ≠ emptyVal := by
    intro v hv
    obtain ⟨j, hj, rfl⟩ := List.mem_iff_getElem.mp hv
    have := hfull j hj
    simpa [List.getD, hj] using this
  have hnot : ∀ v ∈ d.stash, idxOf v ≠ i := by
    intro v hv he
    have hc := hI.count i
    have : 0 < cnt i d.stash := by
      unfold cnt
      exact List.countP_pos_iff.mpr ⟨v, hv, by unfold holds; simp [hfull' v hv, he]⟩
    rw [heldCount_cons] at hc
    unfold occ at hc
    simp at hc
    split at hc <;> omega
  have hnd : (d.stash.map idxOf).Nodup := by
    rw [List.nodup_iff_count]
    intro j
    have hc := hI.count j
    have : (d.stash.map idxOf).count j = cnt j d.stash := by
      unfold cnt
      rw [List.count_eq_countP, List.countP_map]
      apply List.countP_congr
      intro v hv
      simp [holds, hfull' v hv]
    rw [this]
    unfold occ at hc
    split at hc <;> omega
  have hmem : ∀ v ∈ d.stash, idxOf v ∈ H.map (·.1) := by
    intro v hv
    have hc := hI.count (idxOf v)
    have : 0 < cnt (idxOf v) d.stash := by
      unfold cnt
      exact List.countP_pos_iff.mpr ⟨v, hv, by unfold holds; simp [hfull' v hv]⟩
    unfold occ at hc
    split at hc
    · assumption
    · omega
  have hlen := length_le_of_nodup_subset (l₁ := i :: d.stash.map idxOf) (l₂ := H.map (·.1))
    (List.nodup_cons.mpr ⟨by
      intro hm
      obtain ⟨v, hv, he⟩ := List.mem_map.mp hm
      exact hnot v hv he, hnd⟩) (by
      intro x hx'
      rcases List.mem_cons.mp hx' with rfl | hx'
      · exact (hI.held_ok _ (List.mem_cons_self ..)).1
      · obtain ⟨v, hv, rfl⟩ := List.mem_map.mp hx'
        exact hmem v hv)
  simp only [List.length_cons, List.length_map] at hlen
  have : d.stash.length = c.stash.length := hs.2.2.2
  omega

/-- C16, partial: histories of batch insertions never leave the arrays; they succeed or throw, and
throw only if there are more items than stash entries. Histories with single insertions are inside
the arrays whenever the number of items is at most the stash size. -/
theorem C16_overflow_partial (n nh nb ss : Nat) (hp : Params n nh nb) (calls : List Call)
    (hg : Good n nh calls) :
    ((∀ i hs, Call.single i hs ∉ calls) → runCalls (init n nh nb ss) calls ≠ .ub) ∧
    ((∃ c', runCalls (init n nh nb ss) calls = .ok c') ∨
      ss < (calls.flatMap Call.items).length) := by
  rcases history (ss := ss) hp hg with ⟨d, e, _⟩ | ⟨e, ho⟩
  · rw [e]
    exact ⟨fun _ h => (by simp at h), Or.inl ⟨d, rfl⟩⟩
  · have hss := overflow_items ho
    simp only [init, List.length_replicate] at hss
    refine ⟨fun hno => ?_, Or.inr hss⟩
    rcases e with e | ⟨_, i, hs, hc⟩
    · rw [e]; simp
    · exact absurd hc (hno i hs)

/-- C16 is false: with one bin and no stash the second `insert` writes outside the stash, while the
same insertion in a batch throws. -/
theorem C16_single_out_of_range :
    Params 2 2 1 ∧ Good 2 2 [Call.single 0 [0, 0], Call.single 1 [0, 0]] ∧
    runCalls (init 2 2 1 0) [Call.single 0 [0, 0], Call.single 1 [0, 0]] = .ub ∧
    runCalls (init 2 2 1 0) [Call.single 0 [0, 0], Call.batch [(1, [0, 0])] 1] = .throw := by
  refine ⟨⟨by decide, by decide, by decide, by decide⟩,
    ⟨by decide, by decide, by decide, by simp [Call.wsOk]⟩, by decide +kernel, by decide +kernel⟩

/-- Both outcomes of batch histories occur. -/
example : (∃ c, runCalls (init 2 2 1 1) [Call.batch [(0, [0, 0]), (1, [0, 0])] 2] = .ok c) ∧
    runCalls (init 2 2 1 0) [Call.batch [(0, [0, 0]), (1, [0, 0])] 2] = .throw := by
  refine ⟨⟨Hasher.mk 2 [[0, 0], [0, 0]] [pack 0 0] [pack 1 0], by decide +kernel⟩, by decide +kernel⟩

/-! ### C53

Full property: inserting one item with `insertBatch` leaves the same table as inserting it with
`insert`. It is false of the code (`C53_single_batch_differ`): the two functions make a different
number of exchanges (101 and 100) before they use the stash. -/

theorem rounds_single (m : Nat) {c c' : Hasher} {i h : Nat}
    (hr : rounds (m + 1) c [(i, h)] = .ok (c', [])) : insertHelper c i h (m + 1) = .ok c' := by
  induction m generalizing c i h with
  | zero =>
    unfold rounds at hr
    unfold insertHelper
    rw [if_neg (by simp)] at hr
    split at hr
    · rename_i hc
      have ha : addrOk c i h = true := by simpa using hc.1
      rw [if_pos ha]
      simp only [List.map_cons, List.map_nil, swapAll, rounds] at hr
      simp only []
      by_cases he : c.bins.getD (addrOf c i h) emptyVal = emptyVal
      · rw [if_pos he]
        simp at hr
        rw [hr.1]
      · simp only [compact1, he, if_false] at hr
        simp at hr
    · simp at hr
  | succ m ih =>
    unfold rounds at hr
    unfold insertHelper
    rw [if_neg (by simp)] at hr
    split at hr
    · rename_i hc
      have ha : addrOk c i h = true := by simpa using hc.1
      rw [if_pos ha]
      simp only [List.map_cons, List.map_nil, swapAll] at hr
      simp only []
      by_cases he : c.bins.getD (addrOf c i h) emptyVal = emptyVal
      · rw [if_pos he]
        simp only [compact1, he, if_true, compact2] at hr
        unfold rounds at hr
        simp at hr
        rw [hr]
      · rw [if_neg he, if_neg hc.2]
        simp only [compact1, he, if_false] at hr
        rw [Nat.add_comm (hashOf _) 1]
        exact ih hr
    · simp at hr

theorem stashAll_keeps {c c' : Hasher} {slots : List (Nat × Nat)} {k : Nat}
    (h : stashAll c slots k = .ok c') : ∀ j, j < k →
      c'.stash.getD j emptyVal = c.stash.getD j emptyVal := by
  generalize hm : c.stash.length - k = m
  induction m generalizing c slots k with
  | zero =>
    unfold stashAll at h
    split at h
    · simp at h; subst h; intros; rfl
    · rw [dif_neg (by omega)] at h; simp at h
  | succ m ih =>
    unfold stashAll at h
    split at h
    · simp at h; subst h; intros; rfl
    · rename_i s rest
      rw [dif_pos (by omega)] at h
      simp only [] at h
      have hset : ∀ j, j < k → (c.stash.set k (pack s.1 s.2)).getD j emptyVal =
          c.stash.getD j emptyVal := by
        intro j hj
        rw [getD_set _ _ _ _ (by omega), if_neg (by omega)]
      intro j hj
      split at h
      · rw [ih h (by simp; omega) j (by omega)]; exact hset j hj
      · rw [ih h (by simp; omega) j (by omega)]; exact hset j hj

/-- C53, partial: after any successful history, if a one-item batch leaves the stash empty then
`insert` of the same item leaves the same table. (Missing: chains that end in the stash.) -/
theorem C53_same_table_partial (n nh nb ss : Nat) (hp : Params n nh nb) (calls : List Call)
    (i ws : Nat) (hs : List Nat) (hg : Good n nh (calls ++ [Call.batch [(i, hs)] ws]))
    (c c' : Hasher) (hok : runCalls (init n nh nb ss) calls = .ok c)
    (hb : insertBatch c [(i, hs)] ws = .ok c') (he : ∀ v ∈ c'.stash, v = 2 ^ 64 - 1) :
    insert c i hs = .ok c' := by
  have hitems : (calls ++ [Call.batch [(i, hs)] ws]).flatMap Call.items =
      calls.flatMap Call.items ++ [(i, hs)] := by simp [Call.items]
  have hnd := hg.nodup
  rw [hitems, List.map_append, List.nodup_append] at hnd
  have hg' : Good n nh calls := by
    refine ⟨fun p hp => hg.lt p ?_, fun p hp => hg.len p ?_, hnd.1, fun x hx => hg.ws x ?_⟩
    · rw [hitems]; exact List.mem_append_left _ hp
    · rw [hitems]; exact List.mem_append_left _ hp
    · exact List.mem_append_left _ hx
  obtain ⟨hI, hsh⟩ := history_ok hp hg' hok
  have hrows : c.rows.length = n := by rw [hsh.2.1]; simp [init]
  have hnh : c.numHashes = nh := hsh.1
  have hmem : (i, hs) ∈ (calls ++ [Call.batch [(i, hs)] ws]).flatMap Call.items := by
    rw [hitems]; simp
  have h1 : i < c.rows.length := by rw [hrows]; exact hg.lt _ hmem
  have h2 : c.numHashes ≤ hs.length := by rw [hnh]; exact hg.len _ hmem
  have h3 : i ∉ (calls.flatMap Call.items).map (·.1) := fun hm =>
    hnd.2.2 _ hm i (by simp) rfl
  have hws : 1 ≤ ws := by
    have := hg.ws (Call.batch [(i, hs)] ws) (by simp)
    simpa [Call.wsOk] using this
  unfold insert
  rw [if_pos ⟨h1, hI.nh_pos, h2⟩, hI.blank i h1 h3]
  rw [if_neg]
  · unfold insertBatch at hb
    rw [if_pos (by simpa using hws)] at hb
    unfold loadRows at hb
    rw [if_pos ⟨h1, h2⟩] at hb
    unfold loadRows at hb
    rw [bind_ok] at hb
    have hI1 := hI.setRow h1 h3 h2
    obtain ⟨c2, slots, e2, k1, k2⟩ := rounds_spec 100 hI1
    rw [show ([(i, hs)].map fun p => (p.1, 0)) = [(i, 0)] from rfl, e2, bind_ok] at hb
    simp only [] at hb
    cases slots with
    | nil =>
      unfold stashAll at hb
      simp at hb
      subst hb
      -- 100 rounds leave room for one more exchange
      exact rounds_single 99 e2
    | cons s rest =>
      -- the first stash entry would be occupied
      exfalso
      unfold stashAll at hb
      simp only [] at hb
      by_cases hj : 0 < c2.stash.length
      · rw [dif_pos hj] at hb
        obtain ⟨hm, hh⟩ := k1.held_ok s (List.mem_cons_self ..)
        have hlt := k1.lt hm
        have hsm := k1.small
        have hne : pack s.1 s.2 ≠ emptyVal :=
          pack_ne_empty _ _ (by omega) (by have := k1.nh_le; omega)
        have hkeep : c'.stash.getD 0 emptyVal = pack s.1 s.2 := by
          split at hb
          · rw [stashAll_keeps hb 0 (by omega)]
            show (c2.stash.set 0 _).getD 0 emptyVal = _
            rw [getD_set _ _ _ _ hj]; simp
          · rw [stashAll_keeps hb 0 (by omega)]
            show (c2.stash.set 0 _).getD 0 emptyVal = _
            rw [getD_set _ _ _ _ hj]; simp
        cases hst : c'.stash with
        | nil => rw [hst] at hkeep; simp at hkeep; exact hne hkeep.symm
        | cons v l =>
          rw [hst] at hkeep
          simp at hkeep
          exact hne (hkeep ▸ he v (by rw [hst]; exact List.mem_cons_self ..))
      · rw [dif_neg hj] at hb; simp at hb
  · intro hc
    apply hc
    have hpos := hI.nh_pos
    simp [List.getD, hpos]

/-- The hypotheses of the partial theorem can be met, with an eviction. -/
example : Params 2 2 2 ∧ Good 2 2 ([Call.single 0 [0, 1]] ++ [Call.batch [(1, [0, 0])] 1]) ∧
    ∃ c c', runCalls (init 2 2 2 1) [Call.single 0 [0, 1]] = .ok c ∧
      insertBatch c [(1, [0, 0])] 1 = .ok c' ∧ c'.bins = [pack 1 0, pack 0 1] ∧
      ∀ v ∈ c'.stash, v = 2 ^ 64 - 1 :=
  ⟨⟨by decide, by decide, by decide, by decide⟩,
    ⟨by decide, by decide, by decide, by simp [Call.wsOk]⟩,
    Hasher.mk 2 [[0, 1], [emptyVal, emptyVal]] [pack 0 0, emptyVal] [emptyVal],
    Hasher.mk 2 [[0, 1], [0, 0]] [pack 1 0, pack 0 1] [emptyVal],
    by decide +kernel, by decide +kernel, rfl, by decide⟩

/-- C53 is false: one bin, a stash of one entry, two items. -/
theorem C53_single_batch_differ :
    ∃ c c1 c2, runCalls (init 2 2 1 1) [Call.single 0 [0, 0]] = .ok c ∧
      insert c 1 [0, 0] = .ok c1 ∧ insertBatch c [(1, [0, 0])] 1 = .ok c2 ∧ c1.bins ≠ c2.bins :=
  ⟨Hasher.mk 2 [[0, 0], [emptyVal, emptyVal]] [pack 0 0] [emptyVal],
    Hasher.mk 2 [[0, 0], [0, 0]] [pack 1 0] [pack 0 0],
    Hasher.mk 2 [[0, 0], [0, 0]] [pack 0 0] [pack 1 0],
    by decide +kernel, by decide +kernel, by decide +kernel, by decide +kernel⟩

end Verif.Hasher
