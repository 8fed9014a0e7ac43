import Verif.ReuseRunModel
import Verif.CuckooReuseLemmas
import Verif.KkrtProps
/-!
Lemmas on a second run with the same KKRT receiver.
-/
namespace Verif.Cuckoo
open Verif

/-! ### the stored hashes -/

/-- The stored hashes after the items `l` were loaded. -/
def loaded (h : List Block) (l : List (Nat × Block)) : List Block := l.foldl (fun h p => h.set p.1 p.2) h

theorem loaded_append (h : List Block) (l l' : List (Nat × Block)) :
    loaded h (l ++ l') = loaded (loaded h l) l' := List.foldl_append ..

theorem setHash_hashes {c c' : Cuckoo} {i : Nat} {b : Block} (h : setHash c i b = .ok c') :
    c'.hashes = c.hashes.set i b := by
  unfold setHash at h
  split at h
  · injection h with h; rw [← h]
  · simp at h

theorem stashPut_hashes {c c' : Cuckoo} {i h : Nat} (e : stashPut c i h = .ok c') : c'.hashes = c.hashes := by
  unfold stashPut at e
  split at e
  · simp at e
  · injection e with e; rw [← e]

theorem insertOne_hashes (rem : Nat) : ∀ {c c' : Cuckoo} {i h : Nat}, insertOne c i h rem = .ok c' →
    c'.hashes = c.hashes := by
  induction rem with
  | zero =>
    intro c c' i h e
    unfold insertOne at e
    split at e
    · simp only at e
      split at e
      · injection e with e; rw [← e]
      · have := stashPut_hashes e; exact this
    · simp at e
  | succ rem ih =>
    intro c c' i h e
    unfold insertOne at e
    split at e
    · simp only at e
      split at e
      · injection e with e; rw [← e]
      · split at e
        · simp at e
        · have := ih e; exact this
    · simp at e

theorem loadSlots_hashes : ∀ (l : List (Nat × Block)) {c : Cuckoo} {p : Cuckoo × List Slot},
    loadSlots c l = .ok p → p.1.hashes = loaded c.hashes l := by
  intro l
  induction l with
  | nil => intro c p e; simp only [loadSlots, Out.ok.injEq] at e; rw [← e]; rfl
  | cons q l ih =>
    intro c p e
    obtain ⟨i, b⟩ := q
    simp only [loadSlots] at e
    cases h1 : setHash c i b with
    | ok c1 =>
      rw [h1] at e
      simp only [Out.bind] at e
      cases h2 : loadSlots c1 l with
      | ok p1 =>
        rw [h2] at e
        simp only [Out.ok.injEq] at e
        rw [← e]
        show p1.1.hashes = _
        rw [ih h2, setHash_hashes h1]
        rfl
      | throw => rw [h2] at e; simp at e
      | ub => rw [h2] at e; simp at e
    | throw => rw [h1] at e; simp [Out.bind] at e
    | ub => rw [h1] at e; simp [Out.bind] at e

theorem swapAll_hashes : ∀ (l : List (Slot × Nat)) (c : Cuckoo), (swapAll c l).1.hashes = c.hashes := by
  intro l
  induction l with
  | nil => intro c; rfl
  | cons q l ih =>
    intro c
    obtain ⟨s, a⟩ := q
    simp only [swapAll]
    rw [ih]

theorem refillAll_hashes : ∀ (slots : List Slot) {c : Cuckoo} {todo : List (Nat × Block)}
    {p : Cuckoo × List Slot × List (Nat × Block)}, refillAll c todo slots = .ok p →
    ∃ l, todo = l ++ p.2.2 ∧ p.1.hashes = loaded c.hashes l := by
  intro slots
  induction slots with
  | nil => intro c todo p e; simp only [refillAll, Out.ok.injEq] at e; rw [← e]; exact ⟨[], rfl, rfl⟩
  | cons s slots ih =>
    intro c todo p
    have hre : ∀ (c0 : Cuckoo), c0.hashes = c.hashes → (match todo with
      | [] => .ub
      | (i, hash) :: todo' =>
        (setHash c0 i hash).bind fun c => (refillAll c todo' slots).bind fun p =>
          .ok (p.1, ({ idx := i, h := 0, tries := 0 } : Slot) :: p.2.1, p.2.2)) = Out.ok p →
        ∃ l, todo = l ++ p.2.2 ∧ p.1.hashes = loaded c.hashes l := by
      intro c0 hc0 e
      cases todo with
      | nil => simp at e
      | cons q todo =>
        obtain ⟨i, b⟩ := q
        simp only at e
        cases h1 : setHash c0 i b with
        | ok c1 =>
          rw [h1] at e
          simp only [Out.bind] at e
          cases h2 : refillAll c1 todo slots with
          | ok p1 =>
            rw [h2] at e
            simp only [Out.ok.injEq] at e
            obtain ⟨l, a, b'⟩ := ih h2
            refine ⟨(i, b) :: l, ?_, ?_⟩
            · rw [← e]; simp only [List.cons_append, ← a]
            · rw [← e]
              show p1.1.hashes = _
              rw [b', setHash_hashes h1, hc0]
              rfl
          | throw => rw [h2] at e; simp at e
          | ub => rw [h2] at e; simp at e
        | throw => rw [h1] at e; simp [Out.bind] at e
        | ub => rw [h1] at e; simp [Out.bind] at e
    intro e
    simp only [refillAll] at e
    split at e
    · exact hre c rfl e
    · split at e
      · cases h2 : refillAll c todo slots with
        | ok p1 =>
          rw [h2] at e
          simp only [Out.bind, Out.ok.injEq] at e
          obtain ⟨l, a, b'⟩ := ih h2
          exact ⟨l, by rw [← e]; exact a, by rw [← e]; exact b'⟩
        | throw => rw [h2] at e; simp [Out.bind] at e
        | ub => rw [h2] at e; simp [Out.bind] at e
      · cases h2 : stashPut c s.idx s.h with
        | ok c1 =>
          rw [h2] at e
          exact hre c1 (stashPut_hashes h2) e
        | throw => rw [h2] at e; simp [Out.bind] at e
        | ub => rw [h2] at e; simp [Out.bind] at e

theorem batchLoop_hashes (fuel : Nat) : ∀ {c : Cuckoo} {slots : List Slot} {todo : List (Nat × Block)}
    {p : Cuckoo × List Slot × List (Nat × Block)}, batchLoop fuel c slots todo = .ok p →
    ∃ l, todo = l ++ p.2.2 ∧ p.1.hashes = loaded c.hashes l := by
  induction fuel with
  | zero =>
    intro c slots todo p e
    unfold batchLoop at e
    split at e
    · simp at e
    · simp only [Out.ok.injEq] at e; rw [← e]; exact ⟨[], rfl, rfl⟩
  | succ fuel ih =>
    intro c slots todo p e
    unfold batchLoop at e
    split at e
    · simp only at e
      split at e
      · cases h2 : refillAll (swapAll c (slots.map fun s => (s, addrOf c s.idx s.h))).1 todo
            (swapAll c (slots.map fun s => (s, addrOf c s.idx s.h))).2 with
        | ok p1 =>
          rw [h2] at e
          obtain ⟨l, a, b⟩ := refillAll_hashes _ h2
          obtain ⟨l', a', b'⟩ := ih e
          refine ⟨l ++ l', by rw [List.append_assoc, ← a', ← a], ?_⟩
          rw [b', b, swapAll_hashes, loaded_append]
        | throw => rw [h2] at e; simp [Out.bind] at e
        | ub => rw [h2] at e; simp [Out.bind] at e
      · simp at e
    · simp only [Out.ok.injEq] at e; rw [← e]; exact ⟨[], rfl, rfl⟩

theorem finishSlots_hashes : ∀ (slots : List Slot) {c c' : Cuckoo}, finishSlots c slots = .ok c' →
    c'.hashes = c.hashes := by
  intro slots
  induction slots with
  | nil => intro c c' e; simp only [finishSlots, Out.ok.injEq] at e; rw [e]
  | cons s slots ih =>
    intro c c' e
    simp only [finishSlots] at e
    split at e
    · cases h1 : insertOne c s.idx s.h (c.limit - s.tries) with
      | ok c1 => rw [h1] at e; rw [ih e, insertOne_hashes _ h1]
      | throw => rw [h1] at e; simp [Out.bind] at e
      | ub => rw [h1] at e; simp [Out.bind] at e
    · exact ih e

theorem insertRest_hashes : ∀ (l : List (Nat × Block)) {c c' : Cuckoo}, insertRest c l = .ok c' →
    c'.hashes = loaded c.hashes l := by
  intro l
  induction l with
  | nil => intro c c' e; simp only [insertRest, Out.ok.injEq] at e; rw [e]; rfl
  | cons q l ih =>
    intro c c' e
    obtain ⟨i, b⟩ := q
    simp only [insertRest] at e
    cases h1 : setHash c i b with
    | ok c1 =>
      rw [h1] at e
      simp only [Out.bind] at e
      cases h2 : insertOne c1 i 0 c1.limit with
      | ok c2 =>
        rw [h2] at e
        rw [ih e, insertOne_hashes _ h2, setHash_hashes h1]
        rfl
      | throw => rw [h2] at e; simp at e
      | ub => rw [h2] at e; simp at e
    | throw => rw [h1] at e; simp [Out.bind] at e
    | ub => rw [h1] at e; simp [Out.bind] at e

theorem bind_eq_ok {α β : Type} {x : Out α} {f : α → Out β} {y : β} (h : x.bind f = .ok y) :
    ∃ a, x = .ok a ∧ f a = .ok y := by
  cases x with
  | ok a => exact ⟨a, rfl, h⟩
  | throw => simp [Out.bind] at h
  | ub => simp [Out.bind] at h

theorem insertBatch_hashes {c c' : Cuckoo} {items : List (Nat × Block)} (e : insertBatch c items = .ok c') :
    c'.hashes = loaded c.hashes items := by
  unfold insertBatch at e
  obtain ⟨p, h1, e⟩ := bind_eq_ok e
  obtain ⟨q, h2, e⟩ := bind_eq_ok e
  obtain ⟨c3, h3, e⟩ := bind_eq_ok e
  have hq : ∃ l, items.drop 8 = l ++ q.2.2 ∧ q.1.hashes = loaded p.1.hashes l := by
    split at h2
    · exact batchLoop_hashes _ h2
    · injection h2 with h2
      rw [← h2]
      exact ⟨[], rfl, rfl⟩
  obtain ⟨l, a, b⟩ := hq
  rw [insertRest_hashes _ e, finishSlots_hashes _ h3, b, loadSlots_hashes _ h1, ← loaded_append,
    ← loaded_append, ← a, List.take_append_drop]

theorem insertBatches_hashes : ∀ (bs : List (List (Nat × Block))) {c c' : Cuckoo}, insertBatches c bs = .ok c' →
    c'.hashes = loaded c.hashes bs.flatten := by
  intro bs
  induction bs with
  | nil => intro c c' e; simp only [insertBatches, Out.ok.injEq] at e; rw [e]; rfl
  | cons b bs ih =>
    intro c c' e
    simp only [insertBatches] at e
    cases h1 : insertBatch c b with
    | ok c1 =>
      rw [h1] at e
      rw [ih e, insertBatch_hashes h1, List.flatten_cons, loaded_append]
    | throw => rw [h1] at e; simp [Out.bind] at e
    | ub => rw [h1] at e; simp [Out.bind] at e

theorem loaded_get (g : Nat → Block) (n : Nat) (h : List Block) (i : Nat) (hi : i < h.length) :
    (loaded h ((List.range n).map fun j => (j + 0, g j))).getD i 0 = if i < n then g i else h.getD i 0 := by
  have hlen : ∀ l, (loaded h l).length = h.length := by
    intro l
    unfold loaded
    induction l generalizing h with
    | nil => rfl
    | cons a l ih => rw [List.foldl_cons, ih (h.set a.1 a.2) (by simpa using hi)]; simp
  induction n with
  | zero => simp [loaded]
  | succ n ih =>
    rw [List.range_succ, List.map_append, loaded_append]
    simp only [List.map_cons, List.map_nil, loaded, List.foldl_cons, List.foldl_nil, Nat.add_zero] at ih ⊢
    rw [List.getD, List.getElem?_set]
    by_cases hin : n = i
    · subst hin
      have := hlen ((List.range n).map fun j => (j, g j))
      unfold loaded at this
      rw [if_pos rfl, this, if_pos hi, if_pos (by omega)]
      rfl
    · rw [if_neg hin]
      rw [List.getD] at ih
      rw [ih]
      have : (i < n + 1) ↔ (i < n) := by omega
      simp only [this]

theorem insertItems_hash {aes : Block → Block} {c c' : Cuckoo} {items : List Block}
    (e : insertItems aes c items 0 = .ok c') (i : Nat) (hi : i < items.length) (hl : i < c.hashes.length) :
    c'.hashes.getD i 0 = aes (items.getD i 0) ^^^ items.getD i 0 := by
  unfold insertItems at e
  rw [insertBatches_hashes _ e, chunks16_flatten,
    loaded_get (fun j => aes (items.getD j 0) ^^^ items.getD j 0) _ _ _ hl, if_pos hi]

/-! ### counting cells -/

theorem addP_items (P : Nat → Bool) (aes : Block → Block) (items : List Block) :
    addP P ((List.range items.length).map fun j => (j + 0, aes (items.getD j 0) ^^^ items.getD j 0)) =
      (List.range items.length).countP P := by
  unfold addP
  rw [List.countP_map]
  rfl

theorem insertItems_w {P : Nat → Bool} {t : Nat} {c : Cuckoo} (aes : Block → Block) (items : List Block)
    (hI : W P t c []) (hn : items.length ≤ c.hashes.length) :
    (∃ c', insertItems aes c items 0 = .ok c' ∧ W P (t + (List.range items.length).countP P) c' [] ∧
      SameShape c c') ∨ insertItems aes c items 0 = .throw := by
  unfold insertItems
  have hfl := chunks16_flatten ((List.range items.length).map fun j =>
      (j + 0, aes (items.getD j 0) ^^^ items.getD j 0))
  have := insertBatches_w (chunks16 ((List.range items.length).map fun j =>
      (j + 0, aes (items.getD j 0) ^^^ items.getD j 0))) hI (by
    rw [hfl]
    intro p hp
    obtain ⟨a, ha, rfl⟩ := List.mem_map.mp hp
    have := List.mem_range.mp ha
    simp only; omega)
  rw [hfl, addP_items] at this
  exact this

theorem cntP_replicate (P : Nat → Bool) (k : Nat) : cntP P (List.replicate k emptyVal) = 0 := by
  unfold cntP
  rw [List.countP_eq_zero]
  intro v hv
  rw [List.eq_of_mem_replicate hv]
  simp

theorem cntP_append (P : Nat → Bool) (l l' : List Nat) : cntP P (l ++ l') = cntP P l + cntP P l' :=
  List.countP_append

/-- A new table is empty. -/
theorem init_w (P : Nat → Bool) (n nb : Nat) (hn : n ≤ nullIdx) (hb : 0 < nb) :
    ∃ c, Cuckoo.init fresh n nb 0 3 = .ok c ∧ W P 0 c [] ∧ c.numHashes = 3 ∧ c.hashes.length = n ∧
      c.bins.length = nb ∧ c.stash.length = 0 := by
  refine ⟨_, rfl, ⟨by simp, by simp, ?_, ?_, ?_, ?_, by simp, ?_⟩, rfl, ?_, ?_, rfl⟩
  · simp [fresh, resize]; omega
  · simp [fresh, resize]; exact hn
  · intro v hv
    simp [fresh, resize] at hv
    exact Or.inl hv.2
  · intro v hv
    simp [fresh, resize] at hv
  · simp [fresh, resize, cntP_replicate]
    rfl
  · simp [fresh, resize]
  · simp [fresh, resize]

/-- `init` keeps the cells. -/
theorem reinit_w {P : Nat → Bool} {t : Nat} {c : Cuckoo} (hW : W P t c []) (h3 : c.numHashes = 3)
    (hs : c.stash.length = 0) (n nb : Nat) (hn : n ≤ nullIdx) (hb : c.bins.length ≤ nb)
    (hidx : ∀ v ∈ c.bins, v ≠ emptyVal → idxOf v < n) :
    ∃ c', Cuckoo.init c n nb 0 3 = .ok c' ∧ W P t c' [] ∧ c'.numHashes = 3 ∧ c'.hashes.length = n ∧
      c'.bins.length = nb ∧ c'.stash.length = 0 := by
  have hst : c.stash = [] := List.eq_nil_of_length_eq_zero hs
  have hbins : resize c.bins nb emptyVal = c.bins ++ List.replicate (nb - c.bins.length) emptyVal := by
    unfold resize; rw [List.take_of_length_le hb]
  refine ⟨_, rfl, ⟨by simp, by simp, ?_, ?_, ?_, ?_, by simp, ?_⟩, rfl, ?_, ?_, ?_⟩
  · simp only [hbins]; simp; have := hW.bins_pos; omega
  · simp [resize]; omega
  · intro v hv
    simp only [hbins, List.mem_append] at hv
    rcases hv with hv | hv
    · rcases hW.bins v hv with h | h
      · exact Or.inl h
      · obtain ⟨i, h, e1, e2, e3⟩ := h
        have hi := hW.small
        unfold nullIdx at hi
        have h4 := hW.nh_le
        have hid : idxOf v = i := by rw [e1]; exact idxOf_pack i h (by omega) (by omega)
        refine Or.inr ⟨i, h, e1, ?_, by simp only; omega⟩
        have := hidx v hv (by rw [e1]; exact pack_ne_empty i h (by omega) (by omega))
        simp only [resize, List.length_append, List.length_take, List.length_replicate]
        omega
    · exact Or.inl (List.eq_of_mem_replicate hv)
  · intro v hv
    simp [hst, resize] at hv
  · have := hW.count
    rw [hst] at this
    simp only [hbins, cntP_append, cntP_replicate, hst]
    simpa [resize] using this
  · simp [resize]; omega
  · simp only [hbins]; simp; omega
  · simp [hst, resize]

end Verif.Cuckoo

namespace Verif.ReuseRun
open Verif Verif.Cuckoo Verif.Kkrt

theorem max_count (n : Nat) : (List.range n).countP (fun _ => true) = n := by simp

/-- The table after a completed run on a new object. -/
theorem first_run {i1 : KkrtIn} {o1 : ReuseRun.Kkrt} (hn : i1.items.length < nullIdx) (hb : 0 < i1.nb)
    (h : kkrtRun kkrtNew i1 = .ok o1) (P : Nat → Bool) :
    W P ((List.range i1.items.length).countP P) o1.index [] ∧ o1.index.numHashes = 3 ∧
      o1.index.bins.length = i1.nb ∧ o1.index.stash.length = 0 := by
  obtain ⟨c0, e0, w0, q1, q2, q3, q4⟩ := init_w P (max 200 i1.items.length) i1.nb
    (by unfold nullIdx at hn ⊢; omega) hb
  unfold kkrtRun kkrtInit kkrtNew at h
  rw [e0] at h
  simp only [Out.bind] at h
  unfold kkrtSend at h
  rw [if_neg (by simp)] at h
  obtain ⟨c, e1, h⟩ := bind_eq_ok h
  obtain ⟨maps, _, h⟩ := bind_eq_ok h
  obtain ⟨out, _, h⟩ := bind_eq_ok h
  injection h with h
  subst h
  rcases insertItems_w i1.aes i1.items w0 (by rw [q2]; omega) with ⟨c', e2, w1, s1⟩ | e2
  · have : c' = c := by
      have := e1.symm.trans e2
      injection this with this
      exact this.symm
    subst this
    refine ⟨by simpa using w1, by rw [s1.1, q1], by rw [s1.2.2.2.1, q3], by rw [s1.2.2.2.2, q4]⟩
  · rw [e2] at e1; simp at e1

/-- All cells of that table have an index of the first run. -/
theorem first_run_idx {i1 : KkrtIn} {o1 : ReuseRun.Kkrt} (hn : i1.items.length < nullIdx) (hb : 0 < i1.nb)
    (h : kkrtRun kkrtNew i1 = .ok o1) (v : Nat) (hv : v ∈ o1.index.bins) (hne : v ≠ emptyVal) :
    idxOf v < i1.items.length := by
  have hw := (first_run hn hb h (fun i => decide (i1.items.length ≤ i))).1
  have hc := hw.count
  have h0 : (List.range i1.items.length).countP (fun i => decide (i1.items.length ≤ i)) = 0 := by
    rw [List.countP_eq_zero]
    intro a ha
    have := List.mem_range.mp ha
    simp; omega
  rw [h0] at hc
  have h1 : cntP (fun i => decide (i1.items.length ≤ i)) o1.index.bins = 0 := by omega
  unfold cntP at h1
  rw [List.countP_eq_zero] at h1
  have := h1 v hv
  simpa [hne] using this

/-- The table at the start of the second run's insertion. -/
theorem second_init {i1 : KkrtIn} {o1 : ReuseRun.Kkrt} (hn : i1.items.length < nullIdx) (hb : 0 < i1.nb)
    (h : kkrtRun kkrtNew i1 = .ok o1) (n2 nb2 : Nat) (hn2 : n2 < nullIdx) (h12 : i1.items.length ≤ max 200 n2)
    (hnb : i1.nb ≤ nb2) :
    ∃ c, kkrtInit o1 n2 nb2 = .ok ⟨c, o1.inter⟩ ∧ c.hashes.length = max 200 n2 ∧ c.bins.length = nb2 ∧
      c.stash.length = 0 ∧ ∀ P, W P ((List.range i1.items.length).countP P) c [] := by
  have key : ∀ P, _ := fun P => by
    obtain ⟨w, q1, q2, q3⟩ := first_run hn hb h P
    exact reinit_w w q1 q3 (max 200 n2) nb2 (by unfold nullIdx at hn2 ⊢; omega) (by omega)
      (fun v hv hne => by have := first_run_idx hn hb h v hv hne; omega)
  obtain ⟨c, e, w, q1, q2, q3, q4⟩ := key (fun _ => true)
  refine ⟨c, ?_, q2, q3, q4, ?_⟩
  · unfold kkrtInit
    rw [e]
    rfl
  · intro P
    obtain ⟨c', e', w', _⟩ := key P
    have := e.symm.trans e'
    injection this with this
    subst this
    exact w'

/-- The insertion of the second run. -/
theorem second_insert {i1 : KkrtIn} {o1 : ReuseRun.Kkrt} (hn : i1.items.length < nullIdx) (hb : 0 < i1.nb)
    (h : kkrtRun kkrtNew i1 = .ok o1) (i2 : KkrtIn) (hn2 : i2.items.length < nullIdx)
    (h12 : i1.items.length ≤ max 200 i2.items.length) (hnb : i1.nb ≤ i2.nb) :
    kkrtRun o1 i2 = .throw ∧ (∃ c, kkrtInit o1 i2.items.length i2.nb = .ok ⟨c, o1.inter⟩ ∧
        insertItems i2.aes c i2.items 0 = .throw) ∨
    ∃ c, kkrtRun o1 i2 = ((recvBins i2.F i2.mb i2.items c c.bins.length 0 fun _ => []).bind fun maps =>
        (recvRegions maps i2.step i2.ns ((i2.ns + i2.step - 1) / i2.step) i2.msgs).bind fun out =>
        .ok ⟨c, o1.inter ++ out⟩) ∧ c.bins.length = i2.nb ∧ c.stash.length = 0 ∧
      (∀ i, i < i2.items.length → i < c.hashes.length ∧
        c.hashes.getD i 0 = hashOfItem i2.aes (i2.items.getD i 0)) ∧
      ∀ P, W P ((List.range i1.items.length).countP P + (List.range i2.items.length).countP P) c [] := by
  obtain ⟨c0, e0, q1, q2, q3, w⟩ := second_init hn hb h i2.items.length i2.nb hn2 h12 hnb
  have hrun : kkrtRun o1 i2 = ((insertItems i2.aes c0 i2.items 0).bind fun c =>
      (recvBins i2.F i2.mb i2.items c c.bins.length 0 fun _ => []).bind fun maps =>
      (recvRegions maps i2.step i2.ns ((i2.ns + i2.step - 1) / i2.step) i2.msgs).bind fun out =>
      .ok ⟨c, o1.inter ++ out⟩) := by
    unfold kkrtRun
    rw [e0]
    simp only [Out.bind]
    unfold kkrtSend
    rw [if_neg (by simp)]
    rfl
  have key : ∀ P, _ := fun P => insertItems_w i2.aes i2.items (w P) (by rw [q1]; omega)
  rcases key (fun _ => true) with ⟨c, e, wc, sc⟩ | e
  · right
    refine ⟨c, by rw [hrun, e]; rfl, by rw [sc.2.2.2.1, q2], by rw [sc.2.2.2.2, q3], ?_, ?_⟩
    · intro i hi
      exact ⟨by rw [sc.2.2.1, q1]; omega, insertItems_hash e i hi (by rw [q1]; omega)⟩
    · intro P
      rcases key P with ⟨c', e', wc', _⟩ | e'
      · have := e.symm.trans e'
        injection this with this
        subst this
        exact wc'
      · rw [e] at e'; simp at e'
  · left
    exact ⟨by rw [hrun, e]; rfl, c0, e0, e⟩

/-! ### the receiver's maps, for any table -/

theorem minColl_lt {t : Nat} {hash : Block} {nb : Nat} : ∀ (k i : Nat), i + k ≤ 3 → minColl t hash nb k i < 3 →
    getHash hash (minColl t hash nb k i) nb = t := by
  intro k
  induction k with
  | zero => intro i _ h; simp [minColl] at h
  | succ k ih =>
    intro i hi h
    unfold minColl at h ⊢
    split
    · next he => exact he.symm
    · next he => rw [if_neg he] at h; exact ih (i + 1) (by omega) h

theorem recvBin_any {F : Nat → Block → Nat} {mb : Nat} {aes : Block → Block} {nb : Nat} {items : List Block}
    {c : Cuckoo} (hlen : c.bins.length = nb)
    (hh : ∀ i, i < items.length → c.hashes.getD i 0 = hashOfItem aes (items.getD i 0)) {b : Nat}
    {maps maps' : Nat → List Entry} (h : MapInv F mb aes nb items c b maps)
    (e : recvBin F mb items c b maps = .ok maps') :
    MapInv F mb aes nb items c (b + 1) maps' ∧
      (c.bins.getD b emptyVal ≠ emptyVal → idxAt c b < items.length ∧ hAt aes nb items c b < 3) := by
  unfold recvBin at e
  simp only at e
  by_cases hne : c.bins.getD b emptyVal ≠ emptyVal
  · rw [if_pos hne] at e
    split at e
    · next h1 =>
      rw [hlen, hh _ h1.1] at e
      split at e
      · next h2 =>
        injection e with e
        subst e
        refine ⟨⟨?_, ?_⟩, fun _ => ⟨h1.1, h2⟩⟩
        · intro k e he
          split at he
          · next hk =>
            rcases mem_emplace he with he | he
            · obtain ⟨b', g1, g2⟩ := h.sound k e he
              exact ⟨b', by omega, g2⟩
            · exact ⟨b, by omega, hne, hk.symm, he⟩
          · obtain ⟨b', g1, g2⟩ := h.sound k e he
            exact ⟨b', by omega, g2⟩
        · intro b' hb' hne'
          by_cases hbb : b' = b
          · subst hbb
            split
            · exact lookup_emplace_self _ _ _
            · next hn => exact absurd rfl hn
          · have := h.complete b' (by omega) hne'
            split
            · exact lookup_emplace_mono _ _ this
            · exact this
      · simp at e
    · simp at e
  · rw [if_neg hne] at e
    injection e with e
    subst e
    refine ⟨⟨?_, ?_⟩, fun hc => absurd hc hne⟩
    · intro k e he
      obtain ⟨b', g1, g2⟩ := h.sound k e he
      exact ⟨b', by omega, g2⟩
    · intro b' hb' hne'
      by_cases hbb : b' = b
      · subst hbb; exact absurd hne' hne
      · exact h.complete b' (by omega) hne'

theorem recvBins_any {F : Nat → Block → Nat} {mb : Nat} {aes : Block → Block} {nb : Nat} {items : List Block}
    {c : Cuckoo} (hlen : c.bins.length = nb)
    (hh : ∀ i, i < items.length → c.hashes.getD i 0 = hashOfItem aes (items.getD i 0)) (k b : Nat)
    (hk : b + k = nb) {maps maps' : Nat → List Entry} (h : MapInv F mb aes nb items c b maps)
    (hprev : ∀ b', b' < b → c.bins.getD b' emptyVal ≠ emptyVal →
      idxAt c b' < items.length ∧ hAt aes nb items c b' < 3)
    (e : recvBins F mb items c k b maps = .ok maps') :
    MapInv F mb aes nb items c nb maps' ∧ ∀ b', b' < nb → c.bins.getD b' emptyVal ≠ emptyVal →
      idxAt c b' < items.length ∧ hAt aes nb items c b' < 3 := by
  induction k generalizing b maps with
  | zero =>
    simp only [recvBins, Out.ok.injEq] at e
    subst e
    have hbn : b = nb := by omega
    subst hbn
    exact ⟨h, hprev⟩
  | succ k ih =>
    rw [recvBins] at e
    obtain ⟨m1, e1, e⟩ := bind_eq_ok e
    obtain ⟨h1, h2⟩ := recvBin_any hlen hh h e1
    refine ih (b + 1) (by omega) h1 ?_ e
    intro b' hb' hne
    by_cases hbb : b' = b
    · subst hbb; exact h2 hne
    · exact hprev b' (by omega) hne

/-- Two cells with the same index. -/
theorem two_cells {i : Nat} {l : List Nat} (h : 2 ≤ cntP (fun j => j == i) l) :
    ∃ b b', b < b' ∧ b' < l.length ∧ l.getD b emptyVal ≠ emptyVal ∧ l.getD b' emptyVal ≠ emptyVal ∧
      idxOf (l.getD b emptyVal) = i ∧ idxOf (l.getD b' emptyVal) = i := by
  induction l with
  | nil => simp [cntP] at h
  | cons v l ih =>
    unfold cntP at h ih
    rw [List.countP_cons] at h
    by_cases hv : (v != emptyVal && (idxOf v == i)) = true
    · rw [if_pos hv] at h
      have hpos : 0 < l.countP (fun v => v != emptyVal && (idxOf v == i)) := by
        have : 2 ≤ l.countP (fun v => v != emptyVal && (idxOf v == i)) + 1 := h
        omega
      obtain ⟨w, hw, hp⟩ := List.countP_pos_iff.mp hpos
      obtain ⟨b, hb, rfl⟩ := List.getElem_of_mem hw
      simp only [Bool.and_eq_true, bne_iff_ne, ne_eq, beq_iff_eq] at hv hp
      refine ⟨0, b + 1, by omega, by simpa using hb, ?_, ?_, ?_, ?_⟩
      · simpa using hv.1
      · simpa [List.getD, List.getElem?_eq_getElem hb] using hp.1
      · simpa using hv.2
      · simpa [List.getD, List.getElem?_eq_getElem hb] using hp.2
    · rw [if_neg hv] at h
      obtain ⟨b, b', h1, h2, h3⟩ := ih (by omega)
      exact ⟨b + 1, b' + 1, by omega, by simpa using h2, by simpa using h3⟩

theorem count_flatMap_ge {β : Type} [BEq β] (l : List Nat) (f : Nat → List β) (a : Nat) (ha : a ∈ l) (x : β) :
    (f a).count x ≤ (l.flatMap f).count x := by
  induction l with
  | nil => simp at ha
  | cons y l ih =>
    rw [List.flatMap_cons, List.count_append]
    rcases List.mem_cons.mp ha with rfl | ha
    · omega
    · have := ih ha; omega

theorem count_two {f : Nat → List Nat} {h h' i : Nat} (hh : h < 3) (hh' : h' < 3) (hne : h ≠ h') (h1 : i ∈ f h)
    (h2 : i ∈ f h') : 2 ≤ ((List.range 3).flatMap f).count i := by
  have e : List.range 3 = [0, 1, 2] := by decide
  rw [e]
  simp only [List.flatMap_cons, List.flatMap_nil, List.append_nil, List.count_append]
  have c1 := List.count_pos_iff.mpr h1
  have c2 := List.count_pos_iff.mpr h2
  have hc : h = 0 ∨ h = 1 ∨ h = 2 := by omega
  have hc' : h' = 0 ∨ h' = 1 ∨ h' = 2 := by omega
  rcases hc with rfl | rfl | rfl <;> rcases hc' with rfl | rfl | rfl <;> omega

end Verif.ReuseRun
