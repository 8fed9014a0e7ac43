import Verif.CuckooWideProps
/-
Lemmas: concurrent inserts with lost stash entries. An item whose stash entry is overwritten goes to a thread that never moves,
so that the invariant of CuckooWide.lean still counts it.
-/
namespace Verif.Cuckoo
open Verif

/-- The next step of the thread overwrites an occupied stash entry. -/
def overwrites (c : Cuckoo) (t : WThread) : Bool :=
  match t.act with
  | .swapping _ _ k => decide (c.stash.getD k emptyVal ≠ emptyVal)
  | _ => false

/-- Number of steps of the schedule that overwrite an occupied stash entry. -/
def stashOverwrites : Cuckoo → List WThread → List Nat → Nat
  | _, _, [] => 0
  | c, ts, n :: sched =>
    match ts[n]? with
    | none => stashOverwrites c ts sched
    | some t => match wideStep c t with
      | .ok p => (if overwrites c t then 1 else 0) + stashOverwrites p.1 (ts.set n p.2) sched
      | _ => 0

/-- The thread that keeps the lost items. -/
def lostThread (lost : List (Nat × Nat)) : WThread := ⟨.idle, .finish (lost.map fun p => ⟨p.1, p.2, 0⟩), [], []⟩

theorem lostThread_held (lost : List (Nat × Nat)) : (lostThread lost).held = lost := by
  simp [lostThread, WThread.held, Act.held, Mode.held, Function.comp_def, Slot.key]

theorem lostThread_pend (lost : List (Nat × Nat)) : (lostThread lost).pend = [] := by
  simp [lostThread, WThread.pend, Mode.pend]

theorem overwrites_false {c : Cuckoo} {t : WThread} (h : overwrites c t = false) : NoRace c t.act := by
  intro i x k he
  unfold overwrites at h
  rw [he] at h
  simpa using h

/-- An occupied stash entry is overwritten. -/
theorem Inv.overwrite {c : Cuckoo} {held : List (Nat × Nat)} {H : List (Nat × Block)} {i h k : Nat}
    (hI : Inv c ((i, h) :: held) H) (hk : k < c.stash.length) (hne : c.stash.getD k emptyVal ≠ emptyVal) :
    ∃ j x, Inv { c with stash := c.stash.set k (pack i h) } ((j, x) :: held) H := by
  obtain ⟨hm, hlt, hh⟩ := hI.held_ok (i, h) (List.mem_cons_self ..)
  simp only at hm hlt hh
  have hnh := hI.nh_le
  have hsm := hI.small
  have h56 : i < 2 ^ 56 := by unfold nullIdx at hsm; omega
  have hget : c.stash.getD k emptyVal = c.stash[k] := by simp [List.getD, hk]
  rcases hI.stash c.stash[k] (List.getElem_mem hk) with he | ⟨j, x, e, j1, j2, j3⟩
  · exact absurd (hget.trans he) hne
  have hj56 : j < 2 ^ 56 := by unfold nullIdx at hsm; omega
  refine ⟨j, x, ?_⟩
  constructor
  · exact hI.nh_pos
  · exact hI.nh_le
  · exact hI.bins_pos
  · exact hI.small
  · exact hI.nodup
  · exact hI.hash_eq
  · exact hI.bins
  · intro v hv
    have hv : v ∈ c.stash.set k (pack i h) := hv
    rcases List.mem_or_eq_of_mem_set hv with hv | hv
    · exact hI.stash v hv
    · exact Or.inr ⟨i, h, hv, hm, hlt, hh⟩
  · intro a b hab hb
    show (c.stash.set k (pack i h)).getD a emptyVal = emptyVal → (c.stash.set k (pack i h)).getD b emptyVal = emptyVal
    have hb : b < c.stash.length := by simpa using hb
    have hset : ∀ x, x < c.stash.length → (c.stash.set k (pack i h)).getD x emptyVal =
        if k = x then pack i h else c.stash.getD x emptyVal := by
      intro x hx
      simp only [List.getD, List.getElem?_set]
      split <;> simp_all
    rw [hset a (by omega), hset b hb]
    intro ha
    by_cases e1 : k = a
    · rw [if_pos e1] at ha
      exact absurd ha (pack_ne_empty i h h56 (by omega))
    · rw [if_neg e1] at ha
      have hbe := hI.contig a b hab hb ha
      by_cases e2 : k = b
      · subst e2; exact absurd hbe hne
      · rw [if_neg e2]; exact hbe
  · intro p hp
    rcases List.mem_cons.mp hp with rfl | hp
    · exact ⟨j1, j2, j3⟩
    · exact hI.held_ok p (List.mem_cons_of_mem _ hp)
  · intro y
    have h1 := cnt_set y c.stash k (pack i h) hk
    rw [hget, e, holds_pack y i h h56 (by omega), holds_pack y j x hj56 (by omega)] at h1
    simp only [decide_eq_true_eq] at h1
    have h2 := hI.count y
    rw [heldCount_cons] at h2 ⊢
    rw [← h2]
    show cnt y c.bins + cnt y (c.stash.set k (pack i h)) + _ = cnt y c.bins + cnt y c.stash + _
    simp only []; omega

/-- A step, with or without a lost entry. -/
theorem raceStep_spec {c : Cuckoo} {ts : List WThread} {items H : List (Nat × Block)} {lost : List (Nat × Nat)} {n : Nat}
    {t : WThread} (h : WInv c (ts ++ [lostThread lost]) items H) (ht : ts[n]? = some t) :
    ∃ c' t' H' lost', wideStep c t = .ok (c', t') ∧ WInv c' (ts.set n t' ++ [lostThread lost']) items H' ∧
      lost'.length = lost.length + (if overwrites c t then 1 else 0) := by
  have hn : n < ts.length := by
    rcases Nat.lt_or_ge n ts.length with h | h
    · exact h
    · rw [List.getElem?_eq_none h] at ht; simp at ht
  by_cases ho : overwrites c t = true
  · rw [if_pos ho]
    obtain ⟨act, mode, todo, calls⟩ := t
    unfold overwrites at ho
    cases act with
    | idle => simp at ho
    | probing => simp at ho
    | scanning => simp at ho
    | failed => simp at ho
    | swapping i x k =>
      have hne : c.stash.getD k emptyVal ≠ emptyVal := by simpa using ho
      obtain ⟨a, b, e1, e2⟩ := split_at ts n _ ht
      have htm : (⟨.swapping i x k, mode, todo, calls⟩ : WThread) ∈ ts ++ [lostThread lost] := by rw [e1]; simp
      obtain ⟨hk, hbef⟩ := h.acts _ htm
      have hI : Inv c ((i, x) :: (mode.held ++ ((a ++ b).flatMap WThread.held ++ lost))) H := by
        apply h.inv.perm
        rw [e1, List.perm_iff_count]
        intro y
        simp only [List.flatMap_append, List.flatMap_cons, List.flatMap_nil, lostThread_held]
        simp only [WThread.held, Act.held, List.count_append, List.count_cons, List.count_nil]
        omega
      obtain ⟨j, z, hI'⟩ := hI.overwrite hk hne
      have hI2 : Inv { c with stash := c.stash.set k (pack i x) }
          ((ts.set n ⟨.idle, mode, todo, calls⟩ ++ [lostThread ((j, z) :: lost)]).flatMap WThread.held) H := by
        apply hI'.perm
        rw [e2, List.perm_iff_count]
        intro y
        simp only [List.flatMap_append, List.flatMap_cons, List.flatMap_nil, lostThread_held]
        simp only [WThread.held, Act.held, List.count_append, List.count_cons, List.count_nil]
        omega
      have hpend : (ts.set n ⟨.idle, mode, todo, calls⟩ ++ [lostThread ((j, z) :: lost)]).flatMap WThread.pend =
          (ts ++ [lostThread lost]).flatMap WThread.pend := by
        rw [e2]
        conv => rhs; rw [e1]
        simp only [List.flatMap_append, List.flatMap_cons, List.flatMap_nil, lostThread_pend]
        simp only [WThread.pend]
      have hs : SameShape c { c with stash := c.stash.set k (pack i x) } := SameShape.setStash _ _ _
      have hg : StashGrows c { c with stash := c.stash.set k (pack i x) } := by
        refine ⟨by simp, ?_⟩
        intro y hy
        show (c.stash.set k (pack i x)).getD y emptyVal ≠ emptyVal
        by_cases hyk : k = y
        · subst hyk
          simp only [List.getD, List.getElem?_set, hk, if_true]
          exact pack_held_ne hI
        · simp only [List.getD, List.getElem?_set, hyk, if_false] at hy ⊢
          exact hy
      have hsplit : ∀ s ∈ ts.set n ⟨.idle, mode, todo, calls⟩ ++ [lostThread ((j, z) :: lost)],
          s = ⟨.idle, mode, todo, calls⟩ ∨ s = lostThread ((j, z) :: lost) ∨ s ∈ ts := by
        intro s hs
        rw [e2] at hs
        rw [e1]
        simp only [List.mem_append, List.mem_cons, List.not_mem_nil, or_false] at hs ⊢
        rcases hs with (hs | hs | hs) | hs
        · exact Or.inr (Or.inr (Or.inl hs))
        · exact Or.inl hs
        · exact Or.inr (Or.inr (Or.inr (Or.inr hs)))
        · exact Or.inr (Or.inl hs)
      have hmono : ∀ s ∈ ts ++ [lostThread lost],
          ModeOk { c with stash := c.stash.set k (pack i x) } s.mode s.todo := by
        intro s hs'
        refine (h.modes s hs').mono (used := []) h.inv (by rw [List.append_nil]; exact hI2) hs ?_
        exact fun p hp => List.mem_flatMap.mpr ⟨s, hs', List.mem_append_right _ hp⟩
      refine ⟨_, _, H, (j, z) :: lost, ?_, ⟨hI2, ?_, ?_, ?_, ?_⟩, by simp⟩
      · unfold wideStep insertStep
        simp only [hk, if_true, bind_ok]
        rw [if_pos (by simp)]
      · rw [hpend]
        exact ⟨fun p hp => by rw [hs.2.2.1]; exact h.new.lt p hp, h.new.nodup, h.new.fresh⟩
      · rw [hpend]; exact h.mem
      · intro s hs'
        rcases hsplit s hs' with rfl | rfl | hs'
        · trivial
        · trivial
        · exact (h.acts s (List.mem_append_left _ hs')).mono hg
      · intro s hs'
        rcases hsplit s hs' with rfl | rfl | hs'
        · have := hmono _ htm
          exact this
        · trivial
        · exact hmono s (List.mem_append_left _ hs')
  · rw [if_neg ho]
    have ht' : (ts ++ [lostThread lost])[n]? = some t := by rw [List.getElem?_append_left hn]; exact ht
    obtain ⟨c', t', H', e, h1, _⟩ := wideRunStep_spec h ht' (overwrites_false (by simpa using ho))
    refine ⟨c', t', H', lost, e, ?_, rfl⟩
    rw [List.set_append_left _ _ hn] at h1
    exact h1

theorem runWide_lost (sched : List Nat) {c : Cuckoo} {ts : List WThread} {items H : List (Nat × Block)}
    {lost : List (Nat × Nat)} (h : WInv c (ts ++ [lostThread lost]) items H) :
    ∃ c' ts' H' lost', runWide c ts sched = .ok (c', ts') ∧ WInv c' (ts' ++ [lostThread lost']) items H' ∧
      lost'.length = lost.length + stashOverwrites c ts sched := by
  induction sched generalizing c ts H lost with
  | nil => exact ⟨c, ts, H, lost, rfl, h, rfl⟩
  | cons n sched ih =>
    unfold runWide stashOverwrites
    cases ht : ts[n]? with
    | none => exact ih h
    | some t =>
      obtain ⟨c', t', H', lost', e, h1, h2⟩ := raceStep_spec h ht
      obtain ⟨d, us, H'', lost'', e', h1', h2'⟩ := ih h1
      refine ⟨d, us, H'', lost'', ?_, h1', ?_⟩
      · simp only []
        rw [e, bind_ok]; exact e'
      · simp only [e]
        omega

theorem holds_one {c : Cuckoo} {v : Nat} (h : v ∈ c.bins ∨ v ∈ c.stash) {i : Nat} (hv : holds i v = true) : 1 ≤ occ c i := by
  unfold occ cnt
  rcases h with h | h
  · have : 0 < c.bins.countP (holds i) := List.countP_pos_iff.mpr ⟨v, h, hv⟩
    omega
  · have : 0 < c.stash.countP (holds i) := List.countP_pos_iff.mpr ⟨v, h, hv⟩
    omega

/-- Without the lost items the table is as if they had never been there. -/
theorem Inv.without {c : Cuckoo} {lost : List (Nat × Nat)} {H : List (Nat × Block)} (hI : Inv c lost H) :
    Inv c [] (H.filter fun p => !(lost.map (·.1)).contains p.1) := by
  have hnh := hI.nh_le
  have hsm := hI.small
  have hmem : ∀ i, i ∈ (H.filter fun p => !(lost.map (·.1)).contains p.1).map (·.1) ↔
      i ∈ H.map (·.1) ∧ i ∉ lost.map (·.1) := by
    intro i
    simp only [List.mem_map, List.mem_filter, Bool.not_eq_true', List.contains_eq_mem, decide_eq_false_iff_not]
    constructor
    · rintro ⟨p, ⟨hp, hq⟩, rfl⟩; exact ⟨⟨p, hp, rfl⟩, hq⟩
    · rintro ⟨⟨p, hp, rfl⟩, hq⟩; exact ⟨p, ⟨hp, hq⟩, rfl⟩
  have hpos : ∀ i, i ∈ lost.map (·.1) ↔ 0 < heldCount lost i := by
    intro i
    unfold heldCount
    rw [List.countP_pos_iff]
    simp
  have hkeep : ∀ i h, i < 2 ^ 56 → h < c.numHashes → (pack i h ∈ c.bins ∨ pack i h ∈ c.stash) → i ∈ H.map (·.1) →
      i ∈ (H.filter fun p => !(lost.map (·.1)).contains p.1).map (·.1) := by
    intro i h hi hh hin hm
    rw [hmem]
    refine ⟨hm, fun hl => ?_⟩
    have h1 := holds_one hin (i := i) (by rw [holds_pack i i h hi (by omega)]; simp)
    have h2 := (hpos i).mp hl
    have h3 := hI.count i
    rw [if_pos hm] at h3
    omega
  constructor
  · exact hI.nh_pos
  · exact hI.nh_le
  · exact hI.bins_pos
  · exact hI.small
  · exact hI.nodup.sublist ((List.filter_sublist).map _)
  · intro p hp; exact hI.hash_eq p (List.mem_filter.mp hp).1
  · intro a ha
    rcases hI.bins a ha with h | ⟨i, h, e, h1, h2, h3, h4⟩
    · exact Or.inl h
    · refine Or.inr ⟨i, h, e, hkeep i h (by unfold nullIdx at hsm; omega) h3 (Or.inl ?_) h1, h2, h3, h4⟩
      rw [← e]; exact List.getElem_mem ha
  · intro v hv
    rcases hI.stash v hv with h | ⟨i, h, e, h1, h2, h3⟩
    · exact Or.inl h
    · exact Or.inr ⟨i, h, e, hkeep i h (by unfold nullIdx at hsm; omega) h3 (Or.inr (e ▸ hv)) h1, h2, h3⟩
  · exact hI.contig
  · simp
  · intro i
    have h1 := hI.count i
    have h2 := hpos i
    simp only [hmem]
    simp only [heldCount, List.countP_nil] at h1 h2 ⊢
    by_cases hm : i ∈ H.map (·.1)
    · rw [if_pos hm] at h1
      by_cases hl : i ∈ lost.map (·.1)
      · rw [if_neg (fun hh => hh.2 hl)]
        have := h2.mp hl
        omega
      · rw [if_pos ⟨hm, hl⟩]
        have : ¬ 0 < _ := fun hh => hl (h2.mpr hh)
        omega
    · rw [if_neg hm] at h1
      rw [if_neg (fun hh => hm hh.1)]
      omega

end Verif.Cuckoo
