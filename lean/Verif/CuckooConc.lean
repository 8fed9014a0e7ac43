import Verif.CuckooConcModel
import Verif.CuckooInsert
/-
Lemmas: the invariant of the cuckoo index under concurrent inserts.
-/
namespace Verif.Cuckoo
open Verif

/-- The item in the hands of an `insertOne`. -/
def Act.held : Act → List (Nat × Nat)
  | .idle => []
  | .probing i h _ => [(i, h)]
  | .scanning i h _ => [(i, h)]
  | .swapping i h _ => [(i, h)]
  | .failed i h => [(i, h)]

/-- Items whose hash is entered and that are not in the table. -/
def Thread.held (t : Thread) : List (Nat × Nat) := t.act.held ++ t.ready.map fun i => (i, 0)

/-- Items not yet touched. -/
def Thread.pend (t : Thread) : List (Nat × Block) := t.load ++ t.todo ++ t.calls.flatten

/-- The stash entries a thread has passed are occupied. -/
def ActOk (c : Cuckoo) : Act → Prop
  | .scanning _ _ k => k ≤ c.stash.length ∧ ∀ j, j < k → c.stash.getD j emptyVal ≠ emptyVal
  | .swapping _ _ k => k < c.stash.length ∧ ∀ j, j < k → c.stash.getD j emptyVal ≠ emptyVal
  | _ => True

/-- The next step does not overwrite a filled stash entry. -/
def NoRace (c : Cuckoo) (a : Act) : Prop :=
  ∀ i h k, a = .swapping i h k → c.stash.getD k emptyVal = emptyVal

/-- Occupied stash entries stay occupied. -/
def StashGrows (c c' : Cuckoo) : Prop :=
  c'.stash.length = c.stash.length ∧
    ∀ j, c.stash.getD j emptyVal ≠ emptyVal → c'.stash.getD j emptyVal ≠ emptyVal

theorem StashGrows.of_eq {c c' : Cuckoo} (h : c'.stash = c.stash) : StashGrows c c' :=
  ⟨by rw [h], by rw [h]; exact fun _ h => h⟩

theorem ActOk.mono {c c' : Cuckoo} {a : Act} (h : ActOk c a) (hg : StashGrows c c') :
    ActOk c' a := by
  cases a with
  | idle => trivial
  | probing => trivial
  | failed => trivial
  | scanning i h' k => exact ⟨by rw [hg.1]; exact h.1, fun j hj => hg.2 j (h.2 j hj)⟩
  | swapping i h' k => exact ⟨by rw [hg.1]; exact h.1, fun j hj => hg.2 j (h.2 j hj)⟩

theorem findIdx?_first {l : List Nat} {k : Nat} (hk : k < l.length)
    (he : l.getD k emptyVal = emptyVal) (hb : ∀ j, j < k → l.getD j emptyVal ≠ emptyVal) :
    l.findIdx? (· == emptyVal) = some k := by
  rw [List.findIdx?_eq_some_iff_getElem]
  have e : ∀ j (hj : j < l.length), l.getD j emptyVal = l[j] := by
    intro j hj; simp [List.getD, hj]
  refine ⟨hk, by rw [← e k hk, he]; simp, ?_⟩
  intro j hj
  have := hb j hj
  rw [e j (by omega)] at this
  simpa using this

theorem pack_held_ne {c : Cuckoo} {held : List (Nat × Nat)} {H : List (Nat × Block)} {i h : Nat}
    (hI : Inv c ((i, h) :: held) H) : pack i h ≠ emptyVal := by
  obtain ⟨_, h2, h3⟩ := hI.held_ok _ (List.mem_cons_self ..)
  have hs := hI.small
  have hn := hI.nh_le
  simp only at h2 h3
  exact pack_ne_empty i h (by unfold nullIdx at hs; omega) (by omega)

theorem insertStep_spec {c : Cuckoo} {a : Act} {held : List (Nat × Nat)} {H : List (Nat × Block)}
    (hI : Inv c (a.held ++ held) H) (hok : ActOk c a) (hr : NoRace c a) :
    ∃ c' a', insertStep c a = .ok (c', a') ∧ Inv c' (a'.held ++ held) H ∧ SameShape c c' ∧
      ActOk c' a' ∧ StashGrows c c' := by
  cases a with
  | idle => exact ⟨c, .idle, rfl, hI, SameShape.refl c, trivial, StashGrows.of_eq rfl⟩
  | failed i h => exact ⟨c, .failed i h, rfl, hI, SameShape.refl c, trivial, StashGrows.of_eq rfl⟩
  | probing i h tries =>
    have hI' : Inv c ((i, h) :: held) H := hI
    have hs := SameShape.setBin c (addrOf c i h) (pack i h)
    unfold insertStep
    simp only []
    rw [if_pos (hI'.addrOk (List.mem_cons_self ..))]
    rcases hI'.swap with ⟨_, h2, h3⟩ | ⟨_, h2, h3⟩
    · rw [if_pos h2]
      exact ⟨_, _, rfl, h3, hs, trivial, StashGrows.of_eq rfl⟩
    · rw [if_neg h2]
      by_cases ht : tries ≠ c.limit
      · rw [if_pos ht, if_neg (by have := hI.nh_pos; omega)]
        exact ⟨_, _, rfl, h3.rehash _ (Nat.mod_lt _ hI.nh_pos), hs, trivial, StashGrows.of_eq rfl⟩
      · rw [if_neg ht]
        exact ⟨_, _, rfl, h3, hs, ⟨Nat.zero_le _, by intro j hj; omega⟩, StashGrows.of_eq rfl⟩
  | scanning i h k =>
    unfold insertStep
    simp only []
    by_cases h1 : k = c.stash.length
    · rw [if_pos h1]
      exact ⟨_, _, rfl, hI, SameShape.refl c, trivial, StashGrows.of_eq rfl⟩
    · have h2 := hok.1
      rw [if_neg h1, if_neg (by omega)]
      by_cases h3 : c.stash.getD k emptyVal = emptyVal
      · rw [if_pos h3]
        exact ⟨_, _, rfl, hI, SameShape.refl c, ⟨by omega, hok.2⟩, StashGrows.of_eq rfl⟩
      · rw [if_neg h3]
        refine ⟨_, _, rfl, hI, SameShape.refl c, ⟨by omega, ?_⟩, StashGrows.of_eq rfl⟩
        intro j hj
        by_cases hjk : j = k
        · rw [hjk]; exact h3
        · exact hok.2 j (by omega)
  | swapping i h k =>
    have hI' : Inv c ((i, h) :: held) H := hI
    have he := hr i h k rfl
    unfold insertStep
    simp only []
    rw [if_pos hok.1]
    have hf := findIdx?_first hok.1 he hok.2
    rcases hI'.stashPut with ⟨k', e1, e2, e3⟩ | ⟨e1, e2⟩
    · rw [hf] at e1
      simp at e1
      subst e1
      refine ⟨_, _, rfl, e3, SameShape.setStash _ _ _, trivial, by simp, ?_⟩
      intro j hj
      show (c.stash.set k (pack i h)).getD j emptyVal ≠ emptyVal
      by_cases hjk : k = j
      · subst hjk
        simp only [List.getD, List.getElem?_set, hok.1, if_true]
        exact pack_held_ne hI'
      · simp only [List.getD, List.getElem?_set, hjk, if_false] at hj ⊢
        exact hj
    · exfalso
      have hk := hok.1
      apply e2 (c.stash.getD k emptyVal) _ he
      simp only [List.getD]
      rw [List.getElem?_eq_getElem hk]
      exact List.getElem_mem hk

theorem NewItems.perm {c : Cuckoo} {H l l' : List (Nat × Block)} (h : NewItems c H l)
    (hp : l.Perm l') : NewItems c H l' :=
  ⟨fun p hp' => h.lt p (hp.mem_iff.mpr hp'), (hp.map _).nodup_iff.mp h.nodup,
    fun p hp' => h.fresh p (hp.mem_iff.mpr hp')⟩

theorem threadStep_spec {c : Cuckoo} {t : Thread} {held : List (Nat × Nat)}
    {H pend : List (Nat × Block)} (hI : Inv c (t.held ++ held) H)
    (hn : NewItems c H (t.pend ++ pend)) (hok : ActOk c t.act) (hr : NoRace c t.act) :
    ∃ c' t' used, threadStep c t = .ok (c', t') ∧ Inv c' (t'.held ++ held) (H ++ used) ∧
      SameShape c c' ∧ t.pend.Perm (used ++ t'.pend) ∧ ActOk c' t'.act ∧ StashGrows c c' := by
  obtain ⟨act, load, ready, todo, calls⟩ := t
  unfold threadStep
  simp only []
  by_cases ha : act ≠ .idle
  · rw [if_pos ha]
    have hI' : Inv c (act.held ++ (ready.map (fun i => (i, 0)) ++ held)) H := by
      rw [← List.append_assoc]; exact hI
    obtain ⟨c', a', e, h1, h2, h3, h4⟩ := insertStep_spec hI' hok hr
    rw [e]
    refine ⟨c', _, [], rfl, ?_, h2, List.Perm.refl _, h3, h4⟩
    rw [List.append_nil, Thread.held, List.append_assoc]
    exact h1
  · have ha' : act = .idle := Classical.not_not.mp ha
    subst ha'
    rw [if_neg ha]
    cases load with
    | cons p load =>
      obtain ⟨i, b⟩ := p
      have hmem : (i, b) ∈ Thread.pend ⟨.idle, (i, b) :: load, ready, todo, calls⟩ ++ pend := by
        simp [Thread.pend]
      obtain ⟨e1, hI1⟩ := hI.setHash (b := b) (hn.lt _ hmem) (hn.fresh _ hmem)
      refine ⟨{ c with hashes := c.hashes.set i b }, ⟨.idle, load, ready ++ [i], todo, calls⟩,
        [(i, b)], by simp only [e1, bind_ok], ?_, SameShape.setHash c i b, ?_, trivial,
        StashGrows.of_eq rfl⟩
      · apply hI1.perm
        simp only [Thread.held, Act.held, List.nil_append, List.map_append, List.map_cons,
          List.map_nil, List.append_assoc]
        exact List.perm_middle.symm
      · exact List.Perm.refl _
    | nil =>
      cases ready with
      | cons i ready =>
        exact ⟨c, ⟨.probing i 0 0, [], ready, todo, calls⟩, [], rfl,
          by rw [List.append_nil]; exact hI, SameShape.refl c, List.Perm.refl _, trivial,
          StashGrows.of_eq rfl⟩
      | nil =>
        cases todo with
        | cons p todo =>
          obtain ⟨i, b⟩ := p
          have hmem : (i, b) ∈ Thread.pend ⟨.idle, [], [], (i, b) :: todo, calls⟩ ++ pend := by
            simp [Thread.pend]
          obtain ⟨e1, hI1⟩ := hI.setHash (b := b) (hn.lt _ hmem) (hn.fresh _ hmem)
          exact ⟨{ c with hashes := c.hashes.set i b }, ⟨.probing i 0 0, [], [], todo, calls⟩,
            [(i, b)], by simp only [e1, bind_ok], hI1, SameShape.setHash c i b, List.Perm.refl _,
            trivial, StashGrows.of_eq rfl⟩
        | nil =>
          cases calls with
          | nil =>
            exact ⟨c, ⟨.idle, [], [], [], []⟩, [], rfl, by rw [List.append_nil]; exact hI,
              SameShape.refl c, List.Perm.refl _, trivial, StashGrows.of_eq rfl⟩
          | cons call calls =>
            refine ⟨c, ⟨.idle, call.take 8, [], call.drop 8, calls⟩, [], rfl,
              by rw [List.append_nil]; exact hI, SameShape.refl c, ?_, trivial,
              StashGrows.of_eq rfl⟩
            simp [Thread.pend, ← List.append_assoc]

/-- The invariant of a run. -/
structure CInv (c : Cuckoo) (ts : List Thread) (items H : List (Nat × Block)) : Prop where
  inv : Inv c (ts.flatMap Thread.held) H
  new : NewItems c H (ts.flatMap Thread.pend)
  mem : ∀ x, x ∈ items ↔ x ∈ H ∨ x ∈ ts.flatMap Thread.pend
  acts : ∀ t ∈ ts, ActOk c t.act

theorem split_at {α : Type} (l : List α) (n : Nat) (x : α) (h : l[n]? = some x) :
    ∃ a b, l = a ++ x :: b ∧ ∀ y, l.set n y = a ++ y :: b := by
  induction l generalizing n with
  | nil => simp at h
  | cons z l ih =>
    cases n with
    | zero =>
      simp at h
      subst h
      exact ⟨[], l, rfl, fun _ => rfl⟩
    | succ n =>
      obtain ⟨a, b, h1, h2⟩ := ih n (by simpa using h)
      exact ⟨z :: a, b, by rw [h1]; rfl, fun y => by rw [List.set_cons_succ, h2]; rfl⟩

theorem flatMap_mid {α β : Type} (f : α → List β) (a b : List α) (x : α) :
    ((a ++ x :: b).flatMap f).Perm (f x ++ (a ++ b).flatMap f) := by
  rw [List.flatMap_append, List.flatMap_cons, List.flatMap_append, ← List.append_assoc,
    ← List.append_assoc]
  exact List.Perm.append_right _ List.perm_append_comm

theorem runStep_spec {c : Cuckoo} {ts : List Thread} {items H : List (Nat × Block)} {n : Nat}
    {t : Thread} (h : CInv c ts items H) (ht : ts[n]? = some t) (hr : NoRace c t.act) :
    ∃ c' t' H', threadStep c t = .ok (c', t') ∧ CInv c' (ts.set n t') items H' ∧ SameShape c c' ∧
      StashGrows c c' := by
  obtain ⟨a, b, e1, e2⟩ := split_at ts n t ht
  have hp1 := flatMap_mid Thread.held a b t
  have hp2 := flatMap_mid Thread.pend a b t
  rw [← e1] at hp1 hp2
  have htm : t ∈ ts := by rw [e1]; simp
  obtain ⟨c', t', used, f1, f2, f3, f4, f5, f6⟩ :=
    threadStep_spec (h.inv.perm hp1) (h.new.perm hp2) (h.acts t htm) hr
  have hp3 : (ts.flatMap Thread.pend).Perm (used ++ (ts.set n t').flatMap Thread.pend) := by
    rw [e2 t']
    refine hp2.trans ((f4.append_right _).trans ?_)
    rw [List.append_assoc]
    exact (flatMap_mid Thread.pend a b t').symm.append_left used
  have hn := h.new.perm hp3
  refine ⟨c', t', H ++ used, f1, ⟨?_, (hn.split f3).2, ?_, ?_⟩, f3, f6⟩
  · rw [e2 t']
    exact f2.perm (flatMap_mid Thread.held a b t').symm
  · intro x
    rw [h.mem x, hp3.mem_iff, List.mem_append, List.mem_append, or_assoc]
  · intro s hs
    rw [e2 t'] at hs
    have : s = t' ∨ s ∈ ts := by
      rw [e1]
      simp only [List.mem_append, List.mem_cons] at hs ⊢
      rcases hs with hs | hs | hs
      · exact Or.inr (Or.inl hs)
      · exact Or.inl hs
      · exact Or.inr (Or.inr (Or.inr hs))
    rcases this with rfl | hs'
    · exact f5
    · exact (h.acts s hs').mono f6

theorem noRace_of {c : Cuckoo} {ts : List Thread} {n : Nat} {t : Thread} (ht : ts[n]? = some t)
    (h : raceNow c ts n = false) : NoRace c t.act := by
  intro i hh k he
  unfold raceNow at h
  rw [ht] at h
  simp only [he] at h
  simpa using h

theorem runSched_spec (sched : List Nat) {c : Cuckoo} {ts : List Thread}
    {items H : List (Nat × Block)} (h : CInv c ts items H) (hr : raceFree c ts sched = true) :
    ∃ c' ts' H', runSched c ts sched = .ok (c', ts') ∧ CInv c' ts' items H' ∧ SameShape c c' := by
  induction sched generalizing c ts H with
  | nil => exact ⟨c, ts, H, rfl, h, SameShape.refl c⟩
  | cons n sched ih =>
    unfold raceFree at hr
    unfold runSched
    rw [Bool.and_eq_true] at hr
    obtain ⟨hr1, hr2⟩ := hr
    cases ht : ts[n]? with
    | none =>
      rw [ht] at hr2
      exact ih h hr2
    | some t =>
      rw [ht] at hr2
      obtain ⟨c', t', H', e, h1, h2, _⟩ := runStep_spec h ht (noRace_of ht (by simpa using hr1))
      simp only [e] at hr2
      simp only []
      rw [e, bind_ok]
      obtain ⟨c2, ts2, H2, e2, g1, g2⟩ := ih h1 hr2
      exact ⟨c2, ts2, H2, e2, g1, h2.trans g2⟩

/-! ### sufficient conditions -/

theorem raceFree_noStash (sched : List Nat) {c : Cuckoo} {ts : List Thread}
    {items H : List (Nat × Block)} (h : CInv c ts items H) (h0 : c.stash.length = 0) :
    raceFree c ts sched = true := by
  induction sched generalizing c ts H with
  | nil => rfl
  | cons n sched ih =>
    unfold raceFree
    have hno : ∀ m, raceNow c ts m = false := by
      intro m
      unfold raceNow
      cases ht : ts[m]? with
      | none => rfl
      | some t =>
        simp only []
        cases ha : t.act with
        | swapping i hh k =>
          have := h.acts t (List.mem_of_getElem? ht)
          rw [ha] at this
          have := this.1
          omega
        | _ => rfl
    rw [hno n]
    simp only [Bool.not_false, Bool.true_and]
    cases ht : ts[n]? with
    | none => exact ih h h0
    | some t =>
      simp only []
      obtain ⟨c', t', H', e, h1, h2, _⟩ := runStep_spec h ht (noRace_of ht (hno n))
      rw [e]
      simp only []
      exact ih h1 (by rw [h2.2.2.2.2]; exact h0)

/-- A thread that is about to exchange a stash entry finds it empty. -/
def SwapFresh (c : Cuckoo) (ts : List Thread) : Prop :=
  ∀ t ∈ ts, NoRace c t.act

theorem insertStep_stash {c c' : Cuckoo} {a a' : Act} (h : insertStep c a = .ok (c', a')) :
    (c'.stash = c.stash ∨ ∃ i x k, a = .swapping i x k) ∧
      (∀ i x k, a' = .swapping i x k → c'.stash.getD k emptyVal = emptyVal) := by
  cases a with
  | idle => simp [insertStep] at h; obtain ⟨rfl, rfl⟩ := h; simp
  | failed i x => simp [insertStep] at h; obtain ⟨rfl, rfl⟩ := h; simp
  | probing i x tries =>
    unfold insertStep at h
    simp only [] at h
    repeat' split at h
    all_goals first
      | (simp at h; done)
      | (simp at h; obtain ⟨rfl, rfl⟩ := h; simp)
  | scanning i x k =>
    unfold insertStep at h
    simp only [] at h
    repeat' split at h
    all_goals first
      | (simp at h; done)
      | (simp at h; obtain ⟨rfl, rfl⟩ := h; simp_all)
  | swapping i x k =>
    unfold insertStep at h
    simp only [] at h
    split at h
    · simp at h; obtain ⟨rfl, rfl⟩ := h; simp
    · simp at h

theorem threadStep_stash {c c' : Cuckoo} {t t' : Thread} (h : threadStep c t = .ok (c', t')) :
    (c'.stash = c.stash ∨ t.inStash = true) ∧ NoRace c' t'.act := by
  unfold threadStep at h
  split at h
  · cases e : insertStep c t.act with
    | ok p =>
      obtain ⟨d, a⟩ := p
      rw [e, bind_ok] at h
      simp at h
      obtain ⟨rfl, rfl⟩ := h
      obtain ⟨h1, h2⟩ := insertStep_stash e
      refine ⟨?_, fun i x k he => h2 i x k he⟩
      rcases h1 with h1 | ⟨i, x, k, h1⟩
      · exact Or.inl h1
      · right; unfold Thread.inStash; rw [h1]
    | throw => rw [e] at h; simp [Out.bind] at h
    | ub => rw [e] at h; simp [Out.bind] at h
  · rename_i hidle
    have hact : t.act = .idle := Classical.not_not.mp hidle
    have hset : ∀ (i : Nat) (b : Block) (f : Cuckoo → Thread) ,
        ((setHash c i b).bind fun d => Out.ok (d, f d)) = .ok (c', t') →
          c'.stash = c.stash ∧ t' = f c' := by
      intro i b f hh
      unfold setHash at hh
      split at hh
      · simp [bind_ok] at hh
        obtain ⟨rfl, rfl⟩ := hh
        exact ⟨rfl, rfl⟩
      · simp [Out.bind] at hh
    split at h
    · obtain ⟨h1, h2⟩ := hset _ _ (fun _ => _) h
      refine ⟨Or.inl h1, ?_⟩
      intro i x k he; rw [h2] at he; simp [hact] at he
    · split at h
      · simp at h
        obtain ⟨rfl, rfl⟩ := h
        exact ⟨Or.inl rfl, by intro i x k he; simp at he⟩
      · split at h
        · obtain ⟨h1, h2⟩ := hset _ _ (fun _ => _) h
          refine ⟨Or.inl h1, ?_⟩
          intro i x k he; rw [h2] at he; simp at he
        · split at h
          · simp at h
            obtain ⟨rfl, rfl⟩ := h
            exact ⟨Or.inl rfl, by intro i x k he; rw [hact] at he; simp at he⟩
          · simp at h
            obtain ⟨rfl, rfl⟩ := h
            exact ⟨Or.inl rfl, by intro i x k he; simp [hact] at he⟩

theorem SwapFresh.step {c c' : Cuckoo} {ts : List Thread} {n : Nat} {t t' : Thread}
    (h : SwapFresh c ts) (hex : (ts.filter Thread.inStash).length ≤ 1) (ht : ts[n]? = some t)
    (e : threadStep c t = .ok (c', t')) : SwapFresh c' (ts.set n t') := by
  obtain ⟨a, b, e1, e2⟩ := split_at ts n t ht
  obtain ⟨h1, h2⟩ := threadStep_stash e
  rw [e2 t']
  intro s hs
  have hs' : s = t' ∨ s ∈ a ∨ s ∈ b := by
    simp only [List.mem_append, List.mem_cons] at hs
    rcases hs with hs | hs | hs
    · exact Or.inr (Or.inl hs)
    · exact Or.inl hs
    · exact Or.inr (Or.inr hs)
  rcases hs' with rfl | hs'
  · exact h2
  · have hsts : s ∈ ts := by
      rw [e1]; simp only [List.mem_append, List.mem_cons]
      rcases hs' with hs' | hs'
      · exact Or.inl hs'
      · exact Or.inr (Or.inr hs')
    rcases h1 with h1 | h1
    · intro i x k he
      rw [h1]; exact h s hsts i x k he
    · -- the stepping thread is the only one in the stash code
      intro i x k he
      exfalso
      have hin : s.inStash = true := by unfold Thread.inStash; rw [he]
      rw [e1, List.filter_append, List.filter_cons_of_pos h1, List.length_append,
        List.length_cons] at hex
      rcases hs' with hs' | hs'
      · have := List.length_pos_of_mem (List.mem_filter.mpr ⟨hs', hin⟩)
        omega
      · have := List.length_pos_of_mem (List.mem_filter.mpr ⟨hs', hin⟩)
        omega

theorem raceFree_of_exclusive (sched : List Nat) {c : Cuckoo} {ts : List Thread}
    (h : SwapFresh c ts) (hex : stashExclusive c ts sched = true) :
    raceFree c ts sched = true := by
  induction sched generalizing c ts with
  | nil => rfl
  | cons n sched ih =>
    unfold raceFree
    unfold stashExclusive at hex
    rw [Bool.and_eq_true] at hex
    obtain ⟨hx1, hx2⟩ := hex
    have hx1 := of_decide_eq_true hx1
    have hno : raceNow c ts n = false := by
      unfold raceNow
      cases ht : ts[n]? with
      | none => rfl
      | some t =>
        simp only []
        cases ha : t.act with
        | swapping i x k =>
          have := h t (List.mem_of_getElem? ht) i x k ha
          simpa using this
        | _ => rfl
    rw [hno]
    simp only [Bool.not_false, Bool.true_and]
    cases ht : ts[n]? with
    | none => rw [ht] at hx2; exact ih h hx2
    | some t =>
      rw [ht] at hx2
      simp only [] at hx2 ⊢
      cases e : threadStep c t with
      | ok p =>
        rw [e] at hx2
        exact ih (h.step hx1 ht e) hx2
      | throw => rfl
      | ub => rfl

end Verif.Cuckoo
