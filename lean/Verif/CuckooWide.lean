import Verif.CuckooWideModel
import Verif.CuckooConc
/-
Lemmas: the invariant of the cuckoo index under concurrent inserts of any length.
-/
namespace Verif.Cuckoo
open Verif

/-- The item of a slot. -/
def Slot.key (s : Slot) : Nat × Nat := (s.idx, s.h)

/-- Items in the slots. -/
def Mode.held : Mode → List (Nat × Nat)
  | .load _ slots => slots.map Slot.key
  | .swap pend out => pend.map (fun p => p.1.key) ++ slotsHeld out
  | .refill pend out => slotsHeld pend ++ out.map Slot.key
  | .fill pend out => slotsHeld pend ++ out.map Slot.key
  | .finish slots => slots.map Slot.key

/-- Items whose hash is entered and that are not in the table. -/
def WThread.held (t : WThread) : List (Nat × Nat) := t.act.held ++ t.mode.held

/-- Items of the first loop. -/
def Mode.pend : Mode → List (Nat × Block)
  | .load items _ => items
  | _ => []

/-- Items not yet touched. -/
def WThread.pend (t : WThread) : List (Nat × Block) := t.mode.pend ++ (t.todo ++ t.calls.flatten)

/-- The addresses are still right and there are items for all slots. -/
def ModeOk (c : Cuckoo) : Mode → List (Nat × Block) → Prop
  | .load items slots, _ => items.length + slots.length ≤ 8
  | .swap pend out, todo => c.numHashes = 3 ∧ pend.length + out.length ≤ 8 ∧ 8 < todo.length ∧
      ∀ x ∈ pend, x.2 = addrOf c x.1.idx x.1.h
  | .refill pend out, todo => c.numHashes = 3 ∧ pend.length + out.length ≤ 8 ∧ pend.length ≤ todo.length
  | .fill pend out, todo => c.numHashes = 3 ∧ pend.length + out.length + 1 ≤ 8 ∧ pend.length + 1 ≤ todo.length
  | .finish _, _ => True

theorem addrOf_mono {c c' : Cuckoo} {held held' : List (Nat × Nat)} {H used : List (Nat × Block)} (hI : Inv c held H)
    (hI' : Inv c' held' (H ++ used)) (hs : SameShape c c') {i : Nat} (hi : i ∈ H.map (·.1)) (h : Nat) :
    addrOf c' i h = addrOf c i h := by
  obtain ⟨p, hp, rfl⟩ := List.mem_map.mp hi
  have h1 := hI.hash_eq p hp
  have h2 := hI'.hash_eq p (List.mem_append_left _ hp)
  unfold addrOf
  simp only [List.getD, h1, h2, hs.2.2.2.1]

theorem ModeOk.mono {c c' : Cuckoo} {held held' : List (Nat × Nat)} {H used : List (Nat × Block)} {m : Mode}
    {todo : List (Nat × Block)} (h : ModeOk c m todo) (hI : Inv c held H) (hI' : Inv c' held' (H ++ used))
    (hs : SameShape c c') (hm : ∀ p ∈ m.held, p ∈ held) : ModeOk c' m todo := by
  cases m with
  | load items slots => exact h
  | finish slots => trivial
  | refill pend out => exact ⟨by rw [hs.1]; exact h.1, h.2⟩
  | fill pend out => exact ⟨by rw [hs.1]; exact h.1, h.2⟩
  | swap pend out =>
    refine ⟨by rw [hs.1]; exact h.1, h.2.1, h.2.2.1, fun x hx => ?_⟩
    have hk : x.1.key ∈ held := hm _ (List.mem_append_left _ (List.mem_map_of_mem (f := fun p : Slot × Nat => p.1.key) hx))
    have he : addrOf c' x.1.idx x.1.h = addrOf c x.1.idx x.1.h := addrOf_mono hI hI' hs (hI.held_ok _ hk).1 _
    rw [he]
    exact h.2.2.2 x hx

theorem slotsHeld_append (a b : List Slot) : slotsHeld (a ++ b) = slotsHeld a ++ slotsHeld b := by
  unfold slotsHeld; rw [List.filter_append, List.map_append]

theorem Inv.slots_ne {c : Cuckoo} {held : List (Nat × Nat)} {H : List (Nat × Block)} (hI : Inv c held H) {s : Slot}
    (hs : s.key ∈ held) : s.idx ≠ nullIdx := by
  have h := (hI.held_ok _ hs).2.1
  have := hI.small
  simp only [Slot.key] at h
  omega

theorem loopHead_spec {c : Cuckoo} {slots : List Slot} {todo : List (Nat × Block)} {held : List (Nat × Nat)}
    {H : List (Nat × Block)} (hI : Inv c (slots.map Slot.key ++ held) H) (hl : slots.length ≤ 8) :
    ∃ m, loopHead c slots todo = .ok m ∧ m.held = slots.map Slot.key ∧ m.pend = [] ∧ ModeOk c m todo := by
  unfold loopHead
  split
  · rename_i h
    have hall : (slots.all fun s => Cuckoo.addrOk c s.idx s.h) = true := by
      rw [List.all_eq_true]
      intro s hs
      exact hI.addrOk (List.mem_append_left _ (List.mem_map_of_mem (f := Slot.key) hs))
    rw [if_pos hall]
    refine ⟨_, rfl, ?_, rfl, h.2, by simpa using hl, h.1, ?_⟩
    · simp [Mode.held, slotsHeld]
    · intro x hx
      obtain ⟨s, _, rfl⟩ := List.mem_map.mp hx
      rfl
  · exact ⟨_, rfl, rfl, rfl, trivial⟩

/-- What a step does. -/
def StepOk (c : Cuckoo) (t : WThread) (held : List (Nat × Nat)) (H : List (Nat × Block)) (r : Out (Cuckoo × WThread)) : Prop :=
  ∃ c' t' used, r = .ok (c', t') ∧ Inv c' (t'.held ++ held) (H ++ used) ∧ SameShape c c' ∧
    t.pend.Perm (used ++ t'.pend) ∧ ActOk c' t'.act ∧ ModeOk c' t'.mode t'.todo ∧ StashGrows c c'

theorem takeItem_spec {c : Cuckoo} {t : WThread} {pend out : List Slot} {held : List (Nat × Nat)} {H P : List (Nat × Block)}
    (ha : t.act = .idle) (hp : t.mode.pend = []) (hI : Inv c ((slotsHeld pend ++ out.map Slot.key) ++ held) H)
    (hn : NewItems c H (t.pend ++ P)) (h3 : c.numHashes = 3) (hl : pend.length + out.length + 1 ≤ 8)
    (ht : pend.length + 1 ≤ t.todo.length) : StepOk c t held H (takeItem c t pend out) := by
  obtain ⟨act, mode, todo, calls⟩ := t
  subst ha
  simp only at hp ht
  unfold takeItem
  cases todo with
  | nil => simp at ht
  | cons q rest =>
    obtain ⟨i, b⟩ := q
    have hmem : (i, b) ∈ WThread.pend ⟨.idle, mode, (i, b) :: rest, calls⟩ ++ P := by simp [WThread.pend]
    obtain ⟨e1, hI1⟩ := hI.setHash (b := b) (hn.lt _ hmem) (hn.fresh _ hmem)
    refine ⟨{ c with hashes := c.hashes.set i b }, ⟨.idle, .refill pend (out ++ [⟨i, 0, 0⟩]), rest, calls⟩, [(i, b)],
      by simp only [e1, bind_ok], ?_, SameShape.setHash c i b, ?_, trivial, ⟨h3, ?_, ?_⟩, StashGrows.of_eq rfl⟩
    · apply hI1.perm
      rw [List.perm_iff_count]
      intro x
      simp only [WThread.held, Act.held, Mode.held, Slot.key, List.nil_append, List.map_append, List.map_cons, List.map_nil,
        List.count_append, List.count_cons, List.count_nil]
      omega
    · show (mode.pend ++ (_ :: rest ++ calls.flatten)).Perm (_ :: (rest ++ calls.flatten))
      rw [hp]; exact List.Perm.refl _
    · simp only [List.length_append, List.length_cons, List.length_nil]; omega
    · simp only [List.length_cons] at ht; show pend.length ≤ rest.length; omega

theorem modeStep_spec {c : Cuckoo} {t : WThread} {held : List (Nat × Nat)} {H P : List (Nat × Block)} (ha : t.act = .idle)
    (hI : Inv c (t.held ++ held) H) (hn : NewItems c H (t.pend ++ P)) (hm : ModeOk c t.mode t.todo) :
    StepOk c t held H (modeStep c t) := by
  have ht : t.held = t.mode.held := by unfold WThread.held; rw [ha]; rfl
  rw [ht] at hI
  obtain ⟨act, mode, todo, calls⟩ := t
  simp only at ha hm hI
  subst ha
  unfold modeStep
  cases mode with
  | load items slots =>
    cases items with
    | cons q rest =>
      obtain ⟨i, b⟩ := q
      have hmem : (i, b) ∈ WThread.pend ⟨.idle, .load ((i, b) :: rest) slots, todo, calls⟩ ++ P := by
        simp [WThread.pend, Mode.pend]
      obtain ⟨e1, hI1⟩ := hI.setHash (b := b) (hn.lt _ hmem) (hn.fresh _ hmem)
      refine ⟨{ c with hashes := c.hashes.set i b }, ⟨.idle, .load rest (slots ++ [⟨i, 0, 0⟩]), todo, calls⟩, [(i, b)],
        by simp only [e1, bind_ok], ?_, SameShape.setHash c i b, List.Perm.refl _, trivial, ?_, StashGrows.of_eq rfl⟩
      · apply hI1.perm
        rw [List.perm_iff_count]
        intro x
        simp only [WThread.held, Act.held, Mode.held, Slot.key, List.nil_append, List.map_append, List.map_cons, List.map_nil,
          List.count_append, List.count_cons, List.count_nil]
        omega
      · have : (((i, b) :: rest).length + slots.length ≤ 8) := hm
        simp only [List.length_cons] at this
        show rest.length + (slots ++ [_]).length ≤ 8
        simp only [List.length_append, List.length_cons, List.length_nil]; omega
    | nil =>
      have hl : slots.length ≤ 8 := by have : ([] : List (Nat × Block)).length + slots.length ≤ 8 := hm; simpa using this
      obtain ⟨m, e, h1, h2, h3⟩ := loopHead_spec (todo := todo) hI hl
      refine ⟨c, ⟨.idle, m, todo, calls⟩, [], by simp only [e, bind_ok], ?_, SameShape.refl c, ?_, trivial, h3,
        StashGrows.of_eq rfl⟩
      · rw [List.append_nil]
        show Inv c (m.held ++ held) H
        rw [h1]; exact hI
      · show (todo ++ calls.flatten).Perm (m.pend ++ (todo ++ calls.flatten))
        rw [h2]; exact List.Perm.refl _
  | swap pend out =>
    cases pend with
    | nil =>
      refine ⟨c, ⟨.idle, .refill out [], todo, calls⟩, [], rfl, ?_, SameShape.refl c, List.Perm.refl _, trivial,
        ⟨hm.1, ?_, ?_⟩, StashGrows.of_eq rfl⟩
      · rw [List.append_nil]
        simpa [WThread.held, Act.held, Mode.held] using hI
      · have := hm.2.1; simpa using this
      · have h1 := hm.2.1; have h2 := hm.2.2.1
        simp only [List.length_nil] at h1; show out.length ≤ todo.length; omega
    | cons q rest =>
      obtain ⟨s, a⟩ := q
      have hI' : Inv c ((s.idx, s.h) :: (rest.map (fun p => p.1.key) ++ slotsHeld out ++ held)) H := hI
      have haddr : a = addrOf c s.idx s.h := hm.2.2.2 (s, a) (List.mem_cons_self ..)
      subst haddr
      have hs := SameShape.setBin c (addrOf c s.idx s.h) (pack s.idx s.h)
      refine ⟨_, _, [], rfl, ?_, hs, List.Perm.refl _, trivial, ⟨hm.1, ?_, hm.2.2.1, ?_⟩, StashGrows.of_eq rfl⟩
      · rw [List.append_nil]
        show Inv _ ((rest.map (fun p => p.1.key) ++ slotsHeld (out ++ [_])) ++ held) H
        rcases hI'.swap with ⟨_, h2, h3⟩ | ⟨_, h2, h3⟩
        · rw [slotsHeld_append, slotsHeld_cons_null _ _ h2]
          simpa [slotsHeld] using h3
        · rw [slotsHeld_append, slotsHeld_cons _ _ h2]
          apply h3.perm
          rw [List.perm_iff_count]
          intro x
          simp only [slotsHeld, List.filter_nil, List.map_nil, List.count_append, List.count_cons, List.count_nil]
          omega
      · have := hm.2.1
        simp only [List.length_append, List.length_cons, List.length_nil] at this ⊢; omega
      · intro x hx
        have := hm.2.2.2 x (List.mem_cons_of_mem _ hx)
        rw [this]
        unfold addrOf
        simp
  | refill pend out =>
    cases pend with
    | nil =>
      have hI' : Inv c (out.map Slot.key ++ held) H := by simpa [Mode.held, slotsHeld] using hI
      have hl : out.length ≤ 8 := by have := hm.2.1; simpa using this
      obtain ⟨m, e, h1, h2, h3⟩ := loopHead_spec (todo := todo) hI' hl
      refine ⟨c, ⟨.idle, m, todo, calls⟩, [], by simp only [e, bind_ok], ?_, SameShape.refl c, ?_, trivial, h3,
        StashGrows.of_eq rfl⟩
      · rw [List.append_nil]
        show Inv c (m.held ++ held) H
        rw [h1]; exact hI'
      · show (todo ++ calls.flatten).Perm (m.pend ++ (todo ++ calls.flatten))
        rw [h2]; exact List.Perm.refl _
    | cons s pend =>
      obtain ⟨m1, m2, m3⟩ := hm
      simp only [List.length_cons] at m2 m3
      simp only []
      unfold refillStep
      by_cases hnull : s.idx = nullIdx
      · rw [if_pos hnull]
        refine takeItem_spec (P := P) rfl rfl ?_ hn m1 (by omega) (by simp only []; omega)
        simpa [Mode.held, slotsHeld_cons_null s pend hnull] using hI
      · rw [if_neg hnull]
        have hI' : Inv c ((s.idx, s.h) :: (slotsHeld pend ++ out.map Slot.key ++ held)) H := by
          simpa [Mode.held, slotsHeld_cons s pend hnull] using hI
        split
        · refine ⟨_, _, [], rfl, ?_, SameShape.refl c, List.Perm.refl _, trivial, ⟨m1, ?_, ?_⟩, StashGrows.of_eq rfl⟩
          · rw [List.append_nil]
            have := hI'.rehash ((1 + s.h) % 3) (by rw [m1]; exact Nat.mod_lt _ (by omega))
            apply this.perm
            rw [List.perm_iff_count]
            intro x
            simp only [WThread.held, Act.held, Mode.held, Slot.key, List.nil_append, List.map_append, List.map_cons,
              List.map_nil, List.count_append, List.count_cons, List.count_nil]
            omega
          · simp only [List.length_append, List.length_cons, List.length_nil]; omega
          · show pend.length ≤ todo.length; omega
        · refine ⟨_, _, [], rfl, ?_, SameShape.refl c, List.Perm.refl _, ⟨Nat.zero_le _, by intro j hj; omega⟩,
            ⟨m1, by omega, by show pend.length + 1 ≤ todo.length; omega⟩, StashGrows.of_eq rfl⟩
          rw [List.append_nil]
          exact hI'
  | fill pend out =>
    exact takeItem_spec (P := P) rfl rfl hI hn hm.1 hm.2.1 hm.2.2
  | finish slots =>
    cases slots with
    | cons s rest =>
      have hne : s.idx ≠ nullIdx := hI.slots_ne (s := s) (by simp [Mode.held])
      simp only []
      rw [if_pos hne]
      refine ⟨_, _, [], rfl, ?_, SameShape.refl c, List.Perm.refl _, trivial, trivial, StashGrows.of_eq rfl⟩
      rw [List.append_nil]
      exact hI
    | nil =>
      simp only []
      unfold restStep
      cases todo with
      | cons q rest =>
        obtain ⟨i, b⟩ := q
        have hmem : (i, b) ∈ WThread.pend ⟨.idle, .finish [], (i, b) :: rest, calls⟩ ++ P := by
          simp [WThread.pend]
        obtain ⟨e1, hI1⟩ := hI.setHash (b := b) (hn.lt _ hmem) (hn.fresh _ hmem)
        exact ⟨{ c with hashes := c.hashes.set i b }, ⟨.probing i 0 0, .finish [], rest, calls⟩, [(i, b)],
          by simp only [e1, bind_ok], hI1, SameShape.setHash c i b, List.Perm.refl _, trivial, trivial,
          StashGrows.of_eq rfl⟩
      | nil =>
        cases calls with
        | nil =>
          exact ⟨c, ⟨.idle, .finish [], [], []⟩, [], rfl, by rw [List.append_nil]; exact hI, SameShape.refl c,
            List.Perm.refl _, trivial, trivial, StashGrows.of_eq rfl⟩
        | cons call calls =>
          refine ⟨c, ⟨.idle, .load (call.take 8) [], call.drop 8, calls⟩, [], rfl, by rw [List.append_nil]; exact hI,
            SameShape.refl c, ?_, trivial, ?_, StashGrows.of_eq rfl⟩
          · simp [WThread.pend, Mode.pend, ← List.append_assoc]
          · show (call.take 8).length + ([] : List Slot).length ≤ 8
            rw [List.length_take]; simp only [List.length_nil]; omega

theorem wideStep_spec {c : Cuckoo} {t : WThread} {held : List (Nat × Nat)} {H P : List (Nat × Block)}
    (hI : Inv c (t.held ++ held) H) (hn : NewItems c H (t.pend ++ P)) (hok : ActOk c t.act) (hm : ModeOk c t.mode t.todo)
    (hr : NoRace c t.act) : StepOk c t held H (wideStep c t) := by
  unfold wideStep
  by_cases ha : t.act ≠ .idle
  · rw [if_pos ha]
    have hI' : Inv c (t.act.held ++ (t.mode.held ++ held)) H := by rw [← List.append_assoc]; exact hI
    obtain ⟨c', a', e, h1, h2, h3, h4⟩ := insertStep_spec hI' hok hr
    rw [e]
    refine ⟨c', _, [], rfl, ?_, h2, List.Perm.refl _, h3, ?_, h4⟩
    · rw [List.append_nil, WThread.held, List.append_assoc]; exact h1
    · have h1' : Inv c' (a'.held ++ (t.mode.held ++ held)) (H ++ []) := by rw [List.append_nil]; exact h1
      exact hm.mono hI' h1' h2 (fun p hp => List.mem_append_right _ (List.mem_append_left _ hp))
  · rw [if_neg ha]
    exact modeStep_spec (Classical.not_not.mp ha) hI hn hm

/-- The invariant of a run. -/
structure WInv (c : Cuckoo) (ts : List WThread) (items H : List (Nat × Block)) : Prop where
  inv : Inv c (ts.flatMap WThread.held) H
  new : NewItems c H (ts.flatMap WThread.pend)
  mem : ∀ x, x ∈ items ↔ x ∈ H ∨ x ∈ ts.flatMap WThread.pend
  acts : ∀ t ∈ ts, ActOk c t.act
  modes : ∀ t ∈ ts, ModeOk c t.mode t.todo

theorem wideRunStep_spec {c : Cuckoo} {ts : List WThread} {items H : List (Nat × Block)} {n : Nat}
    {t : WThread} (h : WInv c ts items H) (ht : ts[n]? = some t) (hr : NoRace c t.act) :
    ∃ c' t' H', wideStep c t = .ok (c', t') ∧ WInv c' (ts.set n t') items H' ∧ SameShape c c' := by
  obtain ⟨a, b, e1, e2⟩ := split_at ts n t ht
  have hp1 := flatMap_mid WThread.held a b t
  have hp2 := flatMap_mid WThread.pend a b t
  rw [← e1] at hp1 hp2
  have htm : t ∈ ts := by rw [e1]; simp
  obtain ⟨c', t', used, f1, f2, f3, f4, f5, f5', f6⟩ :=
    wideStep_spec (h.inv.perm hp1) (h.new.perm hp2) (h.acts t htm) (h.modes t htm) hr
  have hp3 : (ts.flatMap WThread.pend).Perm (used ++ (ts.set n t').flatMap WThread.pend) := by
    rw [e2 t']
    refine hp2.trans ((f4.append_right _).trans ?_)
    rw [List.append_assoc]
    exact (flatMap_mid WThread.pend a b t').symm.append_left used
  have hn := h.new.perm hp3
  have hI' : Inv c' ((ts.set n t').flatMap WThread.held) (H ++ used) := by
    rw [e2 t']
    exact f2.perm (flatMap_mid WThread.held a b t').symm
  have hsplit : ∀ s ∈ ts.set n t', s = t' ∨ s ∈ ts := by
    intro s hs
    rw [e2 t'] at hs
    rw [e1]
    simp only [List.mem_append, List.mem_cons] at hs ⊢
    rcases hs with hs | hs | hs
    · exact Or.inr (Or.inl hs)
    · exact Or.inl hs
    · exact Or.inr (Or.inr (Or.inr hs))
  refine ⟨c', t', H ++ used, f1, ⟨hI', (hn.split f3).2, ?_, ?_, ?_⟩, f3⟩
  · intro x
    rw [h.mem x, hp3.mem_iff, List.mem_append, List.mem_append, or_assoc]
  · intro s hs
    rcases hsplit s hs with rfl | hs'
    · exact f5
    · exact (h.acts s hs').mono f6
  · intro s hs
    rcases hsplit s hs with rfl | hs'
    · exact f5'
    · exact (h.modes s hs').mono h.inv hI' f3
        (fun p hp => List.mem_flatMap.mpr ⟨s, hs', List.mem_append_right _ hp⟩)

/-! ### runs -/

theorem runWide_noStash (sched : List Nat) {c : Cuckoo} {ts : List WThread} {items H : List (Nat × Block)}
    (h : WInv c ts items H) (h0 : c.stash.length = 0) :
    ∃ c' ts' H', runWide c ts sched = .ok (c', ts') ∧ WInv c' ts' items H' := by
  induction sched generalizing c ts H with
  | nil => exact ⟨c, ts, H, rfl, h⟩
  | cons n sched ih =>
    unfold runWide
    cases ht : ts[n]? with
    | none => exact ih h h0
    | some t =>
      have hr : NoRace c t.act := by
        intro i x k he
        have := h.acts t (List.mem_of_getElem? ht)
        rw [he] at this
        have := this.1
        omega
      obtain ⟨c', t', H', e, h1, h2⟩ := wideRunStep_spec h ht hr
      simp only []
      rw [e, bind_ok]
      exact ih h1 (by rw [h2.2.2.2.2]; exact h0)

/-- A thread that is about to exchange a stash entry finds it empty. -/
def WideFresh (c : Cuckoo) (ts : List WThread) : Prop := ∀ t ∈ ts, NoRace c t.act

theorem setHash_stash {c c' : Cuckoo} {i : Nat} {b : Block} {t t' : WThread}
    (h : ((setHash c i b).bind fun d => Out.ok (d, t)) = .ok (c', t')) : c'.stash = c.stash ∧ t' = t := by
  unfold setHash at h
  split at h
  · simp [bind_ok] at h
    obtain ⟨rfl, rfl⟩ := h
    exact ⟨rfl, rfl⟩
  · simp [Out.bind] at h

theorem takeItem_stash {c c' : Cuckoo} {t t' : WThread} {pend out : List Slot} (h : takeItem c t pend out = .ok (c', t')) :
    c'.stash = c.stash ∧ t'.act = t.act := by
  unfold takeItem at h
  split at h
  · simp at h
  · obtain ⟨h1, h2⟩ := setHash_stash h
    exact ⟨h1, by rw [h2]⟩

theorem loopHead_stash {c c' : Cuckoo} {t t' : WThread} {slots : List Slot}
    (h : ((loopHead c slots t.todo).bind fun m => Out.ok (c, { t with mode := m })) = .ok (c', t')) :
    c'.stash = c.stash ∧ t'.act = t.act := by
  unfold loopHead at h
  repeat' split at h
  all_goals simp [Out.bind] at h
  all_goals (obtain ⟨rfl, rfl⟩ := h; exact ⟨rfl, rfl⟩)

theorem modeStep_stash {c c' : Cuckoo} {t t' : WThread} (ha : t.act = .idle) (h : modeStep c t = .ok (c', t')) :
    c'.stash = c.stash ∧ NoRace c' t'.act := by
  have key : ∀ {d : Cuckoo} {a : Act}, (a = .idle ∨ (∃ i x k, a = .probing i x k) ∨ ∃ i x k, a = .scanning i x k) →
      NoRace d a := by
    intro d a hh i x k he
    rcases hh with hh | ⟨_, _, _, hh⟩ | ⟨_, _, _, hh⟩ <;> rw [hh] at he <;> simp at he
  unfold modeStep at h
  split at h
  · obtain ⟨h1, h2⟩ := setHash_stash h
    exact ⟨h1, key (Or.inl (by rw [h2]; exact ha))⟩
  · obtain ⟨h1, h2⟩ := loopHead_stash h
    exact ⟨h1, key (Or.inl (by rw [h2]; exact ha))⟩
  · simp at h
    obtain ⟨rfl, rfl⟩ := h
    exact ⟨rfl, key (Or.inl ha)⟩
  · simp at h
    obtain ⟨rfl, rfl⟩ := h
    exact ⟨rfl, key (Or.inl ha)⟩
  · unfold refillStep at h
    split at h
    · obtain ⟨h1, h2⟩ := takeItem_stash h
      exact ⟨h1, key (Or.inl (by rw [h2]; exact ha))⟩
    · split at h
      · simp at h
        obtain ⟨rfl, rfl⟩ := h
        exact ⟨rfl, key (Or.inl ha)⟩
      · simp at h
        obtain ⟨rfl, rfl⟩ := h
        exact ⟨rfl, key (Or.inr (Or.inr ⟨_, _, _, rfl⟩))⟩
  · obtain ⟨h1, h2⟩ := loopHead_stash h
    exact ⟨h1, key (Or.inl (by rw [h2]; exact ha))⟩
  · obtain ⟨h1, h2⟩ := takeItem_stash h
    exact ⟨h1, key (Or.inl (by rw [h2]; exact ha))⟩
  · split at h
    · simp at h
      obtain ⟨rfl, rfl⟩ := h
      exact ⟨rfl, key (Or.inr (Or.inl ⟨_, _, _, rfl⟩))⟩
    · simp at h
      obtain ⟨rfl, rfl⟩ := h
      exact ⟨rfl, key (Or.inl ha)⟩
  · unfold restStep at h
    split at h
    · obtain ⟨h1, h2⟩ := setHash_stash h
      exact ⟨h1, key (Or.inr (Or.inl ⟨_, _, _, by rw [h2]⟩))⟩
    · split at h
      · simp at h
        obtain ⟨rfl, rfl⟩ := h
        exact ⟨rfl, key (Or.inl ha)⟩
      · simp at h
        obtain ⟨rfl, rfl⟩ := h
        exact ⟨rfl, key (Or.inl ha)⟩

theorem wideStep_stash {c c' : Cuckoo} {t t' : WThread} (h : wideStep c t = .ok (c', t')) :
    (c'.stash = c.stash ∨ t.act.inStash = true) ∧ NoRace c' t'.act := by
  unfold wideStep at h
  split at h
  · cases e : insertStep c t.act with
    | ok p =>
      obtain ⟨d, a⟩ := p
      rw [e, bind_ok] at h
      simp at h
      obtain ⟨rfl, rfl⟩ := h
      obtain ⟨h1, h2⟩ := insertStep_stash e
      refine ⟨?_, fun i x k he => h2 i x k he⟩
      rcases h1 with h1 | ⟨i, x, k, h1⟩
      · exact Or.inl h1
      · right; rw [h1]; rfl
    | throw => rw [e] at h; simp [Out.bind] at h
    | ub => rw [e] at h; simp [Out.bind] at h
  · rename_i hidle
    obtain ⟨h1, h2⟩ := modeStep_stash (Classical.not_not.mp hidle) h
    exact ⟨Or.inl h1, h2⟩

theorem WideFresh.step {c c' : Cuckoo} {ts : List WThread} {n : Nat} {t t' : WThread} (h : WideFresh c ts)
    (hex : (ts.filter (·.act.inStash)).length ≤ 1) (ht : ts[n]? = some t) (e : wideStep c t = .ok (c', t')) :
    WideFresh c' (ts.set n t') := by
  obtain ⟨a, b, e1, e2⟩ := split_at ts n t ht
  obtain ⟨h1, h2⟩ := wideStep_stash e
  rw [e2 t']
  intro s hs
  have hs' : s = t' ∨ s ∈ a ∨ s ∈ b := by
    simp only [List.mem_append, List.mem_cons] at hs
    rcases hs with hs | hs | hs
    · exact Or.inr (Or.inl hs)
    · exact Or.inl hs
    · exact Or.inr (Or.inr hs)
  rcases hs' with rfl | hs'
  · exact h2
  · have hsts : s ∈ ts := by
      rw [e1]; simp only [List.mem_append, List.mem_cons]
      rcases hs' with hs' | hs'
      · exact Or.inl hs'
      · exact Or.inr (Or.inr hs')
    rcases h1 with h1 | h1
    · intro i x k he
      rw [h1]; exact h s hsts i x k he
    · intro i x k he
      exfalso
      have hin : s.act.inStash = true := by rw [he]; rfl
      rw [e1, List.filter_append, List.filter_cons_of_pos (p := fun x : WThread => x.act.inStash) h1, List.length_append, List.length_cons] at hex
      rcases hs' with hs' | hs'
      · have := List.length_pos_of_mem (List.mem_filter (p := fun x : WThread => x.act.inStash).mpr ⟨hs', hin⟩)
        omega
      · have := List.length_pos_of_mem (List.mem_filter (p := fun x : WThread => x.act.inStash).mpr ⟨hs', hin⟩)
        omega

theorem runWide_exclusive (sched : List Nat) {c : Cuckoo} {ts : List WThread} {items H : List (Nat × Block)}
    (h : WInv c ts items H) (hf : WideFresh c ts) (hex : wideExclusive c ts sched = true) :
    ∃ c' ts' H', runWide c ts sched = .ok (c', ts') ∧ WInv c' ts' items H' := by
  induction sched generalizing c ts H with
  | nil => exact ⟨c, ts, H, rfl, h⟩
  | cons n sched ih =>
    unfold runWide
    unfold wideExclusive at hex
    rw [Bool.and_eq_true] at hex
    obtain ⟨hx1, hx2⟩ := hex
    have hx1 := of_decide_eq_true hx1
    cases ht : ts[n]? with
    | none => rw [ht] at hx2; exact ih h hf hx2
    | some t =>
      rw [ht] at hx2
      obtain ⟨c', t', H', e, h1, _⟩ := wideRunStep_spec h ht (hf t (List.mem_of_getElem? ht))
      simp only [e] at hx2
      simp only []
      rw [e, bind_ok]
      exact ih h1 (hf.step hx1 ht e) hx2

end Verif.Cuckoo
