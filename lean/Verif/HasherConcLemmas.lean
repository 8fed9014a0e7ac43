import Verif.HasherConcModel
import Verif.HasherLemmas
import Verif.CuckooConc
/-
Lemmas: invariant of the concurrent insertion into `CuckooHasher`.
-/
namespace Verif.Hasher
open Verif Verif.Cuckoo

/-- Items in the hands of a thread. -/
def Act.held (nh : Nat) : Act → List (Nat × Nat)
  | .idle => []
  | .copy _ slots => slots
  | .top _ slots => slots
  | .fetch _ todo got => got.map (·.1) ++ todo
  | .swap _ todo olds => (olds.filter (· ≠ emptyVal)).map (evicted nh) ++ todo.map (·.1)
  | .stash slots _ => slots
  | .probe i h _ => [(i, h)]
  | .push i h _ => [(i, h)]
  | .failed slots => slots

/-- Items of the current call that are not copied yet. -/
def Act.pend : Act → List (Nat × List Nat)
  | .copy todo _ => todo
  | _ => []

def Thread.pend (t : Thread) : List (Nat × List Nat) := t.act.pend ++ t.calls.flatMap Call.items

/-- All entries before `k` are occupied. -/
def Filled (c : Hasher) (k : Nat) : Prop :=
  k ≤ c.stash.length ∧ ∀ j, j < k → c.stash.getD j emptyVal ≠ emptyVal

/-- What a thread knows about the table. -/
def ActOk (c : Hasher) : Act → Prop
  | .fetch _ _ got => ∀ p ∈ got, p.2 = addrOf c p.1.1 p.1.2
  | .swap _ todo _ => ∀ p ∈ todo, p.2 = addrOf c p.1.1 p.1.2
  | .stash _ j => Filled c j
  | .push _ _ k => Filled c k
  | .failed slots => slots ≠ [] ∧ Filled c c.stash.length
  | _ => True

/-- What the steps of other threads keep. -/
structure Stable (c c' : Hasher) (H : List (Nat × List Nat)) : Prop where
  shape : SameShape c c'
  addr : ∀ i ∈ H.map (·.1), ∀ h, addrOf c' i h = addrOf c i h
  grows : ∀ j, c.stash.getD j emptyVal ≠ emptyVal → c'.stash.getD j emptyVal ≠ emptyVal

theorem Stable.refl (c : Hasher) (H : List (Nat × List Nat)) : Stable c c H :=
  ⟨SameShape.refl c, fun _ _ _ => rfl, fun _ h => h⟩

theorem Stable.setBin (c : Hasher) (H : List (Nat × List Nat)) (a v : Nat) :
    Stable c { c with bins := c.bins.set a v } H :=
  ⟨SameShape.setBin c a v, fun i _ h => by simp [addrOf], fun _ h => h⟩

theorem Stable.setStash (c : Hasher) (H : List (Nat × List Nat)) (a v : Nat) (hv : v ≠ emptyVal) :
    Stable c { c with stash := c.stash.set a v } H := by
  refine ⟨SameShape.setStash c a v, fun i _ h => rfl, fun j hj => ?_⟩
  show (c.stash.set a v).getD j emptyVal ≠ emptyVal
  by_cases hlt : a < c.stash.length
  · rw [getD_set _ _ _ _ hlt]
    split
    · exact hv
    · exact hj
  · rw [List.set_eq_of_length_le (by omega)]
    exact hj

theorem Stable.setRow (c : Hasher) (H : List (Nat × List Nat)) (i : Nat) (v : List Nat) (hi : i ∉ H.map (·.1)) :
    Stable c { c with rows := c.rows.set i v } H := by
  refine ⟨SameShape.setRow c i v, fun j hj h => ?_, fun j hj => hj⟩
  have : i ≠ j := fun e => hi (e ▸ hj)
  simp [addrOf, List.getD, List.getElem?_set, this]

theorem Filled.mono {c c' : Hasher} {H : List (Nat × List Nat)} {k : Nat} (h : Filled c k) (hs : Stable c c' H) :
    Filled c' k :=
  ⟨by rw [hs.shape.2.2.2]; exact h.1, fun j hj => hs.grows j (h.2 j hj)⟩

theorem ActOk.mono {c c' : Hasher} {H : List (Nat × List Nat)} {a : Act} {nh : Nat} (h : ActOk c a) (hs : Stable c c' H)
    (hh : ∀ p ∈ a.held nh, p.1 ∈ H.map (·.1)) : ActOk c' a := by
  cases a with
  | fetch rem todo got =>
    intro p hp
    rw [hs.addr _ (hh p.1 (List.mem_append_left _ (List.mem_map_of_mem hp)))]
    exact h p hp
  | swap rem todo olds =>
    intro p hp
    rw [hs.addr _ (hh p.1 (List.mem_append_right _ (List.mem_map_of_mem hp)))]
    exact h p hp
  | stash slots j => exact Filled.mono h hs
  | push i h' k => exact Filled.mono h hs
  | failed slots =>
    refine ⟨h.1, ?_⟩
    rw [hs.shape.2.2.2]
    exact h.2.mono hs
  | _ => trivial

theorem pack_held_ne {c : Hasher} {held : List (Nat × Nat)} {H : List (Nat × List Nat)} {i h : Nat}
    (hI : Inv c ((i, h) :: held) H) : pack i h ≠ emptyVal := by
  obtain ⟨h2, h3⟩ := hI.held_ok _ (List.mem_cons_self ..)
  have hs := hI.small
  have hn := hI.nh_le
  have hl := hI.lt h2
  simp only at h2 h3 hl
  exact pack_ne_empty i h (by omega) (by omega)

theorem NewItems.perm {c : Hasher} {H l l' : List (Nat × List Nat)} (h : NewItems c H l)
    (hp : l.Perm l') : NewItems c H l' :=
  ⟨fun p hp' => h.lt p (hp.mem_iff.mpr hp'), fun p hp' => h.len p (hp.mem_iff.mpr hp'),
    (hp.map _).nodup_iff.mp h.nodup, fun p hp' => h.fresh p (hp.mem_iff.mpr hp')⟩

/-- The result of a step. -/
def StepOk (c : Hasher) (nh : Nat) (held : List (Nat × Nat)) (H pend : List (Nat × List Nat)) (r : Out (Hasher × Act)) :
    Prop :=
  ∃ c' a' used, r = .ok (c', a') ∧ Inv c' (a'.held nh ++ held) (H ++ used) ∧ Stable c c' H ∧
    pend.Perm (used ++ a'.pend) ∧ ActOk c' a'

theorem StepOk.none {c c' : Hasher} {a' : Act} {nh : Nat} {held : List (Nat × Nat)} {H : List (Nat × List Nat)}
    {pend : List (Nat × List Nat)}
    (hI : Inv c' (a'.held nh ++ held) H) (hs : Stable c c' H) (hp : pend = a'.pend) (ha : ActOk c' a') :
    StepOk c nh held H pend (.ok (c', a')) :=
  ⟨c', a', [], rfl, by rw [List.append_nil]; exact hI, hs, by rw [hp]; exact List.Perm.refl _, ha⟩

theorem actStep_spec {c : Hasher} {a : Act} {held : List (Nat × Nat)} {H pend : List (Nat × List Nat)}
    (hI : Inv c (a.held c.numHashes ++ held) H) (hn : NewItems c H (a.pend ++ pend)) (hok : ActOk c a) :
    StepOk c c.numHashes held H a.pend (actStep c a) ∨
      (actStep c a = .ub ∧ Overflow c H.length ∧ ∃ i h k, a = .push i h k) := by
  have hpos := hI.nh_pos
  cases a with
  | idle => exact Or.inl (StepOk.none hI (Stable.refl c H) rfl trivial)
  | failed slots => exact Or.inl (StepOk.none hI (Stable.refl c H) rfl hok)
  | copy todo slots =>
    left
    cases todo with
    | nil => exact StepOk.none hI (Stable.refl c H) rfl trivial
    | cons p todo =>
      obtain ⟨i, hs⟩ := p
      have hm : (i, hs) ∈ Act.pend (.copy ((i, hs) :: todo) slots) ++ pend := by simp [Act.pend]
      have h1 := hn.lt _ hm
      have h2 := hn.len _ hm
      have h3 := hn.fresh _ hm
      simp only [actStep]
      rw [if_pos ⟨h1, h2⟩]
      refine ⟨_, _, [(i, hs)], rfl, ?_, Stable.setRow c H i _ h3, List.Perm.refl _, trivial⟩
      refine (hI.setRow h1 h3 h2).perm ?_
      show ((i, 0) :: (slots ++ held)).Perm (slots ++ [(i, 0)] ++ held)
      rw [List.append_assoc]
      exact List.perm_middle.symm
  | top rem slots =>
    left
    cases rem with
    | zero => exact StepOk.none hI (Stable.refl c H) rfl ⟨Nat.zero_le _, fun j hj => by omega⟩
    | succ rem =>
      simp only [actStep]
      by_cases hs : slots = []
      · rw [if_pos hs]
        subst hs
        exact StepOk.none hI (Stable.refl c H) rfl ⟨Nat.zero_le _, fun j hj => by omega⟩
      · rw [if_neg hs]
        exact StepOk.none hI (Stable.refl c H) rfl (fun p hp => by simp at hp)
  | fetch rem todo got =>
    left
    cases todo with
    | nil =>
      refine StepOk.none (c' := c) (a' := .swap rem got []) ?_ (Stable.refl c H) rfl hok
      simpa [Act.held] using hI
    | cons s todo =>
      have hm := hI.held_ok s (by simp [Act.held])
      simp only [actStep]
      rw [if_pos (hI.addrOk hm.1 hm.2)]
      refine StepOk.none ?_ (Stable.refl c H) rfl ?_
      · simpa [Act.held] using hI
      · intro p hp
        rcases List.mem_append.mp hp with hp | hp
        · exact hok p hp
        · rw [List.mem_singleton] at hp
          rw [hp]
  | swap rem todo olds =>
    left
    cases todo with
    | nil =>
      simp only [actStep]
      rw [if_neg (by omega)]
      refine StepOk.none ?_ (Stable.refl c H) rfl trivial
      simpa [Act.held, compact1_eq] using hI
    | cons p todo =>
      obtain ⟨⟨i, h⟩, a⟩ := p
      have ha : a = addrOf c i h := hok _ (List.mem_cons_self ..)
      have hlt : a < c.bins.length := by rw [ha]; exact addrOf_lt c i h hI.bins_pos
      simp only [actStep]
      rw [if_pos hlt]
      subst ha
      have hI' : Inv c ((i, h) :: ((olds.filter (· ≠ emptyVal)).map (evicted c.numHashes) ++ todo.map (·.1) ++ held)) H := by
        refine hI.perm ?_
        simp only [Act.held, List.map_cons, List.append_assoc, List.cons_append]
        exact List.perm_middle
      have hst := Stable.setBin c H (addrOf c i h) (pack i h)
      refine StepOk.none ?_ hst rfl ?_
      · rcases hI'.swap with ⟨he, h3⟩ | ⟨he, h3⟩
        · refine h3.perm ?_
          simp only [Act.held, List.filter_append, List.map_append]
          rw [List.filter_cons_of_neg (by rw [he]; decide)]
          simp
        · refine (h3.rehash _ (Nat.mod_lt (1 + hashOf (c.bins.getD (addrOf c i h) emptyVal)) hpos)).perm ?_
          simp only [Act.held, List.filter_append, List.map_append]
          rw [List.filter_cons_of_pos (p := fun x => decide (x ≠ emptyVal)) (decide_eq_true he)]
          simp only [List.filter_nil, List.map_cons, List.map_nil, List.append_assoc, List.cons_append, List.nil_append]
          exact List.perm_middle.symm
      · intro p hp
        rw [hst.addr p.1.1 (hI'.held_ok p.1 (by
          refine List.mem_cons_of_mem _ (List.mem_append_left _ (List.mem_append_right _ (List.mem_map_of_mem hp)))) |>.1)]
        exact hok p (List.mem_cons_of_mem _ hp)
  | stash slots j =>
    left
    cases slots with
    | nil => exact StepOk.none hI (Stable.refl c H) rfl trivial
    | cons s rest =>
      obtain ⟨i, h⟩ := s
      have hI' : Inv c ((i, h) :: (rest ++ held)) H := hI
      simp only [actStep]
      by_cases hj : j < c.stash.length
      · rw [if_pos hj]
        obtain ⟨h1, h2⟩ := hI'.stashSwap hj hok.2
        have hst := Stable.setStash c H j (pack i h) (pack_held_ne hI')
        have hfill : Filled { c with stash := c.stash.set j (pack i h) } (j + 1) :=
          ⟨by show j + 1 ≤ (c.stash.set j _).length; rw [List.length_set]; exact hj, h2⟩
        rcases h1 with ⟨he, h3⟩ | ⟨he, h3⟩
        · rw [if_pos he]
          exact StepOk.none h3 hst rfl hfill
        · rw [if_neg he]
          exact StepOk.none h3 hst rfl hfill
      · rw [if_neg hj]
        refine StepOk.none hI (Stable.refl c H) rfl ⟨by simp, ?_⟩
        have := hok.1
        have e : j = c.stash.length := by omega
        rw [← e]
        exact hok
  | probe i h rem =>
    left
    have hI' : Inv c ((i, h) :: held) H := hI
    have hm := hI'.held_ok (i, h) (List.mem_cons_self ..)
    have hst := Stable.setBin c H (addrOf c i h) (pack i h)
    simp only [actStep]
    rw [if_pos (hI.addrOk hm.1 hm.2)]
    rcases hI'.swap with ⟨he, h3⟩ | ⟨he, h3⟩
    · rw [if_pos he]
      exact StepOk.none h3 hst rfl trivial
    · rw [if_neg he]
      cases rem with
      | zero => exact StepOk.none h3 hst rfl ⟨Nat.zero_le _, fun j hj => by omega⟩
      | succ rem =>
        simp only []
        rw [if_neg (by omega)]
        exact StepOk.none (h3.rehash _ (Nat.mod_lt _ hpos)) hst rfl trivial
  | push i h k =>
    have hI' : Inv c ((i, h) :: held) H := hI
    simp only [actStep]
    by_cases hj : k < c.stash.length
    · left
      rw [if_pos hj]
      obtain ⟨h1, h2⟩ := hI'.stashSwap hj hok.2
      have hst := Stable.setStash c H k (pack i h) (pack_held_ne hI')
      have hfill : Filled { c with stash := c.stash.set k (pack i h) } (k + 1) :=
        ⟨by show k + 1 ≤ (c.stash.set k _).length; rw [List.length_set]; exact hj, h2⟩
      rcases h1 with ⟨he, h3⟩ | ⟨he, h3⟩
      · rw [if_pos he]
        exact StepOk.none h3 hst rfl trivial
      · rw [if_neg he]
        exact StepOk.none h3 hst rfl hfill
    · right
      rw [if_neg hj]
      have := hok.1
      exact ⟨rfl, ⟨c, i, h, held, H, SameShape.refl c, hI', fun j hj' => hok.2 j (by omega), Nat.le_refl _⟩, i, h, k, rfl⟩

theorem startCall_spec {c : Hasher} {x : Call} {held : List (Nat × Nat)} {H pend : List (Nat × List Nat)}
    (hI : Inv c held H) (hn : NewItems c H (x.items ++ pend)) (hw : x.wsOk = true) :
    StepOk c c.numHashes held H x.items (startCall c x) := by
  cases x with
  | batch items ws =>
    simp only [startCall]
    rw [if_pos (by simpa [Call.wsOk] using hw)]
    exact StepOk.none (a' := .copy items []) hI (Stable.refl c H) rfl trivial
  | single i hs =>
    have hm : (i, hs) ∈ Call.items (.single i hs) ++ pend := by simp [Call.items]
    have h1 := hn.lt _ hm
    have h2 := hn.len _ hm
    have h3 := hn.fresh _ hm
    simp only at h1 h2 h3
    have hp := hI.nh_pos
    simp only [startCall]
    rw [if_pos ⟨h1, hp, h2⟩, hI.blank i h1 h3, if_neg (by simp [List.getD, hp])]
    exact ⟨_, _, [(i, hs)], rfl, hI.setRow h1 h3 h2, Stable.setRow c H i _ h3, List.Perm.refl _, trivial⟩

/-- The result of a step of a thread. -/
theorem threadStep_spec {c : Hasher} {t : Thread} {held : List (Nat × Nat)} {H pend : List (Nat × List Nat)}
    (hI : Inv c (t.act.held c.numHashes ++ held) H) (hn : NewItems c H (t.pend ++ pend)) (hok : ActOk c t.act)
    (hw : ∀ x ∈ t.calls, x.wsOk = true) :
    (∃ c' t' used, threadStep c t = .ok (c', t') ∧ Inv c' (t'.act.held c.numHashes ++ held) (H ++ used) ∧ Stable c c' H ∧
        t.pend.Perm (used ++ t'.pend) ∧ ActOk c' t'.act ∧ ∀ x ∈ t'.calls, x.wsOk = true) ∨
      (threadStep c t = .ub ∧ Overflow c H.length ∧ ∃ i h k, t.act = .push i h k) := by
  obtain ⟨a, calls⟩ := t
  have hgen : StepOk c c.numHashes held H a.pend (actStep c a) ∨
      (actStep c a = .ub ∧ Overflow c H.length ∧ ∃ i h k, a = .push i h k) :=
    actStep_spec (pend := calls.flatMap Call.items ++ pend) hI
      (by rw [← List.append_assoc]; exact hn) hok
  have hmain : (threadStep c ⟨a, calls⟩ = (actStep c a).bind fun p => .ok (p.1, ⟨p.2, calls⟩)) →
    (∃ c' t' used, threadStep c ⟨a, calls⟩ = .ok (c', t') ∧ Inv c' (t'.act.held c.numHashes ++ held) (H ++ used) ∧
        Stable c c' H ∧ (Thread.pend ⟨a, calls⟩).Perm (used ++ t'.pend) ∧ ActOk c' t'.act ∧
        ∀ x ∈ t'.calls, x.wsOk = true) ∨
      (threadStep c ⟨a, calls⟩ = .ub ∧ Overflow c H.length ∧ ∃ i h k, a = .push i h k) := by
    intro e
    rw [e]
    rcases hgen with ⟨c', a', used, e', g1, g2, g3, g4⟩ | ⟨e', g⟩
    · left
      rw [e', bind_ok]
      refine ⟨c', ⟨a', calls⟩, used, rfl, g1, g2, ?_, g4, hw⟩
      show (a.pend ++ _).Perm (used ++ (a'.pend ++ _))
      rw [← List.append_assoc]
      exact g3.append_right _
    · right
      rw [e']
      exact ⟨rfl, g⟩
  cases a with
  | idle =>
    left
    cases calls with
    | nil => exact ⟨c, ⟨.idle, []⟩, [], rfl, by rw [List.append_nil]; exact hI, Stable.refl c H, List.Perm.refl _, trivial, hw⟩
    | cons x rest =>
      obtain ⟨c', a', used, e, g1, g2, g3, g4⟩ := startCall_spec (pend := rest.flatMap Call.items ++ pend)
        (by simpa [Act.held] using hI) (by
          have : NewItems c H (x.items ++ (rest.flatMap Call.items ++ pend)) := by
            simpa [Thread.pend, Act.pend, List.append_assoc] using hn
          exact this) (hw x (List.mem_cons_self ..))
      refine ⟨c', ⟨a', rest⟩, used, by simp only [threadStep, e, bind_ok], g1, g2, ?_, g4,
        fun y hy => hw y (List.mem_cons_of_mem _ hy)⟩
      show ([] ++ (x.items ++ rest.flatMap Call.items)).Perm (used ++ (a'.pend ++ rest.flatMap Call.items))
      rw [List.nil_append, ← List.append_assoc]
      exact g3.append_right _
  | failed slots =>
    left
    exact ⟨c, ⟨.failed slots, calls⟩, [], rfl, by rw [List.append_nil]; exact hI, Stable.refl c H, List.Perm.refl _, hok, hw⟩
  | _ => exact hmain rfl

/-- The invariant of a run. -/
structure CInv (c : Hasher) (ts : List Thread) (items H : List (Nat × List Nat)) : Prop where
  inv : Inv c (ts.flatMap fun t => t.act.held c.numHashes) H
  new : NewItems c H (ts.flatMap Thread.pend)
  all : items.Perm (H ++ ts.flatMap Thread.pend)
  acts : ∀ t ∈ ts, ActOk c t.act
  ws : ∀ t ∈ ts, ∀ x ∈ t.calls, x.wsOk = true

theorem runStep_spec {c : Hasher} {ts : List Thread} {items H : List (Nat × List Nat)} {n : Nat}
    {t : Thread} (h : CInv c ts items H) (ht : ts[n]? = some t) :
    (∃ c' t' H', threadStep c t = .ok (c', t') ∧ CInv c' (ts.set n t') items H' ∧ SameShape c c') ∨
      (threadStep c t = .ub ∧ Overflow c items.length ∧ ∃ i h k, t.act = .push i h k) := by
  obtain ⟨a, b, e1, e2⟩ := split_at ts n t ht
  have hp1 := flatMap_mid (fun t : Thread => t.act.held c.numHashes) a b t
  have hp2 := flatMap_mid Thread.pend a b t
  rw [← e1] at hp1 hp2
  have htm : t ∈ ts := by rw [e1]; simp
  rcases threadStep_spec (h.inv.perm hp1) (h.new.perm hp2) (h.acts t htm) (h.ws t htm) with
    ⟨c', t', used, f1, f2, f3, f4, f5, f6⟩ | ⟨f1, f2, f3⟩
  · left
    have hp3 : (ts.flatMap Thread.pend).Perm (used ++ (ts.set n t').flatMap Thread.pend) := by
      rw [e2 t']
      refine hp2.trans ((f4.append_right _).trans ?_)
      rw [List.append_assoc]
      exact (flatMap_mid Thread.pend a b t').symm.append_left used
    have hn := h.new.perm hp3
    have hmem : ∀ s ∈ ts.set n t', s = t' ∨ s ∈ ts := by
      intro s hs
      rw [e2 t'] at hs
      rw [e1]
      simp only [List.mem_append, List.mem_cons] at hs ⊢
      rcases hs with hs | hs | hs
      · exact Or.inr (Or.inl hs)
      · exact Or.inl hs
      · exact Or.inr (Or.inr (Or.inr hs))
    refine ⟨c', t', H ++ used, f1, ⟨?_, (hn.split f3.shape).2, ?_, ?_, ?_⟩, f3.shape⟩
    · rw [e2 t', f3.shape.1]
      exact f2.perm (flatMap_mid (fun t : Thread => t.act.held c.numHashes) a b t').symm
    · refine h.all.trans ?_
      rw [List.append_assoc]
      exact hp3.append_left H
    · intro s hs
      rcases hmem s hs with rfl | hs'
      · exact f5
      · exact (h.acts s hs').mono f3 fun p hp =>
          (h.inv.held_ok p (List.mem_flatMap.mpr ⟨s, hs', hp⟩)).1
    · intro s hs
      rcases hmem s hs with rfl | hs'
      · exact f6
      · exact h.ws s hs'
  · right
    refine ⟨f1, f2.mono (SameShape.refl c) ?_, f3⟩
    rw [h.all.length_eq, List.length_append]
    omega

theorem runSched_spec (sched : List Nat) {c : Hasher} {ts : List Thread}
    {items H : List (Nat × List Nat)} (h : CInv c ts items H) :
    (∃ c' ts' H', runSched c ts sched = .ok (c', ts') ∧ CInv c' ts' items H' ∧ SameShape c c') ∨
      (runSched c ts sched = .ub ∧ Overflow c items.length) := by
  induction sched generalizing c ts H with
  | nil => exact Or.inl ⟨c, ts, H, rfl, h, SameShape.refl c⟩
  | cons n sched ih =>
    unfold runSched
    cases ht : ts[n]? with
    | none => exact ih h
    | some t =>
      rcases runStep_spec h ht with ⟨c', t', H', e, h1, h2⟩ | ⟨e, h1, _⟩
      · simp only []
        rw [e, bind_ok]
        rcases ih h1 with ⟨c2, ts2, H2, e2, g1, g2⟩ | ⟨e2, g1⟩
        · exact Or.inl ⟨c2, ts2, H2, e2, g1, h2.trans g2⟩
        · exact Or.inr ⟨e2, g1.mono h2 (Nat.le_refl _)⟩
      · simp only []
        rw [e]
        exact Or.inr ⟨rfl, h1⟩

/-! ### batches only -/

/-- The thread is not inside `insert` and will not call it. -/
def NoSingle (t : Thread) : Prop :=
  (∀ i h rem, t.act ≠ .probe i h rem) ∧ (∀ i h k, t.act ≠ .push i h k) ∧ ∀ i hs, Call.single i hs ∉ t.calls

theorem actStep_noSingle {c c' : Hasher} {a a' : Act} (h1 : ∀ i h rem, a ≠ .probe i h rem) (h2 : ∀ i h k, a ≠ .push i h k)
    (h : actStep c a = .ok (c', a')) : (∀ i h rem, a' ≠ .probe i h rem) ∧ ∀ i h k, a' ≠ .push i h k := by
  cases a with
  | probe i h' rem => exact absurd rfl (h1 _ _ _)
  | push i h' k => exact absurd rfl (h2 _ _ _)
  | _ =>
    unfold actStep at h
    split at h <;> (try split at h) <;> (try split at h) <;>
      first
        | exact absurd ‹_ = Act.push _ _ _› (h2 _ _ _)
        | exact absurd ‹_ = Act.probe _ _ _› (h1 _ _ _)
        | (simp only [Out.ok.injEq, Prod.mk.injEq] at h
           obtain ⟨_, rfl⟩ := h
           exact ⟨fun _ _ _ => by simp, fun _ _ _ => by simp⟩)
        | (simp_all; done)

theorem threadStep_noSingle {c c' : Hasher} {t t' : Thread} (hs : NoSingle t) (h : threadStep c t = .ok (c', t')) :
    NoSingle t' := by
  obtain ⟨a, calls⟩ := t
  obtain ⟨h1, h2, h3⟩ := hs
  have hgen : ((actStep c a).bind fun p => Out.ok (p.1, (⟨p.2, calls⟩ : Thread))) = .ok (c', t') → NoSingle t' := by
    intro h
    cases e : actStep c a with
    | ok p =>
      rw [e, bind_ok] at h
      simp only [Out.ok.injEq, Prod.mk.injEq] at h
      obtain ⟨_, rfl⟩ := h
      have := actStep_noSingle (a' := p.2) (c' := p.1) h1 h2 e
      exact ⟨this.1, this.2, h3⟩
    | throw => rw [e] at h; cases h
    | ub => rw [e] at h; cases h
  cases a with
  | idle =>
    cases calls with
    | nil =>
      simp only [threadStep, Out.ok.injEq, Prod.mk.injEq] at h
      obtain ⟨_, rfl⟩ := h
      exact ⟨h1, h2, h3⟩
    | cons x rest =>
      cases x with
      | single i hs => exact absurd (List.mem_cons_self ..) (h3 i hs)
      | batch items ws =>
        simp only [threadStep, startCall] at h
        split at h
        · simp only [bind_ok, Out.ok.injEq, Prod.mk.injEq] at h
          obtain ⟨_, rfl⟩ := h
          exact ⟨fun _ _ _ => by simp, fun _ _ _ => by simp, fun i hs hm => h3 i hs (List.mem_cons_of_mem _ hm)⟩
        · cases h
  | failed slots =>
    simp only [threadStep, Out.ok.injEq, Prod.mk.injEq] at h
    obtain ⟨_, rfl⟩ := h
    exact ⟨h1, h2, h3⟩
  | _ => exact hgen h

theorem runSched_batches (sched : List Nat) {c : Hasher} {ts : List Thread}
    {items H : List (Nat × List Nat)} (h : CInv c ts items H) (hs : ∀ t ∈ ts, NoSingle t) :
    runSched c ts sched ≠ .ub := by
  induction sched generalizing c ts H with
  | nil => simp [runSched]
  | cons n sched ih =>
    unfold runSched
    cases ht : ts[n]? with
    | none => exact ih h hs
    | some t =>
      have htm := List.mem_of_getElem? ht
      rcases runStep_spec h ht with ⟨c', t', H', e, h1, h2⟩ | ⟨e, _, i, hh, k, he⟩
      · simp only []
        rw [e, bind_ok]
        refine ih h1 fun s hs' => ?_
        rcases List.mem_or_eq_of_mem_set hs' with hs' | rfl
        · exact hs s hs'
        · exact threadStep_noSingle (hs t htm) e
      · exact absurd he ((hs t htm).2.1 i hh k)

/-! ### termination -/

/-- Bound on the steps of a thread from the test of the while loop on. -/
def topCost (ss rem k : Nat) : Nat := 1 + rem * (2 * k + 3) + (ss + 2)

def callCost (ss : Nat) : Call → Nat
  | .single _ _ => 1 + (101 + ss + 1)
  | .batch items _ => 1 + (items.length + 1 + topCost ss 100 items.length)

/-- Bound on the steps of a thread inside its call. -/
def actCost (ss : Nat) : Act → Nat
  | .idle => 0
  | .failed _ => 0
  | .copy todo slots => todo.length + 1 + topCost ss 100 (todo.length + slots.length)
  | .top rem slots => topCost ss rem slots.length
  | .fetch rem todo got => todo.length + 1 + (todo.length + got.length) + 1 + topCost ss rem (todo.length + got.length)
  | .swap rem todo olds => todo.length + 1 + topCost ss rem (todo.length + olds.length)
  | .stash _ j => ss - j + 1
  | .probe _ _ rem => rem + 1 + ss + 1
  | .push _ _ k => ss - k + 1

/-- Bound on the steps of a thread. -/
def cost (ss : Nat) (t : Thread) : Nat := actCost ss t.act + (t.calls.map (callCost ss)).sum

theorem topCost_mono (ss rem k k' : Nat) (h : k ≤ k') : topCost ss rem k ≤ topCost ss rem k' := by
  unfold topCost
  have : rem * (2 * k + 3) ≤ rem * (2 * k' + 3) := Nat.mul_le_mul_left _ (by omega)
  omega

theorem actStep_cost {c c' : Hasher} {a a' : Act} (h0 : a ≠ .idle) (hf : ∀ s, a ≠ .failed s)
    (h : actStep c a = .ok (c', a')) : actCost c.stash.length a' < actCost c.stash.length a := by
  cases a with
  | idle => exact absurd rfl h0
  | failed s => exact absurd rfl (hf s)
  | copy todo slots =>
    cases todo with
    | nil =>
      simp only [actStep, Out.ok.injEq, Prod.mk.injEq] at h
      obtain ⟨_, rfl⟩ := h
      simp [actCost]
    | cons p todo =>
      simp only [actStep] at h
      split at h
      · simp only [Out.ok.injEq, Prod.mk.injEq] at h
        obtain ⟨_, rfl⟩ := h
        simp only [actCost, List.length_append, List.length_cons, List.length_nil]
        rw [show todo.length + (slots.length + (0 + 1)) = todo.length + 1 + slots.length by omega]
        omega
      · cases h
  | top rem slots =>
    cases rem with
    | zero =>
      simp only [actStep, Out.ok.injEq, Prod.mk.injEq] at h
      obtain ⟨_, rfl⟩ := h
      simp [actCost, topCost]; omega
    | succ rem =>
      simp only [actStep] at h
      split at h
      · simp only [Out.ok.injEq, Prod.mk.injEq] at h
        obtain ⟨_, rfl⟩ := h
        simp only [actCost, topCost]; omega
      · simp only [Out.ok.injEq, Prod.mk.injEq] at h
        obtain ⟨_, rfl⟩ := h
        simp only [actCost, topCost, List.length_nil, Nat.add_zero, Nat.succ_mul]
        omega
  | fetch rem todo got =>
    cases todo with
    | nil =>
      simp only [actStep, Out.ok.injEq, Prod.mk.injEq] at h
      obtain ⟨_, rfl⟩ := h
      simp only [actCost, List.length_nil, Nat.add_zero, Nat.zero_add]
      omega
    | cons s todo =>
      simp only [actStep] at h
      split at h
      · simp only [Out.ok.injEq, Prod.mk.injEq] at h
        obtain ⟨_, rfl⟩ := h
        simp only [actCost, List.length_append, List.length_cons, List.length_nil]
        rw [show todo.length + (got.length + (0 + 1)) = todo.length + 1 + got.length by omega]
        omega
      · cases h
  | swap rem todo olds =>
    cases todo with
    | nil =>
      simp only [actStep] at h
      split at h
      · cases h
      · simp only [Out.ok.injEq, Prod.mk.injEq] at h
        obtain ⟨_, rfl⟩ := h
        have hl : (compact1 c.numHashes olds).length ≤ olds.length := by
          rw [compact1_eq, List.length_map]
          exact List.length_filter_le _ _
        have := topCost_mono c.stash.length rem _ _ hl
        simp only [actCost, List.length_nil, Nat.zero_add]
        omega
    | cons s todo =>
      obtain ⟨s, a⟩ := s
      simp only [actStep] at h
      split at h
      · simp only [Out.ok.injEq, Prod.mk.injEq] at h
        obtain ⟨_, rfl⟩ := h
        simp only [actCost, List.length_append, List.length_cons, List.length_nil]
        rw [show todo.length + (olds.length + (0 + 1)) = todo.length + 1 + olds.length by omega]
        omega
      · cases h
  | stash slots j =>
    cases slots with
    | nil =>
      simp only [actStep, Out.ok.injEq, Prod.mk.injEq] at h
      obtain ⟨_, rfl⟩ := h
      simp only [actCost]; omega
    | cons s rest =>
      simp only [actStep] at h
      split at h
      · split at h <;>
        · simp only [Out.ok.injEq, Prod.mk.injEq] at h
          obtain ⟨_, rfl⟩ := h
          simp only [actCost]; omega
      · simp only [Out.ok.injEq, Prod.mk.injEq] at h
        obtain ⟨_, rfl⟩ := h
        simp only [actCost]; omega
  | probe i h' rem =>
    simp only [actStep] at h
    split at h
    · split at h
      · simp only [Out.ok.injEq, Prod.mk.injEq] at h
        obtain ⟨_, rfl⟩ := h
        simp only [actCost]; omega
      · cases rem with
        | zero =>
          simp only [Out.ok.injEq, Prod.mk.injEq] at h
          obtain ⟨_, rfl⟩ := h
          simp only [actCost]; omega
        | succ rem =>
          simp only [] at h
          split at h
          · cases h
          · simp only [Out.ok.injEq, Prod.mk.injEq] at h
            obtain ⟨_, rfl⟩ := h
            simp only [actCost]; omega
    · cases h
  | push i h' k =>
    simp only [actStep] at h
    split at h
    · split at h <;>
      · simp only [Out.ok.injEq, Prod.mk.injEq] at h
        obtain ⟨_, rfl⟩ := h
        simp only [actCost]; omega
    · cases h

theorem threadStep_cost {c c' : Hasher} {t t' : Thread} (hd : t.done = false) (hf : t.threw = false)
    (h : threadStep c t = .ok (c', t')) : cost c.stash.length t' < cost c.stash.length t := by
  obtain ⟨a, calls⟩ := t
  have hgen : a ≠ .idle → (∀ s, a ≠ .failed s) →
      ((actStep c a).bind fun p => Out.ok (p.1, (⟨p.2, calls⟩ : Thread))) = .ok (c', t') →
      cost c.stash.length t' < cost c.stash.length ⟨a, calls⟩ := by
    intro h1 h2 h
    cases e : actStep c a with
    | ok p =>
      rw [e, bind_ok] at h
      simp only [Out.ok.injEq, Prod.mk.injEq] at h
      obtain ⟨_, rfl⟩ := h
      have := actStep_cost (a' := p.2) (c' := p.1) h1 h2 e
      unfold cost
      simp only
      omega
    | throw => rw [e] at h; cases h
    | ub => rw [e] at h; cases h
  cases a with
  | idle =>
    cases calls with
    | nil => simp [Thread.done] at hd
    | cons x rest =>
      cases x with
      | single i hs =>
        simp only [threadStep, startCall] at h
        split at h
        · split at h <;>
          · simp only [bind_ok, Out.ok.injEq, Prod.mk.injEq] at h
            obtain ⟨_, rfl⟩ := h
            simp only [cost, actCost, List.map_cons, List.sum_cons, callCost]
            omega
        · cases h
      | batch items ws =>
        simp only [threadStep, startCall] at h
        split at h
        · simp only [bind_ok, Out.ok.injEq, Prod.mk.injEq] at h
          obtain ⟨_, rfl⟩ := h
          simp only [cost, actCost, List.map_cons, List.sum_cons, callCost, List.length_nil, Nat.add_zero]
          omega
        · cases h
  | failed slots => simp [Thread.threw] at hf
  | _ => exact hgen (by simp) (by simp) h

theorem threadStep_end {c c' : Hasher} {t t' : Thread} (he : t.done = true ∨ t.threw = true)
    (h : threadStep c t = .ok (c', t')) : t' = t := by
  obtain ⟨a, calls⟩ := t
  cases a with
  | idle =>
    rcases he with he | he
    · cases calls with
      | nil =>
        simp only [threadStep, Out.ok.injEq, Prod.mk.injEq] at h
        exact h.2.symm
      | cons x rest => simp [Thread.done] at he
    · simp [Thread.threw] at he
  | failed slots =>
    simp only [threadStep, Out.ok.injEq, Prod.mk.injEq] at h
    exact h.2.symm
  | _ => simp [Thread.done, Thread.threw] at he

/-- A thread ends after as many steps of its own as its cost, whatever the others do. -/
theorem runSched_cost (sched : List Nat) {c c' : Hasher} {ts ts' : List Thread} {items H : List (Nat × List Nat)}
    (hc : CInv c ts items H) (h : runSched c ts sched = .ok (c', ts')) (n : Nat) (t t' : Thread) (ht : ts[n]? = some t)
    (ht' : ts'[n]? = some t') :
    (t'.done = true ∨ t'.threw = true) ∨ cost c.stash.length t' + sched.count n ≤ cost c.stash.length t := by
  induction sched generalizing c ts H t with
  | nil =>
    simp only [runSched, Out.ok.injEq, Prod.mk.injEq] at h
    rw [h.2, ht'] at ht
    cases ht
    exact Or.inr (by simp)
  | cons m sched ih =>
    unfold runSched at h
    cases hm : ts[m]? with
    | none =>
      rw [hm] at h
      rcases ih hc h t ht with e | e
      · exact Or.inl e
      · right
        rw [List.count_cons]
        have : m ≠ n := by rintro rfl; rw [hm] at ht; cases ht
        simp [this]
        exact e
    | some s =>
      rw [hm] at h
      simp only [] at h
      rcases runStep_spec hc hm with ⟨c1, s1, H1, e1, g1, g2⟩ | ⟨e1, _⟩
      · rw [e1, bind_ok] at h
        simp only [] at h
        have hlen : c1.stash.length = c.stash.length := g2.2.2.2
        by_cases hmn : m = n
        · subst hmn
          rw [hm] at ht
          cases ht
          have hlt : m < ts.length := (List.getElem?_eq_some_iff.mp hm).1
          have hget : (ts.set m s1)[m]? = some s1 := by simp [hlt]
          have := ih g1 h s1 hget
          rw [hlen] at this
          by_cases hd : t.done = true ∨ t.threw = true
          · have e := threadStep_end hd e1
            subst e
            left
            rcases this with e | e
            · exact e
            · have hstay := runSched_end sched h m s1 hget hd
              rw [ht'] at hstay
              cases hstay
              exact hd
          · simp only [not_or, Bool.not_eq_true] at hd
            have hlt' := threadStep_cost hd.1 hd.2 e1
            rcases this with e | e
            · exact Or.inl e
            · right
              rw [List.count_cons_self]
              omega
        · have hget : (ts.set m s1)[n]? = some t := by rw [List.getElem?_set_ne hmn]; exact ht
          have := ih g1 h t hget
          rw [hlen] at this
          rw [List.count_cons_of_ne hmn]
          exact this
      · rw [e1] at h
        cases h
where
  runSched_end (sched : List Nat) {c c' : Hasher} {ts ts' : List Thread}
    (h : runSched c ts sched = .ok (c', ts')) (n : Nat) (t : Thread) (ht : ts[n]? = some t)
    (hd : t.done = true ∨ t.threw = true) : ts'[n]? = some t := by
    induction sched generalizing c ts with
    | nil =>
      simp only [runSched, Out.ok.injEq, Prod.mk.injEq] at h
      rw [← h.2]
      exact ht
    | cons m sched ih =>
      unfold runSched at h
      cases hm : ts[m]? with
      | none =>
        rw [hm] at h
        exact ih h ht
      | some s =>
        rw [hm] at h
        simp only [] at h
        cases e1 : threadStep c s with
        | ok p =>
          rw [e1, bind_ok] at h
          refine ih h ?_
          by_cases hmn : m = n
          · subst hmn
            rw [hm] at ht
            cases ht
            have hlt : m < ts.length := (List.getElem?_eq_some_iff.mp hm).1
            have := threadStep_end (c' := p.1) (t' := p.2) hd e1
            simp [hlt, this]
          · rw [List.getElem?_set_ne hmn]
            exact ht
        | throw => rw [e1] at h; cases h
        | ub => rw [e1] at h; cases h

theorem runSched_length (sched : List Nat) {c c' : Hasher} {ts ts' : List Thread}
    (h : runSched c ts sched = .ok (c', ts')) : ts'.length = ts.length := by
  induction sched generalizing c ts with
  | nil =>
    simp only [runSched, Out.ok.injEq, Prod.mk.injEq] at h
    rw [h.2]
  | cons m sched ih =>
    unfold runSched at h
    cases hm : ts[m]? with
    | none => rw [hm] at h; exact ih h
    | some s =>
      rw [hm] at h
      simp only [] at h
      cases e1 : threadStep c s with
      | ok p =>
        rw [e1, bind_ok] at h
        rw [ih h, List.length_set]
      | throw => rw [e1] at h; cases h
      | ub => rw [e1] at h; cases h

theorem cost_pos {ss : Nat} {t : Thread} (hd : t.done = false) (hf : t.threw = false) : 0 < cost ss t := by
  obtain ⟨a, calls⟩ := t
  cases a with
  | idle =>
    cases calls with
    | nil => simp [Thread.done] at hd
    | cons x rest =>
      cases x <;> simp only [cost, List.map_cons, List.sum_cons, callCost] <;> omega
  | failed s => simp [Thread.threw] at hf
  | _ => simp only [cost, actCost, topCost] <;> omega

end Verif.Hasher
