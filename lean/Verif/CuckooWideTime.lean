import Verif.CuckooWide
/-
Lemmas: every thread gets through. The cost of a thread depends on the thread, the reinsert limit and the size of the stash only,
and each of its own steps lowers it.
-/
namespace Verif.Cuckoo
open Verif

/-- The thread has made all its calls, or one of them has thrown. -/
def WThread.over (t : WThread) : Bool :=
  t.done || match t.act with
    | .failed _ _ => true
    | _ => false

/-- Cost of slots; `k` depends on the place in the loop. -/
def slotCost (L S k : Nat) (slots : List Slot) : Nat := (slots.map fun s => 6 * (L - s.tries) + S + k).sum

def Act.cost (L S : Nat) : Act → Nat
  | .idle => 0
  | .failed _ _ => 0
  | .probing _ _ tries => (L - tries) + S + 4
  | .scanning _ _ k => (S - k) + 2
  | .swapping _ _ _ => 1

def Mode.cost (L S : Nat) : Mode → Nat
  | .load items slots => items.length * (6 * L + S + 9) + slotCost L S 8 slots + 2
  | .swap pend out => slotCost L S 5 (pend.map (·.1)) + slotCost L S 4 out + 1
  | .refill pend out => slotCost L S 4 pend + slotCost L S 8 out
  | .fill pend out => slotCost L S 4 pend + slotCost L S 8 out + 1
  | .finish slots => slotCost L S 5 slots

/-- Number of steps that suffice for these calls, with reinsert limit `L` and `S` stash entries. -/
def callsCost (L S : Nat) (calls : List (List (Nat × Block))) : Nat :=
  (calls.map fun call => call.length * (6 * L + S + 9) + 3).sum

def WThread.cost (L S : Nat) (t : WThread) : Nat :=
  t.act.cost L S + t.mode.cost L S + t.todo.length * (6 * L + S + 9) + callsCost L S t.calls

def Tries (L : Nat) (slots : List Slot) : Prop := ∀ s ∈ slots, s.tries ≤ L

def Act.timeOk (L : Nat) : Act → Prop
  | .probing _ _ tries => tries ≤ L
  | _ => True

def Mode.timeOk (L : Nat) : Mode → List (Nat × Block) → Prop
  | .load items slots, todo => Tries L slots ∧ (items = [] → slots = [] → todo = [])
  | .swap pend out, _ => Tries L (pend.map (·.1)) ∧ Tries L out ∧ 0 < pend.length + out.length
  | .refill pend out, _ => Tries L pend ∧ Tries L out ∧ 0 < pend.length + out.length
  | .fill pend out, _ => Tries L pend ∧ Tries L out
  | .finish slots, _ => Tries L slots

theorem slotCost_cons (L S k : Nat) (s : Slot) (l : List Slot) :
    slotCost L S k (s :: l) = 6 * (L - s.tries) + S + k + slotCost L S k l := by simp [slotCost]

theorem slotCost_append (L S k : Nat) (a b : List Slot) : slotCost L S k (a ++ b) = slotCost L S k a + slotCost L S k b := by
  simp [slotCost]

theorem slotCost_nil (L S k : Nat) : slotCost L S k [] = 0 := rfl

theorem slotCost_raise (L S k d : Nat) (l : List Slot) : slotCost L S (k + d) l = slotCost L S k l + l.length * d := by
  induction l with
  | nil => simp [slotCost]
  | cons s l ih => rw [slotCost_cons, slotCost_cons, ih, List.length_cons, Nat.add_mul]; omega

theorem Tries.append {L : Nat} {a b : List Slot} : Tries L (a ++ b) ↔ Tries L a ∧ Tries L b := by
  unfold Tries
  simp only [List.mem_append]
  exact ⟨fun h => ⟨fun s hs => h s (Or.inl hs), fun s hs => h s (Or.inr hs)⟩,
    fun h s hs => hs.elim (h.1 s) (h.2 s)⟩

theorem Tries.cons {L : Nat} {s : Slot} {b : List Slot} : Tries L (s :: b) ↔ s.tries ≤ L ∧ Tries L b := by
  unfold Tries; simp

theorem Tries.nil (L : Nat) : Tries L [] := by simp [Tries]

/-- Reinsert limit and size of the stash stay. -/
def SameTime (c c' : Cuckoo) : Prop := c'.limit = c.limit ∧ c'.stash.length = c.stash.length

theorem insertStep_time {c c' : Cuckoo} {a a' : Act} (h : insertStep c a = .ok (c', a')) (hok : a.timeOk c.limit) :
    SameTime c c' ∧ a'.timeOk c.limit ∧
      (a = .idle ∨ (∃ i x, a = .failed i x) ∨ a'.cost c.limit c.stash.length < a.cost c.limit c.stash.length) := by
  cases a with
  | idle => simp [insertStep] at h; obtain ⟨rfl, rfl⟩ := h; exact ⟨⟨rfl, rfl⟩, trivial, Or.inl rfl⟩
  | failed i x => simp [insertStep] at h; obtain ⟨rfl, rfl⟩ := h; exact ⟨⟨rfl, rfl⟩, trivial, Or.inr (Or.inl ⟨_, _, rfl⟩)⟩
  | probing i x tries =>
    have hok : tries ≤ c.limit := hok
    unfold insertStep at h
    simp only [] at h
    repeat' split at h
    all_goals first
      | (simp at h; done)
      | skip
    · simp at h; obtain ⟨rfl, rfl⟩ := h
      exact ⟨⟨rfl, rfl⟩, trivial, Or.inr (Or.inr (by simp only [Act.cost]; omega))⟩
    · rename_i ht _
      simp at h; obtain ⟨rfl, rfl⟩ := h
      exact ⟨⟨rfl, rfl⟩, (by show tries + 1 ≤ c.limit; omega), Or.inr (Or.inr (by simp only [Act.cost]; omega))⟩
    · simp at h; obtain ⟨rfl, rfl⟩ := h
      exact ⟨⟨rfl, rfl⟩, trivial, Or.inr (Or.inr (by simp only [Act.cost]; omega))⟩
  | scanning i x k =>
    unfold insertStep at h
    simp only [] at h
    repeat' split at h
    all_goals first
      | (simp at h; done)
      | (simp at h; obtain ⟨rfl, rfl⟩ := h
         exact ⟨⟨rfl, rfl⟩, trivial, Or.inr (Or.inr (by simp only [Act.cost]; omega))⟩)
  | swapping i x k =>
    unfold insertStep at h
    simp only [] at h
    split at h
    · simp at h; obtain ⟨rfl, rfl⟩ := h
      exact ⟨⟨rfl, by simp⟩, trivial, Or.inr (Or.inr (by simp [Act.cost]))⟩
    · simp at h

theorem setHash_time {c c' : Cuckoo} {i : Nat} {b : Block} {t t' : WThread}
    (h : ((setHash c i b).bind fun d => Out.ok (d, t)) = .ok (c', t')) : SameTime c c' ∧ t' = t := by
  unfold setHash at h
  split at h
  · simp [bind_ok] at h
    obtain ⟨rfl, rfl⟩ := h
    exact ⟨⟨rfl, rfl⟩, rfl⟩
  · simp [Out.bind] at h

/-- What a step of an idle thread does to its cost. -/
def Cheaper (c : Cuckoo) (t : WThread) (c' : Cuckoo) (t' : WThread) : Prop :=
  SameTime c c' ∧ t'.act.timeOk c.limit ∧ t'.mode.timeOk c.limit t'.todo ∧
    (t.done = true ∨ t'.cost c.limit c.stash.length < t.cost c.limit c.stash.length)

theorem takeItem_time {c c' : Cuckoo} {t t' : WThread} {pend out : List Slot} (h : takeItem c t pend out = .ok (c', t'))
    (ha : t.act = .idle) (hp : Tries c.limit pend) (ho : Tries c.limit out)
    (hc : slotCost c.limit c.stash.length 4 pend + slotCost c.limit c.stash.length 8 out ≤
      t.mode.cost c.limit c.stash.length) : Cheaper c t c' t' := by
  obtain ⟨act, mode, todo, calls⟩ := t
  unfold takeItem at h
  simp only at h ha hc
  subst ha
  split at h
  · simp at h
  · obtain ⟨h1, rfl⟩ := setHash_time h
    refine ⟨h1, trivial, ⟨hp, ?_, ?_⟩, Or.inr ?_⟩
    · rw [Tries.append]; exact ⟨ho, by simp [Tries]⟩
    · simp only [List.length_append, List.length_cons, List.length_nil]; omega
    · simp only [WThread.cost, Mode.cost, Act.cost, slotCost_append, slotCost_cons, slotCost_nil, List.length_cons, Nat.add_mul]
      simp only [Mode.cost] at hc
      omega

theorem loopHead_time {c c' : Cuckoo} {t t' : WThread} {slots : List Slot}
    (h : ((loopHead c slots t.todo).bind fun m => Out.ok (c, { t with mode := m })) = .ok (c', t'))
    (ha : t.act = .idle) (hs : Tries c.limit slots) (h0 : slots = [] → t.todo = [])
    (hc : slotCost c.limit c.stash.length 5 slots < t.mode.cost c.limit c.stash.length)
    (hc1 : slots ≠ [] → slotCost c.limit c.stash.length 5 slots + 1 < t.mode.cost c.limit c.stash.length) :
    Cheaper c t c' t' := by
  obtain ⟨act, mode, todo, calls⟩ := t
  simp only at h ha hc hc1 h0
  subst ha
  unfold loopHead at h
  split at h
  · rename_i h8
    have hne : slots ≠ [] := by intro e; rw [h0 e] at h8; simp at h8
    split at h
    · simp [Out.bind] at h
      obtain ⟨rfl, rfl⟩ := h
      refine ⟨⟨rfl, rfl⟩, trivial, ⟨?_, Tries.nil _, ?_⟩, Or.inr ?_⟩
      · simpa [List.map_map, Function.comp_def] using hs
      · have := List.length_pos_iff.mpr hne; simpa using this
      · have := hc1 hne
        have e : slots.map ((fun x : Slot × Nat => x.1) ∘ fun s => (s, addrOf c s.idx s.h)) = slots := by
          rw [show ((fun x : Slot × Nat => x.1) ∘ fun s => (s, addrOf c s.idx s.h)) = id from rfl, List.map_id]
        simp only [WThread.cost, Mode.cost, slotCost_nil, List.map_map, e]
        simp only [Mode.cost] at this
        omega
    · simp [Out.bind] at h
  · simp [Out.bind] at h
    obtain ⟨rfl, rfl⟩ := h
    refine ⟨⟨rfl, rfl⟩, trivial, hs, Or.inr ?_⟩
    simp only [WThread.cost, Mode.cost]
    simp only [Mode.cost] at hc
    omega

theorem modeStep_time {c c' : Cuckoo} {t t' : WThread} (ha : t.act = .idle) (hm : t.mode.timeOk c.limit t.todo)
    (h : modeStep c t = .ok (c', t')) : Cheaper c t c' t' := by
  obtain ⟨act, mode, todo, calls⟩ := t
  simp only at ha hm
  subst ha
  cases mode with
  | load items slots =>
    cases items with
    | cons q rest =>
      obtain ⟨i, b⟩ := q
      simp only [modeStep] at h
      obtain ⟨h1, rfl⟩ := setHash_time (t := ⟨.idle, .load rest (slots ++ [⟨i, 0, 0⟩]), todo, calls⟩) h
      refine ⟨h1, trivial, ⟨?_, ?_⟩, Or.inr ?_⟩
      · rw [Tries.append]; exact ⟨hm.1, by simp [Tries]⟩
      · intro _ e; simp at e
      · simp only [WThread.cost, Mode.cost, slotCost_append, slotCost_cons, slotCost_nil, List.length_cons, Nat.add_mul]
        omega
    | nil =>
      have hr : slotCost c.limit c.stash.length 8 slots = _ := slotCost_raise c.limit c.stash.length 5 3 slots
      refine loopHead_time (t := ⟨.idle, .load [] slots, todo, calls⟩) h rfl hm.1 (hm.2 rfl) ?_ ?_
      · simp only [Mode.cost, List.length_nil, Nat.zero_mul]; omega
      · intro _; simp only [Mode.cost, List.length_nil, Nat.zero_mul]; omega
  | swap pend out =>
    cases pend with
    | nil =>
      simp only [modeStep] at h
      simp at h
      obtain ⟨rfl, rfl⟩ := h
      refine ⟨⟨rfl, rfl⟩, trivial, ⟨hm.2.1, Tries.nil _, ?_⟩, Or.inr ?_⟩
      · have := hm.2.2; simpa using this
      · simp only [WThread.cost, Mode.cost, slotCost_nil, List.map_nil]; omega
    | cons q rest =>
      obtain ⟨s, a⟩ := q
      simp only [modeStep] at h
      simp at h
      obtain ⟨rfl, rfl⟩ := h
      obtain ⟨m1, m2, m3⟩ := hm
      rw [List.map_cons, Tries.cons] at m1
      refine ⟨⟨rfl, rfl⟩, trivial, ⟨m1.2, ?_, ?_⟩, Or.inr ?_⟩
      · rw [Tries.append, Tries.cons]; exact ⟨m2, m1.1, Tries.nil _⟩
      · simp only [List.length_append, List.length_cons, List.length_nil]; omega
      · simp only [WThread.cost, Mode.cost, slotCost_append, slotCost_cons, slotCost_nil, List.map_cons]
        omega
  | refill pend out =>
    cases pend with
    | nil =>
      obtain ⟨m1, m2, m3⟩ := hm
      have hr : slotCost c.limit c.stash.length 8 out = _ := slotCost_raise c.limit c.stash.length 5 3 out
      have hl : 0 < out.length := by simpa using m3
      refine loopHead_time (t := ⟨.idle, .refill [] out, todo, calls⟩) h rfl m2 ?_ ?_ ?_
      · intro e; rw [e] at hl; simp at hl
      · simp only [Mode.cost, slotCost_nil]; omega
      · intro _; simp only [Mode.cost, slotCost_nil]; omega
    | cons s pend =>
      obtain ⟨m1, m2, m3⟩ := hm
      rw [Tries.cons] at m1
      simp only [modeStep] at h
      unfold refillStep at h
      split at h
      · refine takeItem_time h rfl m1.2 m2 ?_
        simp only [Mode.cost, slotCost_cons]; omega
      · split at h
        · rename_i ht
          simp at h
          obtain ⟨rfl, rfl⟩ := h
          refine ⟨⟨rfl, rfl⟩, trivial, ⟨m1.2, ?_, ?_⟩, Or.inr ?_⟩
          · rw [Tries.append, Tries.cons]; exact ⟨m2, by show s.tries + 1 ≤ c.limit; omega, Tries.nil _⟩
          · simp only [List.length_append, List.length_cons, List.length_nil]; omega
          · simp only [WThread.cost, Mode.cost, slotCost_append, slotCost_cons, slotCost_nil]
            omega
        · simp at h
          obtain ⟨rfl, rfl⟩ := h
          refine ⟨⟨rfl, rfl⟩, trivial, ⟨m1.2, m2⟩, Or.inr ?_⟩
          simp only [WThread.cost, Mode.cost, Act.cost, slotCost_cons]
          omega
  | fill pend out => exact takeItem_time h rfl hm.1 hm.2 (Nat.le_succ _)
  | finish slots =>
    cases slots with
    | cons s rest =>
      have m := Tries.cons.mp hm
      simp only [modeStep] at h
      split at h
      · simp at h
        obtain ⟨rfl, rfl⟩ := h
        refine ⟨⟨rfl, rfl⟩, m.1, m.2, Or.inr ?_⟩
        simp only [WThread.cost, Mode.cost, Act.cost, slotCost_cons]
        omega
      · simp at h
        obtain ⟨rfl, rfl⟩ := h
        refine ⟨⟨rfl, rfl⟩, trivial, m.2, Or.inr ?_⟩
        simp only [WThread.cost, Mode.cost, slotCost_cons]
        omega
    | nil =>
      simp only [modeStep] at h
      unfold restStep at h
      cases todo with
      | cons q rest =>
        obtain ⟨i, b⟩ := q
        obtain ⟨h1, rfl⟩ := setHash_time (t := ⟨.probing i 0 0, .finish [], rest, calls⟩) h
        refine ⟨h1, Nat.zero_le _, Tries.nil _, Or.inr ?_⟩
        simp only [WThread.cost, Mode.cost, Act.cost, slotCost_nil, List.length_cons, Nat.add_mul]
        omega
      | nil =>
        cases calls with
        | nil =>
          simp at h
          obtain ⟨rfl, rfl⟩ := h
          exact ⟨⟨rfl, rfl⟩, trivial, Tries.nil _, Or.inl (by decide)⟩
        | cons call calls =>
          simp at h
          obtain ⟨rfl, rfl⟩ := h
          refine ⟨⟨rfl, rfl⟩, trivial, ⟨Tries.nil _, ?_⟩, Or.inr ?_⟩
          · intro e _
            have hl := congrArg List.length e
            rw [List.length_take, List.length_nil] at hl
            show call.drop 8 = []
            exact List.drop_eq_nil_of_le (by omega)
          · have hl : (call.take 8).length + (call.drop 8).length = call.length := by
              rw [← List.length_append, List.take_append_drop]
            have hl' := congrArg (· * (6 * c.limit + c.stash.length + 9)) hl
            simp only [Nat.add_mul (call.take 8).length] at hl'
            simp only [WThread.cost, Mode.cost, Act.cost, slotCost_nil, callsCost, List.map_cons, List.sum_cons, List.length_nil,
              Nat.zero_mul]
            omega

theorem wideStep_time {c c' : Cuckoo} {t t' : WThread} (ha : t.act.timeOk c.limit) (hm : t.mode.timeOk c.limit t.todo)
    (h : wideStep c t = .ok (c', t')) :
    SameTime c c' ∧ t'.act.timeOk c.limit ∧ t'.mode.timeOk c.limit t'.todo ∧
      ((t.over = true ∧ t' = t) ∨
        (t.over = false ∧ t'.cost c.limit c.stash.length < t.cost c.limit c.stash.length)) := by
  unfold wideStep at h
  split at h
  · rename_i hne
    cases e : insertStep c t.act with
    | ok p =>
      obtain ⟨d, a⟩ := p
      rw [e, bind_ok] at h
      simp at h
      obtain ⟨rfl, rfl⟩ := h
      obtain ⟨h1, h2, h3⟩ := insertStep_time e ha
      refine ⟨h1, h2, hm, ?_⟩
      rcases h3 with h3 | ⟨i, x, h3⟩ | h3
      · exact absurd h3 hne
      · left
        rw [h3] at e
        simp [insertStep] at e
        obtain ⟨act, mode, todo, calls⟩ := t
        simp only at h3
        subst h3
        refine ⟨by simp [WThread.over], ?_⟩
        rw [← e.2]
      · right
        refine ⟨?_, by simp only [WThread.cost]; omega⟩
        obtain ⟨act, mode, todo, calls⟩ := t
        simp only at hne h3
        cases act with
        | idle => exact absurd rfl hne
        | failed i x => simp [insertStep] at e; rw [← e.2] at h3; simp at h3
        | probing i x k => simp [WThread.over, WThread.done]
        | scanning i x k => simp [WThread.over, WThread.done]
        | swapping i x k => simp [WThread.over, WThread.done]
    | throw => rw [e] at h; simp [Out.bind] at h
    | ub => rw [e] at h; simp [Out.bind] at h
  · rename_i hidle
    have hact := Classical.not_not.mp hidle
    obtain ⟨h1, h2, h3, h4⟩ := modeStep_time hact hm h
    refine ⟨h1, h2, h3, ?_⟩
    by_cases hd : t.done = true
    · left
      have h4 := hd
      refine ⟨by unfold WThread.over; rw [h4]; rfl, ?_⟩
      obtain ⟨act, mode, todo, calls⟩ := t
      simp [WThread.done, List.isEmpty_iff] at h4
      obtain ⟨⟨⟨rfl, rfl⟩, rfl⟩, rfl⟩ := h4
      simp [modeStep, restStep] at h
      exact h.2.symm
    · right
      refine ⟨?_, h4.resolve_left hd⟩
      unfold WThread.over
      rw [hact]
      simpa using hd

theorem runWide_time (sched : List Nat) {c c' : Cuckoo} {ts ts' : List WThread}
    (hok : ∀ t ∈ ts, t.act.timeOk c.limit ∧ t.mode.timeOk c.limit t.todo)
    (h : runWide c ts sched = .ok (c', ts')) :
    ts'.length = ts.length ∧ ∀ (n : Nat) (t : WThread), ts[n]? = some t →
      (t.over = true ∨ t.cost c.limit c.stash.length ≤ sched.count n) →
      ∃ t', ts'[n]? = some t' ∧ t'.over = true := by
  have hzero : ∀ (t : WThread), t.mode.timeOk c.limit t.todo → t.cost c.limit c.stash.length = 0 → t.over = true := by
    intro t hm h0
    obtain ⟨act, mode, todo, calls⟩ := t
    simp only [WThread.cost] at h0
    have h1 : act.cost c.limit c.stash.length = 0 := by omega
    have h2 : mode.cost c.limit c.stash.length = 0 := by omega
    have h3 : todo.length * (6 * c.limit + c.stash.length + 9) = 0 := by omega
    have h4 : callsCost c.limit c.stash.length calls = 0 := by omega
    have e3 : todo = [] := by
      rcases Nat.mul_eq_zero.mp h3 with h | h
      · exact List.length_eq_zero_iff.mp h
      · omega
    have e4 : calls = [] := by
      cases calls with
      | nil => rfl
      | cons call rest => simp only [callsCost, List.map_cons, List.sum_cons] at h4; omega
    have e0 : ∀ k l, 0 < k → slotCost c.limit c.stash.length k l = 0 → l = [] := by
      intro k l hk hl
      cases l with
      | nil => rfl
      | cons s l => rw [slotCost_cons] at hl; omega
    subst e3 e4
    cases act with
    | failed i x => simp [WThread.over]
    | probing i x k => simp only [Act.cost] at h1; omega
    | scanning i x k => simp only [Act.cost] at h1; omega
    | swapping i x k => simp [Act.cost] at h1
    | idle =>
      cases mode with
      | load items slots => simp only [Mode.cost] at h2; omega
      | swap pend out => simp only [Mode.cost] at h2; omega
      | refill pend out =>
        simp only [Mode.cost] at h2
        obtain ⟨_, _, m3⟩ := hm
        have e1 := e0 4 pend (by omega) (by omega)
        have e2 := e0 8 out (by omega) (by omega)
        rw [e1, e2] at m3
        simp at m3
      | fill pend out =>
        simp only [Mode.cost] at h2; omega
      | finish slots =>
        have e1 := e0 5 slots (by omega) h2
        subst e1
        decide
  induction sched generalizing c ts with
  | nil =>
    simp only [runWide] at h
    simp at h
    obtain ⟨rfl, rfl⟩ := h
    refine ⟨rfl, fun n t ht hh => ⟨t, ht, ?_⟩⟩
    rcases hh with hh | hh
    · exact hh
    · have := hok t (List.mem_of_getElem? ht)
      exact hzero t this.2 (by simpa using hh)
  | cons m sched ih =>
    unfold runWide at h
    cases hm : ts[m]? with
    | none =>
      rw [hm] at h
      obtain ⟨g1, g2⟩ := ih hok h hzero
      refine ⟨g1, fun n t ht hh => g2 n t ht ?_⟩
      have hne : m ≠ n := by intro e; rw [e, ht] at hm; simp at hm
      rw [List.count_cons_of_ne hne] at hh
      exact hh
    | some s =>
      rw [hm] at h
      simp only [] at h
      have hos := hok s (List.mem_of_getElem? hm)
      cases e : wideStep c s with
      | throw => rw [e] at h; simp [Out.bind] at h
      | ub => rw [e] at h; simp [Out.bind] at h
      | ok p =>
        obtain ⟨c1, s1⟩ := p
        rw [e, bind_ok] at h
        simp only [] at h
        obtain ⟨a1, a2, a3, a4⟩ := wideStep_time hos.1 hos.2 e
        have hml : m < ts.length := (List.getElem?_eq_some_iff.mp hm).1
        have hok1 : ∀ t ∈ ts.set m s1, t.act.timeOk c1.limit ∧ t.mode.timeOk c1.limit t.todo := by
          intro t ht
          rw [a1.1]
          rcases List.mem_or_eq_of_mem_set ht with ht | rfl
          · exact hok t ht
          · exact ⟨a2, a3⟩
        obtain ⟨g1, g2⟩ := ih hok1 h (by rw [a1.1, a1.2]; exact hzero)
        refine ⟨by rw [g1, List.length_set], fun n t ht hh => ?_⟩
        rw [a1.1, a1.2] at g2
        by_cases hnm : m = n
        · subst hnm
          rw [hm] at ht
          simp at ht
          subst ht
          refine g2 m s1 (by rw [List.getElem?_set_self hml]) ?_
          rw [List.count_cons_self] at hh
          rcases a4 with ⟨a4, a5⟩ | ⟨a4, a5⟩
          · left; rw [a5]; exact a4
          · rcases hh with hh | hh
            · rw [a4] at hh; simp at hh
            · right; omega
        · refine g2 n t (by rw [List.getElem?_set_ne hnm]; exact ht) ?_
          rw [List.count_cons_of_ne hnm] at hh
          exact hh

end Verif.Cuckoo
