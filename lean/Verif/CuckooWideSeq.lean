import Verif.CuckooWideModel
import Verif.CuckooDebugLemmas
/-
Lemmas: a single thread of the step model (CuckooWideModel.lean) does what the sequential model (CuckooModel.lean) does.
-/
namespace Verif.Cuckoo
open Verif

/-- A number of steps of one thread. -/
inductive Reach : Cuckoo → WThread → Cuckoo → WThread → Prop
  | refl (c : Cuckoo) (t : WThread) : Reach c t c t
  | step {c c1 c2 : Cuckoo} {t t1 t2 : WThread} : wideStep c t = .ok (c1, t1) → Reach c1 t1 c2 t2 → Reach c t c2 t2

theorem Reach.trans {c c1 c2 : Cuckoo} {t t1 t2 : WThread} (h : Reach c t c1 t1) (h' : Reach c1 t1 c2 t2) :
    Reach c t c2 t2 := by
  induction h with
  | refl => exact h'
  | step e _ ih => exact .step e (ih h')

theorem Reach.one {c c1 : Cuckoo} {t t1 : WThread} (h : wideStep c t = .ok (c1, t1)) : Reach c t c1 t1 := .step h (.refl _ _)

theorem Reach.run {c c' : Cuckoo} {t t' : WThread} (h : Reach c t c' t') :
    ∃ k, runWide c [t] (List.replicate k 0) = .ok (c', [t']) := by
  induction h with
  | refl c t => exact ⟨0, rfl⟩
  | step e _ ih =>
    obtain ⟨k, hk⟩ := ih
    refine ⟨k + 1, ?_⟩
    rw [List.replicate_succ]
    simp only [runWide, List.getElem?_cons_zero, e, bind_ok, List.set_cons_zero]
    exact hk

/-- Shape that the loops keep. -/
def Keeps (c c' : Cuckoo) : Prop := c'.numHashes = c.numHashes ∧ c'.limit = c.limit

theorem stash_reach {c c' : Cuckoo} {i h : Nat} (m : Mode) (td : List (Nat × Block)) (cs : List (List (Nat × Block)))
    (e : stashPut c i h = .ok c') :
    Reach c ⟨.scanning i h 0, m, td, cs⟩ c' ⟨.idle, m, td, cs⟩ ∧ Keeps c c' := by
  unfold stashPut at e
  cases hf : c.stash.findIdx? (· == emptyVal) with
  | none => rw [hf] at e; simp at e
  | some k =>
    rw [hf] at e
    simp only [Out.ok.injEq] at e
    subst e
    obtain ⟨hk, hp, hbef⟩ := List.findIdx?_eq_some_iff_getElem.mp hf
    have hget : ∀ j (hj : j < c.stash.length), c.stash.getD j emptyVal = c.stash[j] := by
      intro j hj; simp [List.getD, hj]
    have scan : ∀ d j, j + d = k → Reach c ⟨.scanning i h j, m, td, cs⟩ c ⟨.scanning i h k, m, td, cs⟩ := by
      intro d
      induction d with
      | zero => intro j hj; rw [show j = k by omega]; exact .refl _ _
      | succ d ih =>
        intro j hj
        refine .step ?_ (ih (j + 1) (by omega))
        have hne : c.stash.getD j emptyVal ≠ emptyVal := by
          rw [hget j (by omega)]
          have := hbef j (by omega)
          simpa using this
        simp only [wideStep, insertStep, ne_eq, reduceCtorEq, not_false_eq_true, if_true]
        rw [if_neg (by omega), if_neg (by omega), if_neg hne]
        rfl
    refine ⟨(scan k 0 (by omega)).trans (.step (c1 := c) (t1 := ⟨.swapping i h k, m, td, cs⟩) ?_ (.one ?_)), rfl, rfl⟩
    · have heq : c.stash.getD k emptyVal = emptyVal := by
        rw [hget k hk]; simpa using hp
      simp only [wideStep, insertStep, ne_eq, reduceCtorEq, not_false_eq_true, if_true]
      rw [if_neg (by omega), if_neg (by omega), if_pos heq]
      rfl
    · simp only [wideStep, insertStep, ne_eq, reduceCtorEq, not_false_eq_true, if_true]
      rw [if_pos hk]
      rfl

theorem one_reach (rem : Nat) {c c' : Cuckoo} {i h tries : Nat} (m : Mode) (td : List (Nat × Block))
    (cs : List (List (Nat × Block))) (ht : tries + rem = c.limit) (e : insertOne c i h rem = .ok c') :
    Reach c ⟨.probing i h tries, m, td, cs⟩ c' ⟨.idle, m, td, cs⟩ ∧ Keeps c c' := by
  induction rem generalizing c i h tries with
  | zero =>
    unfold insertOne at e
    split at e
    · rename_i ha
      simp only [] at e
      split at e
      · rename_i hn
        simp only [Out.ok.injEq] at e
        subst e
        refine ⟨.one ?_, rfl, rfl⟩
        simp only [wideStep, insertStep, ne_eq, reduceCtorEq, not_false_eq_true, if_true, if_pos ha, if_pos hn]
        rfl
      · rename_i hn
        obtain ⟨r1, r2⟩ := stash_reach m td cs e
        refine ⟨.step ?_ r1, r2⟩
        simp only [wideStep, insertStep, ne_eq, reduceCtorEq, not_false_eq_true, if_true, if_pos ha, if_neg hn]
        rw [if_neg (by omega)]
        rfl
    · simp at e
  | succ rem ih =>
    unfold insertOne at e
    split at e
    · rename_i ha
      simp only [] at e
      split at e
      · rename_i hn
        simp only [Out.ok.injEq] at e
        subst e
        refine ⟨.one ?_, rfl, rfl⟩
        simp only [wideStep, insertStep, ne_eq, reduceCtorEq, not_false_eq_true, if_true, if_pos ha, if_pos hn]
        rfl
      · rename_i hn
        split at e
        · simp at e
        · rename_i h0
          obtain ⟨r1, r2⟩ := ih (tries := tries + 1) (by show tries + 1 + rem = c.limit; omega) e
          refine ⟨.step ?_ r1, r2⟩
          simp only [wideStep, insertStep, ne_eq, reduceCtorEq, not_false_eq_true, if_true, if_pos ha, if_neg hn]
          rw [if_pos (by omega), if_neg h0]
          rfl
    · simp at e

theorem setHash_keeps {c c' : Cuckoo} {i : Nat} {b : Block} (h : setHash c i b = .ok c') : Keeps c c' := by
  unfold setHash at h
  split at h
  · simp at h; subst h; exact ⟨rfl, rfl⟩
  · simp at h

theorem Keeps.trans {a b c : Cuckoo} (h : Keeps a b) (h' : Keeps b c) : Keeps a c :=
  ⟨h'.1.trans h.1, h'.2.trans h.2⟩

theorem load_reach (items : List (Nat × Block)) {c : Cuckoo} {p : Cuckoo × List Slot} (out : List Slot)
    (td : List (Nat × Block)) (cs : List (List (Nat × Block))) (e : loadSlots c items = .ok p) :
    Reach c ⟨.idle, .load items out, td, cs⟩ p.1 ⟨.idle, .load [] (out ++ p.2), td, cs⟩ ∧ Keeps c p.1 ∧
      ∀ s ∈ p.2, s.tries = 0 := by
  induction items generalizing c p out with
  | nil =>
    simp only [loadSlots, Out.ok.injEq] at e
    subst e
    simp only [List.append_nil]
    exact ⟨.refl _ _, ⟨rfl, rfl⟩, by simp⟩
  | cons q rest ih =>
    obtain ⟨i, b⟩ := q
    unfold loadSlots at e
    obtain ⟨c1, h1, h2⟩ := Out.bind_eq_ok e
    obtain ⟨p1, h3, h4⟩ := Out.bind_eq_ok h2
    simp only [Out.ok.injEq] at h4
    subst h4
    obtain ⟨r1, r2, r3⟩ := ih (out ++ [{ idx := i, h := 0, tries := 0 }]) h3
    refine ⟨.step (c1 := c1) ?_ (by simpa using r1), (setHash_keeps h1).trans r2, ?_⟩
    · simp [wideStep, modeStep, h1, bind_ok]
    · intro s hs
      rcases List.mem_cons.mp hs with rfl | hs
      · rfl
      · exact r3 s hs

theorem swap_reach (pend : List (Slot × Nat)) (c : Cuckoo) (out : List Slot) (td : List (Nat × Block))
    (cs : List (List (Nat × Block))) :
    Reach c ⟨.idle, .swap pend out, td, cs⟩ (swapAll c pend).1 ⟨.idle, .swap [] (out ++ (swapAll c pend).2), td, cs⟩ ∧
      Keeps c (swapAll c pend).1 := by
  induction pend generalizing c out with
  | nil => simp only [swapAll, List.append_nil]; exact ⟨.refl _ _, rfl, rfl⟩
  | cons q rest ih =>
    obtain ⟨s, a⟩ := q
    obtain ⟨r1, r2⟩ := ih { c with bins := c.bins.set a (pack s.idx s.h) }
      (out ++ [{ s with idx := idxOf (c.bins.getD a emptyVal), h := hashOf (c.bins.getD a emptyVal) }])
    refine ⟨.step (c1 := { c with bins := c.bins.set a (pack s.idx s.h) }) ?_ (by simpa [swapAll] using r1), r2⟩
    simp [wideStep, modeStep]

theorem swapAll_tries {L : Nat} (pend : List (Slot × Nat)) (c : Cuckoo) (h : ∀ p ∈ pend, p.1.tries ≤ L) :
    ∀ s ∈ (swapAll c pend).2, s.tries ≤ L := by
  induction pend generalizing c with
  | nil => simp [swapAll]
  | cons q rest ih =>
    obtain ⟨s, a⟩ := q
    intro x hx
    simp only [swapAll, List.mem_cons] at hx
    rcases hx with rfl | hx
    · exact h (s, a) (by simp)
    · exact ih _ (fun p hp => h p (by simp [hp])) x hx

theorem refill_reach (pend : List Slot) {c : Cuckoo} {td : List (Nat × Block)} {r : Cuckoo × List Slot × List (Nat × Block)}
    (out : List Slot) (cs : List (List (Nat × Block))) (htr : ∀ s ∈ pend, s.tries ≤ c.limit)
    (e : refillAll c td pend = .ok r) :
    Reach c ⟨.idle, .refill pend out, td, cs⟩ r.1 ⟨.idle, .refill [] (out ++ r.2.1), r.2.2, cs⟩ ∧ Keeps c r.1 ∧
      ∀ s ∈ r.2.1, s.tries ≤ c.limit := by
  induction pend generalizing c td r out with
  | nil =>
    simp only [refillAll, Out.ok.injEq] at e
    subst e
    simp only [List.append_nil]
    exact ⟨.refl _ _, ⟨rfl, rfl⟩, by simp⟩
  | cons s pend ih =>
    have htr' : ∀ x ∈ pend, x.tries ≤ c.limit := fun x hx => htr x (by simp [hx])
    -- the next item goes into the slot
    have take : ∀ {d : Cuckoo} {i : Nat} {b : Block} {rest : List (Nat × Block)}, Keeps c d →
        ((setHash d i b).bind fun c => (refillAll c rest pend).bind fun p =>
          Out.ok (p.1, ({ idx := i, h := 0, tries := 0 } : Slot) :: p.2.1, p.2.2)) = .ok r →
        ∃ c1, setHash d i b = .ok c1 ∧
          Reach c1 ⟨.idle, .refill pend (out ++ [{ idx := i, h := 0, tries := 0 }]), rest, cs⟩ r.1
            ⟨.idle, .refill [] (out ++ r.2.1), r.2.2, cs⟩ ∧ Keeps c r.1 ∧ ∀ s ∈ r.2.1, s.tries ≤ c.limit := by
      intro d i b rest hk hh
      obtain ⟨c1, h1, h2⟩ := Out.bind_eq_ok hh
      obtain ⟨p1, h3, h4⟩ := Out.bind_eq_ok h2
      simp only [Out.ok.injEq] at h4
      subst h4
      have hk1 := hk.trans (setHash_keeps h1)
      obtain ⟨r1, r2, r3⟩ := ih (out ++ [{ idx := i, h := 0, tries := 0 }])
        (by rw [hk1.2]; exact htr') h3
      refine ⟨c1, h1, by simpa using r1, hk1.trans r2, ?_⟩
      intro x hx
      rcases List.mem_cons.mp hx with rfl | hx
      · exact Nat.zero_le _
      · rw [← hk1.2]; exact r3 x hx
    unfold refillAll at e
    simp only [] at e
    split at e
    · rename_i hn
      split at e
      · simp at e
      · obtain ⟨c1, h1, r1, r2, r3⟩ := take ⟨rfl, rfl⟩ e
        refine ⟨.step (c1 := c1) ?_ r1, r2, r3⟩
        simp [wideStep, modeStep, refillStep, hn, takeItem, h1, bind_ok]
    · rename_i hn
      split at e
      · rename_i hl
        obtain ⟨p1, h3, h4⟩ := Out.bind_eq_ok e
        simp only [Out.ok.injEq] at h4
        subst h4
        obtain ⟨r1, r2, r3⟩ := ih (r := p1) (out ++ [{ idx := s.idx, h := (1 + s.h) % 3, tries := s.tries + 1 }]) htr' h3
        refine ⟨.step (c1 := c) ?_ (by simpa using r1), r2, ?_⟩
        · simp only [wideStep, modeStep, refillStep, ne_eq, not_true_eq_false, if_false, if_neg hn]
          rw [if_pos hl]
        · intro x hx
          rcases List.mem_cons.mp hx with rfl | hx
          · have := htr s (by simp)
            show s.tries + 1 ≤ c.limit
            omega
          · exact r3 x hx
      · rename_i hl
        obtain ⟨d, h1, h2⟩ := Out.bind_eq_ok e
        split at h2
        · simp at h2
        · rename_i i b rest
          obtain ⟨s1, s2⟩ := stash_reach (.fill pend out) ((i, b) :: rest) cs h1
          obtain ⟨c1, h3, r1, r2, r3⟩ := take s2 h2
          refine ⟨.step (c1 := c) (t1 := ⟨.scanning s.idx s.h 0, .fill pend out, (i, b) :: rest, cs⟩) ?_
            (s1.trans (.step (c1 := c1) ?_ r1)), r2, r3⟩
          · simp only [wideStep, modeStep, refillStep, ne_eq, not_true_eq_false, if_false, if_neg hn]
            rw [if_neg hl]
          · simp [wideStep, modeStep, takeItem, h3, bind_ok]

theorem loop_reach (fuel : Nat) {c : Cuckoo} {slots : List Slot} {td : List (Nat × Block)}
    {r : Cuckoo × List Slot × List (Nat × Block)} (m : Mode) (cs : List (List (Nat × Block)))
    (hm : m = .load [] slots ∨ m = .refill [] slots) (h3 : c.numHashes = 3) (htr : ∀ s ∈ slots, s.tries ≤ c.limit)
    (e : batchLoop fuel c slots td = .ok r) :
    Reach c ⟨.idle, m, td, cs⟩ r.1 ⟨.idle, .finish r.2.1, r.2.2, cs⟩ ∧ Keeps c r.1 ∧ ∀ s ∈ r.2.1, s.tries ≤ c.limit := by
  have head : ∀ {m1 : Mode}, loopHead c slots td = .ok m1 → wideStep c ⟨.idle, m, td, cs⟩ = .ok (c, ⟨.idle, m1, td, cs⟩) := by
    intro m1 h
    rcases hm with rfl | rfl <;> simp [wideStep, modeStep, h, bind_ok]
  induction fuel generalizing c slots td r m with
  | zero =>
    unfold batchLoop at e
    split at e
    · simp at e
    · rename_i hl
      simp only [Out.ok.injEq] at e
      subst e
      refine ⟨.one (head ?_), ⟨rfl, rfl⟩, htr⟩
      unfold loopHead
      rw [if_neg (fun hh => hl hh.1)]
  | succ fuel ih =>
    unfold batchLoop at e
    split at e
    · rename_i hl
      simp only [] at e
      split at e
      · rename_i ha
        obtain ⟨q, h1, h2⟩ := Out.bind_eq_ok e
        obtain ⟨s1, s2⟩ := swap_reach (slots.map fun s => (s, addrOf c s.idx s.h)) c [] td cs
        have st := swapAll_tries (L := c.limit) (slots.map fun s => (s, addrOf c s.idx s.h)) c (by
          intro p hp
          obtain ⟨s, hs, rfl⟩ := List.mem_map.mp hp
          exact htr s hs)
        obtain ⟨f1, f2, f3⟩ := refill_reach _ [] cs (by rw [s2.2]; exact st) h1
        have hk := s2.trans f2
        obtain ⟨g1, g2, g3⟩ := ih (m := .refill [] q.2.1) (Or.inr rfl) (by rw [hk.1, h3])
          (by rw [hk.2]; intro x hx; have := f3 x hx; rw [s2.2] at this; exact this) h2 (by
            intro m1 hh; simp [wideStep, modeStep, hh, bind_ok])
        refine ⟨.step (head (m1 := .swap (slots.map fun s => (s, addrOf c s.idx s.h)) []) ?_)
          (s1.trans (.step (c1 := (swapAll c (slots.map fun s => (s, addrOf c s.idx s.h))).1)
            (t1 := ⟨.idle, .refill (swapAll c (slots.map fun s => (s, addrOf c s.idx s.h))).2 [], td, cs⟩) ?_
            (f1.trans ?_))), hk.trans g2, ?_⟩
        · unfold loopHead
          rw [if_pos ⟨hl, h3⟩, if_pos ha]
        · simp [wideStep, modeStep]
        · simpa using g1
        · rw [← hk.2]; exact g3
      · simp at e
    · rename_i hl
      simp only [Out.ok.injEq] at e
      subst e
      refine ⟨.one (head ?_), ⟨rfl, rfl⟩, htr⟩
      unfold loopHead
      rw [if_neg (fun hh => hl hh.1)]

theorem finish_reach (slots : List Slot) {c c' : Cuckoo} (td : List (Nat × Block)) (cs : List (List (Nat × Block)))
    (htr : ∀ s ∈ slots, s.tries ≤ c.limit) (e : finishSlots c slots = .ok c') :
    Reach c ⟨.idle, .finish slots, td, cs⟩ c' ⟨.idle, .finish [], td, cs⟩ ∧ Keeps c c' := by
  induction slots generalizing c with
  | nil => simp only [finishSlots, Out.ok.injEq] at e; subst e; exact ⟨.refl _ _, rfl, rfl⟩
  | cons s rest ih =>
    have hs := htr s (by simp)
    have hr : ∀ x ∈ rest, x.tries ≤ c.limit := fun x hx => htr x (by simp [hx])
    unfold finishSlots at e
    split at e
    · rename_i hn
      obtain ⟨c1, h1, h2⟩ := Out.bind_eq_ok e
      obtain ⟨o1, o2⟩ := one_reach _ (tries := s.tries) (.finish rest) td cs (by omega) h1
      obtain ⟨g1, g2⟩ := ih (by rw [o2.2]; exact hr) h2
      refine ⟨.step (c1 := c) ?_ (o1.trans g1), o2.trans g2⟩
      simp only [wideStep, modeStep, ne_eq, not_true_eq_false, if_false]
      rw [if_pos hn]
    · rename_i hn
      obtain ⟨g1, g2⟩ := ih hr e
      refine ⟨.step (c1 := c) ?_ g1, g2⟩
      simp only [wideStep, modeStep, ne_eq, not_true_eq_false, if_false]
      rw [if_neg hn]

theorem rest_reach (td : List (Nat × Block)) {c c' : Cuckoo} (cs : List (List (Nat × Block)))
    (e : insertRest c td = .ok c') :
    Reach c ⟨.idle, .finish [], td, cs⟩ c' ⟨.idle, .finish [], [], cs⟩ ∧ Keeps c c' := by
  induction td generalizing c with
  | nil => simp only [insertRest, Out.ok.injEq] at e; subst e; exact ⟨.refl _ _, rfl, rfl⟩
  | cons q rest ih =>
    obtain ⟨i, b⟩ := q
    unfold insertRest at e
    obtain ⟨c1, h1, h2⟩ := Out.bind_eq_ok e
    obtain ⟨c2, h3, h4⟩ := Out.bind_eq_ok h2
    obtain ⟨o1, o2⟩ := one_reach _ (tries := 0) (.finish []) rest cs (by omega) h3
    obtain ⟨g1, g2⟩ := ih h4
    refine ⟨.step (c1 := c1) ?_ (o1.trans g1), (setHash_keeps h1).trans (o2.trans g2)⟩
    simp [wideStep, modeStep, restStep, h1, bind_ok]

theorem batch_reach {c c' : Cuckoo} (call : List (Nat × Block)) (cs : List (List (Nat × Block)))
    (e : insertBatch c call = .ok c') :
    Reach c ⟨.idle, .finish [], [], call :: cs⟩ c' ⟨.idle, .finish [], [], cs⟩ := by
  unfold insertBatch at e
  obtain ⟨p, h1, h2⟩ := Out.bind_eq_ok e
  obtain ⟨q, h3, h4⟩ := Out.bind_eq_ok h2
  obtain ⟨c2, h5, h6⟩ := Out.bind_eq_ok h4
  obtain ⟨l1, l2, l3⟩ := load_reach _ [] (call.drop 8) cs h1
  have lt : ∀ s ∈ p.2, s.tries ≤ p.1.limit := fun s hs => by rw [l3 s hs]; exact Nat.zero_le _
  have mid : Reach p.1 ⟨.idle, .load [] p.2, call.drop 8, cs⟩ q.1 ⟨.idle, .finish q.2.1, q.2.2, cs⟩ ∧ Keeps p.1 q.1 ∧
      ∀ s ∈ q.2.1, s.tries ≤ p.1.limit := by
    split at h3
    · rename_i hc
      exact loop_reach _ _ cs (Or.inl rfl) (by rw [l2.1]; exact hc.2) lt h3
    · rename_i hc
      simp only [Out.ok.injEq] at h3
      subst h3
      refine ⟨.one ?_, ⟨rfl, rfl⟩, lt⟩
      have : loopHead p.1 p.2 (call.drop 8) = .ok (.finish p.2) := by
        unfold loopHead
        rw [if_neg]
        rintro ⟨a, b⟩
        rw [l2.1] at b
        rw [List.length_drop] at a
        exact hc ⟨by omega, b⟩
      simp [wideStep, modeStep, this, bind_ok]
  obtain ⟨f1, f2⟩ := finish_reach q.2.1 q.2.2 cs (by rw [mid.2.1.2]; exact mid.2.2) h5
  obtain ⟨g1, _⟩ := rest_reach q.2.2 cs h6
  refine .step (c1 := c) (t1 := ⟨.idle, .load (call.take 8) [], call.drop 8, cs⟩) ?_ ?_
  · simp [wideStep, modeStep, restStep]
  · have l1' := l1
    rw [List.nil_append] at l1'
    exact l1'.trans (mid.1.trans (f1.trans g1))

theorem batches_reach (calls : List (List (Nat × Block))) {c c' : Cuckoo} (e : insertBatches c calls = .ok c') :
    Reach c (WThread.new calls) c' (WThread.new []) := by
  induction calls generalizing c with
  | nil => simp only [insertBatches, Out.ok.injEq] at e; subst e; exact .refl _ _
  | cons call rest ih =>
    unfold insertBatches at e
    obtain ⟨c1, h1, h2⟩ := Out.bind_eq_ok e
    exact (batch_reach call rest h1).trans (ih h2)

theorem runWide_append (s1 s2 : List Nat) (c : Cuckoo) (ts : List WThread) :
    runWide c ts (s1 ++ s2) = (runWide c ts s1).bind fun p => runWide p.1 p.2 s2 := by
  induction s1 generalizing c ts with
  | nil => rfl
  | cons n s1 ih =>
    rw [List.cons_append]
    have hc : ∀ s : List Nat, runWide c ts (n :: s) = match ts[n]? with
        | none => runWide c ts s
        | some t => (wideStep c t).bind fun p => runWide p.1 (ts.set n p.2) s := fun _ => rfl
    rw [hc, hc]
    cases ts[n]? with
    | none => exact ih _ _
    | some t =>
      cases e : wideStep c t with
      | ok p => simp only [e]; exact ih _ _
      | throw => simp only [e]; rfl
      | ub => simp only [e]; rfl

theorem done_stays {c : Cuckoo} {t : WThread} (h : t.done = true) (k : Nat) :
    runWide c [t] (List.replicate k 0) = .ok (c, [t]) := by
  obtain ⟨act, mode, todo, calls⟩ := t
  simp [WThread.done, List.isEmpty_iff] at h
  obtain ⟨⟨⟨rfl, rfl⟩, rfl⟩, rfl⟩ := h
  induction k with
  | zero => rfl
  | succ k ih =>
    rw [List.replicate_succ]
    simp only [runWide, List.getElem?_cons_zero, wideStep, modeStep, restStep, bind_ok, List.set_cons_zero, ne_eq,
      not_true_eq_false, if_false]
    exact ih

end Verif.Cuckoo
