import Verif.CuckooWideSeq
/-
Lemmas: when the sequential insert throws, a single thread of the step model throws.
-/
namespace Verif.Cuckoo
open Verif

/-- The thread throws. -/
def Fails (c : Cuckoo) (t : WThread) : Prop := ∃ c' i h m td cs, Reach c t c' ⟨.failed i h, m, td, cs⟩

theorem Fails.of {c c1 : Cuckoo} {t t1 : WThread} (h : Reach c t c1 t1) (hf : Fails c1 t1) : Fails c t := by
  obtain ⟨c', i, x, m, td, cs, r⟩ := hf
  exact ⟨c', i, x, m, td, cs, h.trans r⟩

theorem Out.bind_eq_throw {α β : Type} {x : Out α} {f : α → Out β} (h : x.bind f = .throw) :
    x = .throw ∨ ∃ a, x = .ok a ∧ f a = .throw := by
  cases x with
  | ok a => exact Or.inr ⟨a, rfl, h⟩
  | throw => exact Or.inl rfl
  | ub => simp [Out.bind] at h

theorem setHash_no_throw {c : Cuckoo} {i : Nat} {b : Block} (h : setHash c i b = .throw) : False := by
  unfold setHash at h
  split at h <;> simp at h

theorem stash_fail {c : Cuckoo} {i h : Nat} (m : Mode) (td : List (Nat × Block)) (cs : List (List (Nat × Block)))
    (e : stashPut c i h = .throw) : Fails c ⟨.scanning i h 0, m, td, cs⟩ := by
  unfold stashPut at e
  cases hf : c.stash.findIdx? (· == emptyVal) with
  | some k => rw [hf] at e; simp at e
  | none =>
    have hall := List.findIdx?_eq_none_iff.mp hf
    have scan : ∀ d j, j + d = c.stash.length →
        Reach c ⟨.scanning i h j, m, td, cs⟩ c ⟨.scanning i h c.stash.length, m, td, cs⟩ := by
      intro d
      induction d with
      | zero => intro j hj; rw [show j = c.stash.length by omega]; exact .refl _ _
      | succ d ih =>
        intro j hj
        refine .step ?_ (ih (j + 1) (by omega))
        have hne : c.stash.getD j emptyVal ≠ emptyVal := by
          have hj' : j < c.stash.length := by omega
          have : c.stash.getD j emptyVal = c.stash[j] := by simp [List.getD, hj']
          rw [this]
          simpa using hall _ (List.getElem_mem hj')
        simp only [wideStep, insertStep, ne_eq, reduceCtorEq, not_false_eq_true, if_true]
        rw [if_neg (by omega), if_neg (by omega), if_neg hne]
        rfl
    refine ⟨c, i, h, m, td, cs, (scan c.stash.length 0 (by omega)).trans (.one ?_)⟩
    simp [wideStep, insertStep, bind_ok]

theorem one_fail (rem : Nat) {c : Cuckoo} {i h tries : Nat} (m : Mode) (td : List (Nat × Block))
    (cs : List (List (Nat × Block))) (ht : tries + rem = c.limit) (e : insertOne c i h rem = .throw) :
    Fails c ⟨.probing i h tries, m, td, cs⟩ := by
  induction rem generalizing c i h tries with
  | zero =>
    unfold insertOne at e
    split at e
    · rename_i ha
      simp only [] at e
      split at e
      · simp at e
      · rename_i hn
        refine (Fails.of (.one ?_) (stash_fail m td cs e))
        simp only [wideStep, insertStep, ne_eq, reduceCtorEq, not_false_eq_true, if_true, if_pos ha, if_neg hn]
        rw [if_neg (by omega)]
        rfl
    · simp at e
  | succ rem ih =>
    unfold insertOne at e
    split at e
    · rename_i ha
      simp only [] at e
      split at e
      · simp at e
      · rename_i hn
        split at e
        · simp at e
        · rename_i h0
          refine Fails.of (.one ?_) (ih (tries := tries + 1) (by show tries + 1 + rem = c.limit; omega) e)
          simp only [wideStep, insertStep, ne_eq, reduceCtorEq, not_false_eq_true, if_true, if_pos ha, if_neg hn]
          rw [if_pos (by omega), if_neg h0]
          rfl
    · simp at e

theorem loadSlots_no_throw (items : List (Nat × Block)) {c : Cuckoo} (e : loadSlots c items = .throw) : False := by
  induction items generalizing c with
  | nil => simp [loadSlots] at e
  | cons q rest ih =>
    obtain ⟨i, b⟩ := q
    unfold loadSlots at e
    rcases Out.bind_eq_throw e with h | ⟨c1, _, h⟩
    · exact setHash_no_throw h
    · rcases Out.bind_eq_throw h with h | ⟨p, _, h⟩
      · exact ih h
      · simp at h

theorem refill_fail (pend : List Slot) {c : Cuckoo} {td : List (Nat × Block)} (out : List Slot)
    (cs : List (List (Nat × Block))) (e : refillAll c td pend = .throw) : Fails c ⟨.idle, .refill pend out, td, cs⟩ := by
  induction pend generalizing c td out with
  | nil => simp [refillAll] at e
  | cons s pend ih =>
    have take : ∀ {d : Cuckoo} {i : Nat} {b : Block} {rest : List (Nat × Block)},
        ((setHash d i b).bind fun c => (refillAll c rest pend).bind fun p =>
          Out.ok (p.1, ({ idx := i, h := 0, tries := 0 } : Slot) :: p.2.1, p.2.2)) = .throw →
        ∃ c1, setHash d i b = .ok c1 ∧
          Fails c1 ⟨.idle, .refill pend (out ++ [{ idx := i, h := 0, tries := 0 }]), rest, cs⟩ := by
      intro d i b rest hh
      rcases Out.bind_eq_throw hh with h | ⟨c1, h1, h⟩
      · exact (setHash_no_throw h).elim
      · rcases Out.bind_eq_throw h with h | ⟨p, _, h⟩
        · exact ⟨c1, h1, ih _ h⟩
        · simp at h
    unfold refillAll at e
    simp only [] at e
    split at e
    · rename_i hn
      split at e
      · simp at e
      · obtain ⟨c1, h1, r1⟩ := take e
        refine Fails.of (.one ?_) r1
        simp [wideStep, modeStep, refillStep, hn, takeItem, h1, bind_ok]
    · rename_i hn
      split at e
      · rename_i hl
        rcases Out.bind_eq_throw e with h | ⟨p, _, h⟩
        · refine Fails.of (.one ?_) (ih (out ++ [{ idx := s.idx, h := (1 + s.h) % 3, tries := s.tries + 1 }]) h)
          simp only [wideStep, modeStep, refillStep, ne_eq, not_true_eq_false, if_false, if_neg hn]
          rw [if_pos hl]
        · simp at h
      · rename_i hl
        have first : wideStep c ⟨.idle, .refill (s :: pend) out, td, cs⟩ =
            .ok (c, ⟨.scanning s.idx s.h 0, .fill pend out, td, cs⟩) := by
          simp only [wideStep, modeStep, refillStep, ne_eq, not_true_eq_false, if_false, if_neg hn]
          rw [if_neg hl]
        rcases Out.bind_eq_throw e with h | ⟨d, h1, h2⟩
        · exact Fails.of (.one first) (stash_fail _ _ _ h)
        · split at h2
          · simp at h2
          · rename_i i b rest
            obtain ⟨s1, _⟩ := stash_reach (.fill pend out) ((i, b) :: rest) cs h1
            obtain ⟨c1, h3, r1⟩ := take h2
            refine Fails.of (.step first (s1.trans (.one (c1 := c1) ?_))) r1
            simp [wideStep, modeStep, takeItem, h3, bind_ok]

theorem loop_fail (fuel : Nat) {c : Cuckoo} {slots : List Slot} {td : List (Nat × Block)} (m : Mode)
    (cs : List (List (Nat × Block))) (hm : m = .load [] slots ∨ m = .refill [] slots) (h3 : c.numHashes = 3)
    (htr : ∀ s ∈ slots, s.tries ≤ c.limit) (e : batchLoop fuel c slots td = .throw) : Fails c ⟨.idle, m, td, cs⟩ := by
  induction fuel generalizing c slots td m with
  | zero =>
    unfold batchLoop at e
    split at e <;> simp at e
  | succ fuel ih =>
    unfold batchLoop at e
    split at e
    · rename_i hl
      simp only [] at e
      split at e
      · rename_i ha
        have head : wideStep c ⟨.idle, m, td, cs⟩ =
            .ok (c, ⟨.idle, .swap (slots.map fun s => (s, addrOf c s.idx s.h)) [], td, cs⟩) := by
          have : loopHead c slots td = .ok (.swap (slots.map fun s => (s, addrOf c s.idx s.h)) []) := by
            unfold loopHead
            rw [if_pos ⟨hl, h3⟩, if_pos ha]
          rcases hm with rfl | rfl <;> simp [wideStep, modeStep, this, bind_ok]
        obtain ⟨s1, s2⟩ := swap_reach (slots.map fun s => (s, addrOf c s.idx s.h)) c [] td cs
        have st := swapAll_tries (L := c.limit) (slots.map fun s => (s, addrOf c s.idx s.h)) c (by
          intro p hp
          obtain ⟨s, hs, rfl⟩ := List.mem_map.mp hp
          exact htr s hs)
        have r1 : Reach c ⟨.idle, m, td, cs⟩ (swapAll c (slots.map fun s => (s, addrOf c s.idx s.h))).1
            ⟨.idle, .refill (swapAll c (slots.map fun s => (s, addrOf c s.idx s.h))).2 [], td, cs⟩ := by
          refine .step head (s1.trans (.one ?_))
          simp [wideStep, modeStep]
        rcases Out.bind_eq_throw e with h | ⟨q, h1, h2⟩
        · exact Fails.of r1 (refill_fail _ _ _ h)
        · obtain ⟨f1, f2, f3⟩ := refill_reach _ [] cs (by rw [s2.2]; exact st) h1
          have hk := s2.trans f2
          refine Fails.of (r1.trans f1) (ih _ (Or.inr rfl) (by rw [hk.1, h3]) ?_ h2)
          rw [hk.2]; intro x hx; have := f3 x (by simpa using hx); rw [s2.2] at this; exact this
      · simp at e
    · simp at e

theorem finish_fail (slots : List Slot) {c : Cuckoo} (td : List (Nat × Block)) (cs : List (List (Nat × Block)))
    (htr : ∀ s ∈ slots, s.tries ≤ c.limit) (e : finishSlots c slots = .throw) :
    Fails c ⟨.idle, .finish slots, td, cs⟩ := by
  induction slots generalizing c with
  | nil => simp [finishSlots] at e
  | cons s rest ih =>
    have hs := htr s (by simp)
    have hr : ∀ x ∈ rest, x.tries ≤ c.limit := fun x hx => htr x (by simp [hx])
    unfold finishSlots at e
    split at e
    · rename_i hn
      have first : wideStep c ⟨.idle, .finish (s :: rest), td, cs⟩ =
          .ok (c, ⟨.probing s.idx s.h s.tries, .finish rest, td, cs⟩) := by
        simp only [wideStep, modeStep, ne_eq, not_true_eq_false, if_false]
        rw [if_pos hn]
      rcases Out.bind_eq_throw e with h | ⟨c1, h1, h2⟩
      · exact Fails.of (.one first) (one_fail _ _ td cs (by omega) h)
      · obtain ⟨o1, o2⟩ := one_reach _ (tries := s.tries) (.finish rest) td cs (by omega) h1
        exact Fails.of (.step first o1) (ih (by rw [o2.2]; exact hr) h2)
    · rename_i hn
      refine Fails.of (.one ?_) (ih hr e)
      simp only [wideStep, modeStep, ne_eq, not_true_eq_false, if_false]
      rw [if_neg hn]

theorem rest_fail (td : List (Nat × Block)) {c : Cuckoo} (cs : List (List (Nat × Block))) (e : insertRest c td = .throw) :
    Fails c ⟨.idle, .finish [], td, cs⟩ := by
  induction td generalizing c with
  | nil => simp [insertRest] at e
  | cons q rest ih =>
    obtain ⟨i, b⟩ := q
    unfold insertRest at e
    rcases Out.bind_eq_throw e with h | ⟨c1, h1, h⟩
    · exact (setHash_no_throw h).elim
    · have first : wideStep c ⟨.idle, .finish [], (i, b) :: rest, cs⟩ = .ok (c1, ⟨.probing i 0 0, .finish [], rest, cs⟩) := by
        simp [wideStep, modeStep, restStep, h1, bind_ok]
      rcases Out.bind_eq_throw h with h | ⟨c2, h2, h⟩
      · exact Fails.of (.one first) (one_fail _ _ rest cs (by omega) h)
      · obtain ⟨o1, _⟩ := one_reach _ (tries := 0) (.finish []) rest cs (by omega) h2
        exact Fails.of (.step first o1) (ih h)

theorem batch_fail {c : Cuckoo} (call : List (Nat × Block)) (cs : List (List (Nat × Block)))
    (e : insertBatch c call = .throw) : Fails c ⟨.idle, .finish [], [], call :: cs⟩ := by
  unfold insertBatch at e
  rcases Out.bind_eq_throw e with h | ⟨p, h1, h⟩
  · exact (loadSlots_no_throw _ h).elim
  · obtain ⟨l1, l2, l3⟩ := load_reach _ [] (call.drop 8) cs h1
    have lt : ∀ s ∈ p.2, s.tries ≤ p.1.limit := fun s hs => by rw [l3 s hs]; exact Nat.zero_le _
    have r1 : Reach c ⟨.idle, .finish [], [], call :: cs⟩ p.1 ⟨.idle, .load [] p.2, call.drop 8, cs⟩ := by
      rw [List.nil_append] at l1
      refine .step ?_ l1
      simp [wideStep, modeStep, restStep]
    refine Fails.of r1 ?_
    rcases Out.bind_eq_throw h with h | ⟨q, h3, h4⟩
    · split at h
      · rename_i hc
        exact loop_fail _ _ cs (Or.inl rfl) (by rw [l2.1]; exact hc.2) lt h
      · simp at h
    · have mid : Reach p.1 ⟨.idle, .load [] p.2, call.drop 8, cs⟩ q.1 ⟨.idle, .finish q.2.1, q.2.2, cs⟩ ∧ Keeps p.1 q.1 ∧
          ∀ s ∈ q.2.1, s.tries ≤ p.1.limit := by
        split at h3
        · rename_i hc
          exact loop_reach _ _ cs (Or.inl rfl) (by rw [l2.1]; exact hc.2) lt h3
        · rename_i hc
          simp only [Out.ok.injEq] at h3
          subst h3
          refine ⟨.one ?_, ⟨rfl, rfl⟩, lt⟩
          have : loopHead p.1 p.2 (call.drop 8) = .ok (.finish p.2) := by
            unfold loopHead
            rw [if_neg]
            rintro ⟨a, b⟩
            rw [l2.1] at b
            rw [List.length_drop] at a
            exact hc ⟨by omega, b⟩
          simp [wideStep, modeStep, this, bind_ok]
      have hq : ∀ s ∈ q.2.1, s.tries ≤ q.1.limit := by rw [mid.2.1.2]; exact mid.2.2
      refine Fails.of mid.1 ?_
      rcases Out.bind_eq_throw h4 with h | ⟨c2, h5, h6⟩
      · exact finish_fail _ _ cs hq h
      · obtain ⟨f1, _⟩ := finish_reach q.2.1 q.2.2 cs hq h5
        exact Fails.of f1 (rest_fail _ cs h6)

theorem batches_fail (calls : List (List (Nat × Block))) {c : Cuckoo} (e : insertBatches c calls = .throw) :
    Fails c (WThread.new calls) := by
  induction calls generalizing c with
  | nil => simp [insertBatches] at e
  | cons call rest ih =>
    unfold insertBatches at e
    rcases Out.bind_eq_throw e with h | ⟨c1, h1, h⟩
    · exact batch_fail call rest h
    · exact Fails.of (batch_reach call rest h1) (ih h)

end Verif.Cuckoo
