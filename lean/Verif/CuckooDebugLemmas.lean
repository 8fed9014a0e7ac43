import Verif.CuckooDebugModel
import Verif.CuckooProps
/-
Lemmas: which entries of `mHashes` an insert changes, and that the check of the debug build does not fire for new indices.
-/
namespace Verif.Cuckoo
open Verif

/-- No entry of `mHashes` other than those in `I` has changed. -/
def Frame (I : List Nat) (c c' : Cuckoo) : Prop := ∀ i, i ∉ I → c'.hashes[i]? = c.hashes[i]?

theorem Frame.refl (I : List Nat) (c : Cuckoo) : Frame I c c := fun _ _ => rfl

theorem Frame.of_eq {I : List Nat} {c c' : Cuckoo} (h : c'.hashes = c.hashes) : Frame I c c' := fun _ _ => by rw [h]

theorem Frame.trans {I : List Nat} {a b c : Cuckoo} (h : Frame I a b) (h' : Frame I b c) : Frame I a c :=
  fun i hi => (h' i hi).trans (h i hi)

theorem Frame.mono {I J : List Nat} {a b : Cuckoo} (h : Frame I a b) (hs : ∀ i ∈ I, i ∈ J) : Frame J a b :=
  fun i hi => h i fun hm => hi (hs i hm)

theorem Out.bind_eq_ok {α β : Type} {x : Out α} {f : α → Out β} {b : β} (h : x.bind f = .ok b) : ∃ a, x = .ok a ∧ f a = .ok b := by
  cases x with
  | ok a => exact ⟨a, rfl, h⟩
  | throw => simp [Out.bind] at h
  | ub => simp [Out.bind] at h

theorem setHash_frame {c c' : Cuckoo} {i : Nat} {b : Block} (h : setHash c i b = .ok c') : Frame [i] c c' := by
  unfold setHash at h
  split at h
  · simp at h
    subst h
    intro j hj
    simp at hj
    exact List.getElem?_set_ne (fun e => hj e.symm)
  · simp at h

theorem stashPut_frame {c c' : Cuckoo} {i x : Nat} (h : stashPut c i x = .ok c') : c'.hashes = c.hashes := by
  unfold stashPut at h
  split at h
  · simp at h
  · simp at h; subst h; rfl

theorem insertOne_frame (rem : Nat) {c c' : Cuckoo} {i x : Nat} (h : insertOne c i x rem = .ok c') : c'.hashes = c.hashes := by
  induction rem generalizing c i x with
  | zero =>
    unfold insertOne at h
    split at h
    · simp only [] at h
      split at h
      · simp at h; subst h; rfl
      · exact (stashPut_frame h).trans rfl
    · simp at h
  | succ rem ih =>
    unfold insertOne at h
    split at h
    · simp only [] at h
      split at h
      · simp at h; subst h; rfl
      · split at h
        · simp at h
        · exact (ih h).trans rfl
    · simp at h

theorem loadSlots_frame (items : List (Nat × Block)) {c : Cuckoo} {p : Cuckoo × List Slot} (h : loadSlots c items = .ok p) :
    Frame (items.map (·.1)) c p.1 := by
  induction items generalizing c p with
  | nil => simp [loadSlots] at h; subst h; exact Frame.refl _ _
  | cons q rest ih =>
    obtain ⟨i, b⟩ := q
    unfold loadSlots at h
    obtain ⟨c1, h1, h2⟩ := Out.bind_eq_ok h
    obtain ⟨p1, h3, h4⟩ := Out.bind_eq_ok h2
    simp at h4
    subst h4
    exact ((setHash_frame h1).mono (by simp)).trans ((ih h3).mono (fun j hj => List.mem_cons_of_mem _ hj))

theorem swapAll_frame (l : List (Slot × Nat)) (c : Cuckoo) : (swapAll c l).1.hashes = c.hashes := by
  induction l generalizing c with
  | nil => rfl
  | cons q l ih => obtain ⟨s, a⟩ := q; simp only [swapAll]; exact ih _

theorem refillAll_frame (slots : List Slot) {c : Cuckoo} {todo : List (Nat × Block)}
    {r : Cuckoo × List Slot × List (Nat × Block)} (h : refillAll c todo slots = .ok r) :
    Frame (todo.map (·.1)) c r.1 ∧ ∀ p ∈ r.2.2, p ∈ todo := by
  induction slots generalizing c todo r with
  | nil => simp [refillAll] at h; subst h; exact ⟨Frame.refl _ _, fun p hp => hp⟩
  | cons s slots ih =>
    have hre : ∀ {d : Cuckoo} {i : Nat} {b : Block} {rest : List (Nat × Block)}, todo = (i, b) :: rest →
        ((setHash d i b).bind fun c => (refillAll c rest slots).bind fun p =>
          Out.ok (p.1, ({ idx := i, h := 0, tries := 0 } : Slot) :: p.2.1, p.2.2)) = .ok r →
        Frame (todo.map (·.1)) d r.1 ∧ ∀ p ∈ r.2.2, p ∈ todo := by
      intro d i b rest e hh
      obtain ⟨c1, h1, h2⟩ := Out.bind_eq_ok hh
      obtain ⟨p1, h3, h4⟩ := Out.bind_eq_ok h2
      simp at h4
      subst h4
      obtain ⟨g1, g2⟩ := ih h3
      rw [e]
      exact ⟨((setHash_frame h1).mono (by simp)).trans (g1.mono (fun j hj => List.mem_cons_of_mem _ hj)),
        fun p hp => List.mem_cons_of_mem _ (g2 p hp)⟩
    unfold refillAll at h
    simp only [] at h
    split at h
    · split at h
      · simp at h
      · exact hre rfl h
    · split at h
      · obtain ⟨p1, h3, h4⟩ := Out.bind_eq_ok h
        simp at h4
        subst h4
        exact ih (r := p1) h3
      · obtain ⟨c1, h1, h2⟩ := Out.bind_eq_ok h
        split at h2
        · simp at h2
        · obtain ⟨g1, g2⟩ := hre rfl h2
          exact ⟨(Frame.of_eq (stashPut_frame h1)).trans g1, g2⟩

theorem batchLoop_frame (fuel : Nat) {c : Cuckoo} {slots : List Slot} {todo : List (Nat × Block)}
    {r : Cuckoo × List Slot × List (Nat × Block)} (h : batchLoop fuel c slots todo = .ok r) :
    Frame (todo.map (·.1)) c r.1 ∧ ∀ p ∈ r.2.2, p ∈ todo := by
  induction fuel generalizing c slots todo r with
  | zero =>
    unfold batchLoop at h
    split at h
    · simp at h
    · simp at h; subst h; exact ⟨Frame.refl _ _, fun p hp => hp⟩
  | succ fuel ih =>
    unfold batchLoop at h
    split at h
    · simp only [] at h
      split at h
      · obtain ⟨q, h1, h2⟩ := Out.bind_eq_ok h
        obtain ⟨g1, g2⟩ := refillAll_frame _ h1
        obtain ⟨k1, k2⟩ := ih h2
        refine ⟨((Frame.of_eq (swapAll_frame _ _)).trans g1).trans (k1.mono ?_), fun p hp => g2 p (k2 p hp)⟩
        intro i hi
        obtain ⟨p, hp, rfl⟩ := List.mem_map.mp hi
        exact List.mem_map_of_mem (g2 p hp)
      · simp at h
    · simp at h; subst h; exact ⟨Frame.refl _ _, fun p hp => hp⟩

theorem finishSlots_frame (slots : List Slot) {c c' : Cuckoo} (h : finishSlots c slots = .ok c') : c'.hashes = c.hashes := by
  induction slots generalizing c with
  | nil => simp [finishSlots] at h; subst h; rfl
  | cons s slots ih =>
    unfold finishSlots at h
    split at h
    · obtain ⟨c1, h1, h2⟩ := Out.bind_eq_ok h
      rw [ih h2, insertOne_frame _ h1]
    · exact ih h

theorem insertRest_frame (items : List (Nat × Block)) {c c' : Cuckoo} (h : insertRest c items = .ok c') :
    Frame (items.map (·.1)) c c' := by
  induction items generalizing c with
  | nil => simp [insertRest] at h; subst h; exact Frame.refl _ _
  | cons q rest ih =>
    obtain ⟨i, b⟩ := q
    unfold insertRest at h
    obtain ⟨c1, h1, h2⟩ := Out.bind_eq_ok h
    obtain ⟨c2, h3, h4⟩ := Out.bind_eq_ok h2
    exact (((setHash_frame h1).mono (by simp)).trans (Frame.of_eq (insertOne_frame _ h3))).trans
      ((ih h4).mono (fun j hj => List.mem_cons_of_mem _ hj))

theorem insertBatch_frame {items : List (Nat × Block)} {c c' : Cuckoo} (h : insertBatch c items = .ok c') :
    Frame (items.map (·.1)) c c' := by
  have hsub : ∀ p ∈ items.drop 8, p ∈ items := fun p hp => List.mem_of_mem_drop hp
  have hmap : ∀ {l : List (Nat × Block)}, (∀ p ∈ l, p ∈ items) → ∀ i ∈ l.map (·.1), i ∈ items.map (·.1) := by
    intro l hl i hi
    obtain ⟨p, hp, rfl⟩ := List.mem_map.mp hi
    exact List.mem_map_of_mem (hl p hp)
  unfold insertBatch at h
  obtain ⟨p, h1, h2⟩ := Out.bind_eq_ok h
  obtain ⟨q, h3, h4⟩ := Out.bind_eq_ok h2
  obtain ⟨c2, h5, h6⟩ := Out.bind_eq_ok h4
  have f1 := (loadSlots_frame _ h1).mono (hmap fun p hp => List.mem_of_mem_take hp)
  have f2 : Frame (items.map (·.1)) p.1 q.1 ∧ ∀ x ∈ q.2.2, x ∈ items := by
    split at h3
    · obtain ⟨g1, g2⟩ := batchLoop_frame _ h3
      exact ⟨g1.mono (hmap hsub), fun x hx => hsub x (g2 x hx)⟩
    · simp at h3; subst h3; exact ⟨Frame.refl _ _, hsub⟩
  exact ((f1.trans f2.1).trans (Frame.of_eq (finishSlots_frame _ h5))).trans ((insertRest_frame _ h6).mono (hmap f2.2))

theorem loadSlotsChecked_eq (items : List (Nat × Block)) {c : Cuckoo} (hnd : (items.map (·.1)).Nodup)
    (h : ∀ p ∈ items, c.hashes[p.1]? = some (BitVec.allOnes 128)) : loadSlotsChecked c items = loadSlots c items := by
  induction items generalizing c with
  | nil => rfl
  | cons q rest ih =>
    obtain ⟨i, b⟩ := q
    rw [List.map_cons, List.nodup_cons] at hnd
    have h0 := h (i, b) (List.mem_cons_self ..)
    have hlt : i < c.hashes.length := (List.getElem?_eq_some_iff.mp h0).1
    have e : setHashChecked c i b = setHash c i b := by
      unfold setHashChecked
      rw [if_pos hlt, if_neg]
      simp [List.getD, h0]
    unfold loadSlotsChecked loadSlots
    rw [e]
    cases e1 : setHash c i b with
    | ub => rfl
    | throw => rfl
    | ok c1 =>
      rw [bind_ok, bind_ok, ih hnd.2]
      intro p hp
      rw [setHash_frame e1 p.1 (by simp only [List.mem_singleton]; intro he; exact hnd.1 (List.mem_map.mpr ⟨p, hp, he⟩))]
      exact h p (List.mem_cons_of_mem _ hp)

theorem insertBatchChecked_eq (items : List (Nat × Block)) {c : Cuckoo} (hnd : (items.map (·.1)).Nodup)
    (h : ∀ p ∈ items, c.hashes[p.1]? = some (BitVec.allOnes 128)) : insertBatchChecked c items = insertBatch c items := by
  unfold insertBatchChecked insertBatch
  rw [loadSlotsChecked_eq (items.take 8) ?_ fun p hp => h p (List.mem_of_mem_take hp)]
  rw [List.map_take]
  exact hnd.sublist (List.take_sublist _ _)

theorem insertBatchesChecked_eq (bs : List (List (Nat × Block))) {c : Cuckoo} (hnd : (bs.flatten.map (·.1)).Nodup)
    (h : ∀ p ∈ bs.flatten, c.hashes[p.1]? = some (BitVec.allOnes 128)) : insertBatchesChecked c bs = insertBatches c bs := by
  induction bs generalizing c with
  | nil => rfl
  | cons b bs ih =>
    rw [List.flatten_cons, List.map_append, List.nodup_append] at hnd
    obtain ⟨n1, n2, n3⟩ := hnd
    unfold insertBatchesChecked insertBatches
    rw [insertBatchChecked_eq b n1 fun p hp => h p (by rw [List.flatten_cons]; exact List.mem_append_left _ hp)]
    cases e : insertBatch c b with
    | ub => rfl
    | throw => rfl
    | ok c1 =>
      rw [bind_ok, bind_ok]
      apply ih n2
      intro p hp
      rw [insertBatch_frame e p.1 fun hm => n3 _ hm _ (List.mem_map_of_mem hp) rfl]
      exact h p (by rw [List.flatten_cons]; exact List.mem_append_right _ hp)

theorem loadSlotsChecked_throw (items : List (Nat × Block)) {c : Cuckoo} (hlt : ∀ p ∈ items, p.1 < c.hashes.length)
    (p : Nat × Block) (hp : p ∈ items) (b : Block) (hb : c.hashes[p.1]? = some b) (hne : b ≠ BitVec.allOnes 128) :
    loadSlotsChecked c items = .throw := by
  induction items generalizing c with
  | nil => simp at hp
  | cons q rest ih =>
    obtain ⟨i, v⟩ := q
    have hi : i < c.hashes.length := hlt (i, v) (List.mem_cons_self ..)
    unfold loadSlotsChecked setHashChecked
    rw [if_pos hi]
    by_cases hc : c.hashes.getD i 0 ≠ BitVec.allOnes 128
    · rw [if_pos hc]; rfl
    · rw [if_neg hc]
      have hc := Classical.not_not.mp hc
      have hpi : p.1 ≠ i := by
        intro e
        rw [e] at hb
        simp [List.getD, hb] at hc
        exact hne hc
      have hp' : p ∈ rest := by
        rcases List.mem_cons.mp hp with rfl | hp'
        · exact absurd rfl hpi
        · exact hp'
      cases e1 : setHash c i v with
      | ub => unfold setHash at e1; rw [if_pos hi] at e1; simp at e1
      | throw => rfl
      | ok c1 =>
        have hl : c1.hashes.length = c.hashes.length := by
          unfold setHash at e1
          rw [if_pos hi] at e1
          simp at e1
          subst e1
          simp
        rw [bind_ok, ih (fun x hx => by rw [hl]; exact hlt x (List.mem_cons_of_mem _ hx)) hp'
          (by rw [setHash_frame e1 p.1 (by simpa using hpi)]; exact hb)]
        rfl

end Verif.Cuckoo
