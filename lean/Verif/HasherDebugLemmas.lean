import Verif.HasherDebugModel
import Verif.HasherProps
/-
Lemmas: the insertions write no row but those of their own indices.
-/
namespace Verif.Hasher
open Verif Verif.Cuckoo

theorem bind_eq_ok {α β : Type} {x : Out α} {f : α → Out β} {b : β} (h : x.bind f = .ok b) : ∃ a, x = .ok a ∧ f a = .ok b := by
  cases x with
  | ok a => exact ⟨a, rfl, h⟩
  | throw => simp [Out.bind] at h
  | ub => simp [Out.bind] at h

theorem stashPush_rows (m : Nat) {c c' : Hasher} {i h k : Nat} (hm : c.stash.length - k ≤ m)
    (e : stashPush c i h k = .ok c') : c'.rows = c.rows ∧ c'.numHashes = c.numHashes := by
  induction m generalizing c i h k with
  | zero =>
    unfold stashPush at e
    rw [dif_neg (by omega)] at e
    simp at e
  | succ m ih =>
    unfold stashPush at e
    split at e
    · simp only [] at e
      split at e
      · simp at e; subst e; exact ⟨rfl, rfl⟩
      · have := ih (by simp only [List.length_set]; omega) e
        exact this
    · simp at e

theorem insertHelper_rows (rem : Nat) {c c' : Hasher} {i h : Nat} (e : insertHelper c i h rem = .ok c') :
    c'.rows = c.rows ∧ c'.numHashes = c.numHashes := by
  induction rem generalizing c i h with
  | zero =>
    unfold insertHelper at e
    split at e
    · simp only [] at e
      split at e
      · simp at e; subst e; exact ⟨rfl, rfl⟩
      · have := stashPush_rows _ (Nat.le_refl _) e
        exact this
    · simp at e
  | succ rem ih =>
    unfold insertHelper at e
    split at e
    · simp only [] at e
      split at e
      · simp at e; subst e; exact ⟨rfl, rfl⟩
      · split at e
        · simp at e
        · have := ih e
          exact this
    · simp at e

theorem swapAll_rows (l : List ((Nat × Nat) × Nat)) (c : Hasher) :
    (swapAll c l).1.rows = c.rows ∧ (swapAll c l).1.numHashes = c.numHashes := by
  induction l generalizing c with
  | nil => exact ⟨rfl, rfl⟩
  | cons p l ih => exact ih _

theorem rounds_rows (n : Nat) {c : Hasher} {slots : List (Nat × Nat)} {q : Hasher × List (Nat × Nat)}
    (e : rounds n c slots = .ok q) : q.1.rows = c.rows ∧ q.1.numHashes = c.numHashes := by
  induction n generalizing c slots with
  | zero => simp [rounds] at e; subst e; exact ⟨rfl, rfl⟩
  | succ n ih =>
    unfold rounds at e
    split at e
    · simp at e; subst e; exact ⟨rfl, rfl⟩
    · split at e
      · simp only [] at e
        obtain ⟨h1, h2⟩ := ih e
        obtain ⟨h3, h4⟩ := swapAll_rows (slots.map fun s => (s, addrOf c s.1 s.2)) c
        exact ⟨h1.trans h3, h2.trans h4⟩
      · simp at e

theorem stashAll_rows (m : Nat) {c c' : Hasher} {slots : List (Nat × Nat)} {j : Nat} (hm : c.stash.length - j ≤ m)
    (e : stashAll c slots j = .ok c') : c'.rows = c.rows ∧ c'.numHashes = c.numHashes := by
  induction m generalizing c slots j with
  | zero =>
    unfold stashAll at e
    split at e
    · simp at e; subst e; exact ⟨rfl, rfl⟩
    · rw [dif_neg (by omega)] at e
      simp at e
  | succ m ih =>
    unfold stashAll at e
    split at e
    · simp at e; subst e; exact ⟨rfl, rfl⟩
    · split at e
      · simp only [] at e
        split at e
        · have := ih (by simp only [List.length_set]; omega) e
          exact this
        · have := ih (by simp only [List.length_set]; omega) e
          exact this
      · simp at e

/-- The number of rows stays, and rows of indices that are not among `l` keep their words. -/
def RowsKept (l : List Nat) (c c' : Hasher) : Prop :=
  c'.rows.length = c.rows.length ∧ c'.numHashes = c.numHashes ∧ ∀ i, i ∉ l → c'.rows[i]? = c.rows[i]?

theorem RowsKept.of_eq {l : List Nat} {c c' : Hasher} (h : c'.rows = c.rows ∧ c'.numHashes = c.numHashes) :
    RowsKept l c c' := ⟨by rw [h.1], h.2, fun _ _ => by rw [h.1]⟩

theorem RowsKept.trans {l l' : List Nat} {a b c : Hasher} (h : RowsKept l a b) (h' : RowsKept l' b c) :
    RowsKept (l ++ l') a c :=
  ⟨h'.1.trans h.1, h'.2.1.trans h.2.1, fun i hi => by
    rw [List.mem_append, not_or] at hi
    rw [h'.2.2 i hi.2, h.2.2 i hi.1]⟩

theorem RowsKept.set (c : Hasher) (i : Nat) (r : List Nat) : RowsKept [i] c { c with rows := c.rows.set i r } :=
  ⟨by simp, rfl, fun j hj => by
    simp only [List.mem_singleton] at hj
    exact List.getElem?_set_ne (fun e => hj e.symm)⟩

theorem insert_rows {c c' : Hasher} {i : Nat} {hs : List Nat} (e : insert c i hs = .ok c') : RowsKept [i] c c' := by
  unfold insert at e
  split at e
  · split at e
    · simp at e
    · have h := insertHelper_rows _ e
      have := (RowsKept.set c i (hs.take c.numHashes)).trans (RowsKept.of_eq (l := []) h)
      simpa using this
  · simp at e

theorem loadRows_rows (items : List (Nat × List Nat)) {c c' : Hasher} (e : loadRows c items = .ok c') :
    RowsKept (items.map (·.1)) c c' := by
  induction items generalizing c with
  | nil => simp [loadRows] at e; subst e; exact RowsKept.of_eq ⟨rfl, rfl⟩
  | cons p items ih =>
    obtain ⟨i, hs⟩ := p
    unfold loadRows at e
    split at e
    · exact (RowsKept.set c i (hs.take c.numHashes)).trans (ih e)
    · simp at e

theorem insertBatch_rows {c c' : Hasher} {items : List (Nat × List Nat)} {ws : Nat} (e : insertBatch c items ws = .ok c') :
    RowsKept (items.map (·.1)) c c' := by
  unfold insertBatch at e
  split at e
  · obtain ⟨c1, e1, e⟩ := bind_eq_ok e
    obtain ⟨q, e2, e⟩ := bind_eq_ok e
    have h1 := loadRows_rows items e1
    have h2 := rounds_rows _ e2
    have h3 := stashAll_rows _ (Nat.le_refl _) e
    have := h1.trans (RowsKept.of_eq (l := []) ⟨h3.1.trans h2.1, h3.2.trans h2.2⟩)
    simpa using this
  · simp at e

theorem runCall_rows {c c' : Hasher} {x : Call} (e : runCall c x = .ok c') : RowsKept (x.items.map (·.1)) c c' := by
  cases x with
  | single i hs => exact insert_rows e
  | batch items ws => exact insertBatch_rows e

/-! ### the check passes -/

/-- The row of `i` has its initial value. -/
def Untouched (c : Hasher) (i : Nat) : Prop := c.rows[i]? = some (List.replicate c.numHashes emptyVal)

theorem RowsKept.untouched {l : List Nat} {c c' : Hasher} (h : RowsKept l c c') {i : Nat} (hi : i ∉ l) (hu : Untouched c i) :
    Untouched c' i := by
  unfold Untouched at hu ⊢
  rw [h.2.2 i hi, h.2.1]; exact hu

theorem copyWords_fresh (n : Nat) (hs : List Nat) (h : n ≤ hs.length) :
    copyWords (List.replicate n emptyVal) hs = .ok (hs.take n) := by
  induction n generalizing hs with
  | zero => simp [copyWords]
  | succ n ih =>
    cases hs with
    | nil => simp at h
    | cons v hs =>
      rw [List.replicate_succ]
      unfold copyWords
      rw [if_neg (by simp), ih hs (by simpa using h)]
      simp [Out.bind]

theorem loadRowsChecked_eq (items : List (Nat × List Nat)) {c : Hasher} (hn : (items.map (·.1)).Nodup)
    (hl : ∀ p ∈ items, c.numHashes ≤ p.2.length) (hu : ∀ p ∈ items, Untouched c p.1) :
    loadRowsChecked c items = loadRows c items := by
  induction items generalizing c with
  | nil => rfl
  | cons p items ih =>
    obtain ⟨i, hs⟩ := p
    have h1 := hu (i, hs) (List.mem_cons_self ..)
    have h2 := hl (i, hs) (List.mem_cons_self ..)
    simp only at h1 h2
    unfold Untouched at h1
    have hi : i < c.rows.length := by
      rcases Nat.lt_or_ge i c.rows.length with h | h
      · exact h
      · rw [List.getElem?_eq_none h] at h1; simp at h1
    unfold loadRowsChecked loadRows
    rw [if_pos hi, if_pos ⟨hi, h2⟩]
    have hg : c.rows.getD i [] = List.replicate c.numHashes emptyVal := by simp only [List.getD, h1, Option.getD_some]
    rw [hg, copyWords_fresh _ _ h2]
    simp only [List.map_cons, List.nodup_cons] at hn
    refine ih hn.2 (fun q hq => hl q (List.mem_cons_of_mem _ hq)) (fun q hq => ?_)
    refine (RowsKept.set c i (hs.take c.numHashes)).untouched ?_ (hu q (List.mem_cons_of_mem _ hq))
    intro hm
    simp only [List.mem_singleton] at hm
    exact hn.1 (hm ▸ List.mem_map_of_mem hq)

theorem runCallsChecked_eq (calls : List Call) {c : Hasher} (hn : ((calls.flatMap Call.items).map (·.1)).Nodup)
    (hl : ∀ p ∈ calls.flatMap Call.items, c.numHashes ≤ p.2.length)
    (hu : ∀ p ∈ calls.flatMap Call.items, Untouched c p.1) : runCallsChecked c calls = runCalls c calls := by
  induction calls generalizing c with
  | nil => rfl
  | cons x calls ih =>
    rw [List.flatMap_cons] at hn hl hu
    rw [List.map_append, List.nodup_append] at hn
    have hx : runCallChecked c x = runCall c x := by
      cases x with
      | single i hs => rfl
      | batch items ws =>
        have := loadRowsChecked_eq items (c := c) hn.1 (fun p hp => hl p (List.mem_append_left _ hp))
          (fun p hp => hu p (List.mem_append_left _ hp))
        unfold runCallChecked runCall insertBatchChecked insertBatch
        simp only [this]
    unfold runCallsChecked runCalls
    rw [hx]
    cases e : runCall c x with
    | throw => rfl
    | ub => rfl
    | ok d =>
      have hk := runCall_rows e
      refine ih hn.2.1 (fun p hp => ?_) (fun p hp => ?_)
      · rw [hk.2.1]; exact hl p (List.mem_append_right _ hp)
      · refine hk.untouched (fun hm => ?_) (hu p (List.mem_append_right _ hp))
        exact hn.2.2 p.1 hm p.1 (List.mem_map_of_mem hp) rfl

/-! ### the check throws -/

theorem copyWords_throw {row hs : List Nat} (hl : row.length ≤ hs.length) (hw : ∃ w ∈ row, w ≠ emptyVal) :
    copyWords row hs = .throw := by
  induction row generalizing hs with
  | nil => obtain ⟨w, h, _⟩ := hw; simp at h
  | cons w row ih =>
    cases hs with
    | nil => simp at hl
    | cons v hs =>
      unfold copyWords
      by_cases e : w ≠ emptyVal
      · rw [if_pos e]
      · rw [if_neg e, ih (by simpa using hl)]
        · rfl
        · obtain ⟨x, hx, hne⟩ := hw
          rcases List.mem_cons.mp hx with rfl | hx
          · exact absurd hne e
          · exact ⟨x, hx, hne⟩

theorem copyWords_ok {row hs r : List Nat} (e : copyWords row hs = .ok r) : r = hs.take row.length := by
  induction row generalizing hs r with
  | nil => simp [copyWords] at e; subst e; rfl
  | cons w row ih =>
    cases hs with
    | nil => simp [copyWords] at e
    | cons v hs =>
      unfold copyWords at e
      split at e
      · simp at e
      · obtain ⟨q, e1, e2⟩ := bind_eq_ok e
        simp at e2
        subst e2
        rw [ih e1]; simp

theorem copyWords_not_ub {row hs : List Nat} (hl : row.length ≤ hs.length) :
    copyWords row hs = .throw ∨ copyWords row hs = .ok (hs.take row.length) := by
  cases e : copyWords row hs with
  | throw => exact Or.inl rfl
  | ok r => right; rw [copyWords_ok e]
  | ub =>
    exfalso
    induction row generalizing hs with
    | nil => simp [copyWords] at e
    | cons w row ih =>
      cases hs with
      | nil => simp at hl
      | cons v hs =>
        unfold copyWords at e
        split at e
        · simp at e
        · cases e2 : copyWords row hs with
          | ok r => rw [e2] at e; simp [Out.bind] at e
          | throw => rw [e2] at e; simp [Out.bind] at e
          | ub => exact ih (by simpa using hl) e2

/-- One item of the loop. -/
theorem loadRowsChecked_cons {c : Hasher} {i : Nat} {hs : List Nat} {rest : List (Nat × List Nat)}
    (hrow : ∀ row ∈ c.rows, row.length = c.numHashes) (hi : i < c.rows.length) (hl : c.numHashes ≤ hs.length) :
    loadRowsChecked c ((i, hs) :: rest) = .throw ∨
      loadRowsChecked c ((i, hs) :: rest) = loadRowsChecked { c with rows := c.rows.set i (hs.take c.numHashes) } rest := by
  have hg : (c.rows.getD i []).length = c.numHashes := by
    apply hrow
    simp [List.getD, hi]
  rw [loadRowsChecked, if_pos hi]
  rcases copyWords_not_ub (row := c.rows.getD i []) (hs := hs) (by rw [hg]; exact hl) with e | e
  · left; rw [e]; rfl
  · right; rw [e, hg]; rfl

theorem rows_set_length {c : Hasher} {i : Nat} {hs : List Nat} (hrow : ∀ row ∈ c.rows, row.length = c.numHashes)
    (hl : c.numHashes ≤ hs.length) : ∀ row ∈ c.rows.set i (hs.take c.numHashes), row.length = c.numHashes := by
  intro row hm
  rcases List.mem_or_eq_of_mem_set hm with hm | rfl
  · exact hrow row hm
  · rw [List.length_take]; omega

theorem loadRowsChecked_throw (items : List (Nat × List Nat)) {c : Hasher} (hrow : ∀ row ∈ c.rows, row.length = c.numHashes)
    (hlt : ∀ p ∈ items, p.1 < c.rows.length) (hl : ∀ p ∈ items, c.numHashes ≤ p.2.length) {p : Nat × List Nat}
    (hp : p ∈ items) (hw : ∃ w ∈ c.rows.getD p.1 [], w ≠ emptyVal) : loadRowsChecked c items = .throw := by
  induction items generalizing c with
  | nil => simp at hp
  | cons q items ih =>
    obtain ⟨i, hs⟩ := q
    have hi := hlt (i, hs) (List.mem_cons_self ..)
    have h2 := hl (i, hs) (List.mem_cons_self ..)
    simp only at hi h2
    by_cases e : p.1 = i
    · rw [e] at hw
      have hg : (c.rows.getD i []).length = c.numHashes := by
        apply hrow
        simp [List.getD, hi]
      unfold loadRowsChecked
      rw [if_pos hi, copyWords_throw (by rw [hg]; exact h2) hw]
      rfl
    · have hp' : p ∈ items := by
        rcases List.mem_cons.mp hp with rfl | hp
        · exact absurd rfl e
        · exact hp
      rcases loadRowsChecked_cons (rest := items) hrow hi h2 with h | h
      · exact h
      · rw [h]
        refine ih (c := { c with rows := c.rows.set i (hs.take c.numHashes) }) (rows_set_length hrow h2)
          (fun q hq => ?_) (fun q hq => hl q (List.mem_cons_of_mem _ hq)) hp' ?_
        · simpa using hlt q (List.mem_cons_of_mem _ hq)
        · have : (c.rows.set i (hs.take c.numHashes)).getD p.1 [] = c.rows.getD p.1 [] := by
            simp only [List.getD]
            rw [List.getElem?_set_ne (fun h => e h.symm)]
          show ∃ w ∈ (c.rows.set i (hs.take c.numHashes)).getD p.1 [], w ≠ emptyVal
          rw [this]; exact hw

theorem loadRowsChecked_twice (a : List (Nat × List Nat)) {rest : List (Nat × List Nat)} {i : Nat} {hs hs' : List Nat}
    {c : Hasher} (hrow : ∀ row ∈ c.rows, row.length = c.numHashes)
    (hlt : ∀ p ∈ a ++ (i, hs) :: rest, p.1 < c.rows.length) (hl : ∀ p ∈ a ++ (i, hs) :: rest, c.numHashes ≤ p.2.length)
    (hm : (i, hs') ∈ rest) (hw : ∃ w ∈ hs.take c.numHashes, w ≠ emptyVal) :
    loadRowsChecked c (a ++ (i, hs) :: rest) = .throw := by
  induction a generalizing c with
  | nil =>
    have hi := hlt (i, hs) (by simp)
    have h2 := hl (i, hs) (by simp)
    simp only at hi h2
    rcases loadRowsChecked_cons (rest := rest) hrow hi h2 with h | h
    · exact h
    · rw [List.nil_append, h]
      refine loadRowsChecked_throw rest (c := { c with rows := c.rows.set i (hs.take c.numHashes) })
        (rows_set_length hrow h2) (fun q hq => ?_) (fun q hq => hl q (by simp [hq])) hm ?_
      · simpa using hlt q (by simp [hq])
      · show ∃ w ∈ (c.rows.set i (hs.take c.numHashes)).getD i [], w ≠ emptyVal
        have : (c.rows.set i (hs.take c.numHashes)).getD i [] = hs.take c.numHashes := by
          simp only [List.getD]
          rw [List.getElem?_set_self hi]; rfl
        rw [this]; exact hw
  | cons q a ih =>
    obtain ⟨j, gs⟩ := q
    have hj := hlt (j, gs) (by simp)
    have h2 := hl (j, gs) (by simp)
    simp only at hj h2
    rcases loadRowsChecked_cons (rest := a ++ (i, hs) :: rest) hrow hj h2 with h | h
    · exact h
    · rw [List.cons_append, h]
      refine ih (c := { c with rows := c.rows.set j (gs.take c.numHashes) }) (rows_set_length hrow h2)
        (fun q hq => ?_) (fun q hq => hl q (by rw [List.cons_append]; exact List.mem_cons_of_mem _ hq)) hw
      have := hlt q (by rw [List.cons_append]; exact List.mem_cons_of_mem _ hq)
      simpa using this

/-- A row that is too short is read past its end. -/
theorem loadRows_short (items : List (Nat × List Nat)) {c : Hasher} {p : Nat × List Nat} (hp : p ∈ items)
    (hs : p.2.length < c.numHashes) : loadRows c items = .ub := by
  induction items generalizing c with
  | nil => simp at hp
  | cons q items ih =>
    obtain ⟨i, gs⟩ := q
    unfold loadRows
    split
    · rename_i h
      rcases List.mem_cons.mp hp with rfl | hp
      · simp only at hs; omega
      · exact ih (c := { c with rows := c.rows.set i (gs.take c.numHashes) }) hp hs
    · rfl

/-- The words of row `i` of a matrix with as many columns as the table. -/
theorem flatRow_flatten (width : Nat) (M : List (List Nat)) (hM : ∀ r ∈ M, r.length = width) (i : Nat) (hi : i < M.length) :
    flatRow width M.flatten i = M.getD i [] := by
  induction M generalizing i with
  | nil => simp at hi
  | cons r M ih =>
    have hr := hM r (List.mem_cons_self ..)
    cases i with
    | zero =>
      unfold flatRow
      simp [← hr]
    | succ i =>
      have := ih (fun r hr => hM r (List.mem_cons_of_mem _ hr)) i (by simpa using hi)
      unfold flatRow at this ⊢
      rw [List.flatten_cons, Nat.add_mul, Nat.one_mul, List.drop_append, List.drop_eq_nil_of_le (by omega), List.nil_append]
      have e : i * width + width - r.length = i * width := by omega
      rw [e, this]
      simp

end Verif.Hasher
