import Verif.Grr18PlaceSpec
/-
Property C123: the rows of the mask buffer are in the order of the bins, so they show the real sizes of the sender's bins.
-/
namespace Verif.Grr18
open Verif Part Rr17

/-! ### places in lists of lists -/

theorem flatMap_place {α β : Type} (f : α → List β) (l1 : List α) (a : α) (l2 : List α) (j : Nat) (hj : j < (f a).length) :
    ((l1 ++ a :: l2).flatMap f)[(l1.flatMap f).length + j]? = (f a)[j]? := by
  rw [List.flatMap_append, List.flatMap_cons, List.getElem?_append_right (by omega), Nat.add_sub_cancel_left,
    List.getElem?_append_left hj]

theorem flatMap_split {α β : Type} (f : α → List β) (l : List α) (r : Nat) (h : r < (l.flatMap f).length) :
    ∃ l1 a l2 j, l = l1 ++ a :: l2 ∧ j < (f a).length ∧ r = (l1.flatMap f).length + j := by
  induction l generalizing r with
  | nil => simp at h
  | cons a l ih =>
    rw [List.flatMap_cons, List.length_append] at h
    by_cases hr : r < (f a).length
    · exact ⟨[], a, l, r, rfl, hr, by simp⟩
    · obtain ⟨l1, b, l2, j, e, hj, hr'⟩ := ih (r - (f a).length) (by omega)
      refine ⟨a :: l1, b, l2, j, by rw [e]; rfl, hj, ?_⟩
      rw [List.flatMap_cons, List.length_append]
      omega

theorem interval_at {s e b : Nat} (h1 : s ≤ b) (h2 : b < e) : interval s e = interval s b ++ b :: interval (b + 1) e := by
  unfold interval
  rw [show e - s = (b - s) + (1 + (e - (b + 1))) by omega, List.range_add, List.map_append, List.map_map, List.range_add]
  simp only [List.map_append, List.map_map, List.range_one, List.map_cons, List.map_nil, List.cons_append, List.nil_append]
  congr 2
  · simp only [Function.comp]
    omega
  · apply List.map_congr_left
    intro i _
    simp only [Function.comp]
    omega

theorem interval_split {s e b : Nat} {l1 l2 : List Nat} (h : interval s e = l1 ++ b :: l2) : l1 = interval s b ∧ s ≤ b ∧ b < e := by
  have hb : b ∈ interval s e := by rw [h]; simp
  have hb' := mem_interval.mp hb
  refine ⟨?_, hb'.1, hb'.2⟩
  have hl : l1.length < (interval s e).length := by rw [h]; simp
  have hg : (interval s e)[l1.length]? = some b := by rw [h]; simp
  have hlen : (interval s e).length = e - s := by simp [interval]
  have hbl : b = s + l1.length := by
    unfold interval at hg
    rw [List.getElem?_map, List.getElem?_range (by omega)] at hg
    simpa using hg.symm
  have e1 := interval_at hb'.1 hb'.2
  rw [h] at e1
  have e2 := congrArg (List.take l1.length) e1
  rw [List.take_left, List.take_left' (by simp [interval]; omega)] at e2
  exact e2

/-! ### rows -/

/-- The number of rows of thread `t` for its bins before `b`. -/
def before (c : Cfg) (rLoad : Nat → Nat) (bins : Nat → List Nat) (t b : Nat) : Nat :=
  ((interval (bound c.B c.T t) b).map fun b' => (bins b').length * rLoad b').sum

/-- The rows of the threads that took their part of the buffer earlier. -/
def start (c : Cfg) (rLoad : Nat → Nat) (bins : Nat → List Nat) (earlier : List Nat) : Nat := (earlier.map (numLocal c rLoad bins)).sum

theorem rows_length (rLoad : Nat → Nat) (bins : Nat → List Nat) (bs : List Nat) :
    (bs.flatMap fun b => (bins b).flatMap fun idx => (List.range (rLoad b)).map fun l => (b, idx, l)).length =
      (bs.map fun b => (bins b).length * rLoad b).sum := by
  rw [List.length_flatMap]
  congr 1
  apply List.map_congr_left
  intro b _
  rw [List.length_flatMap]
  simp only [List.length_map, List.length_range]
  exact sum_const _ _

theorem start_length (c : Cfg) (rLoad : Nat → Nat) (bins : Nat → List Nat) (o : List Nat) :
    (rowData c rLoad bins o).length = start c rLoad bins o := by
  unfold rowData start
  rw [List.length_flatMap]
  congr 1
  apply List.map_congr_left
  intro t _
  rw [List.length_map, sendRows_length]

theorem cell_length (rLoad : Nat → Nat) (b : Nat) (is : List Nat) :
    (is.flatMap fun idx => (List.range (rLoad b)).map fun l => (b, idx, l)).length = is.length * rLoad b := by
  rw [List.length_flatMap]
  simp only [List.length_map, List.length_range]
  exact sum_const _ _

/-- Row `start + before + p * rLoad b + l` belongs to item `p` of bin `b`, column `l`. -/
theorem rowData_at (c : Cfg) (rLoad : Nat → Nat) (bins : Nat → List Nat) (o1 o2 : List Nat) (t b p idx l : Nat)
    (hb : b ∈ c.binsOf t) (hp : (bins b)[p]? = some idx) (hl : l < rLoad b) :
    (rowData c rLoad bins (o1 ++ t :: o2))[start c rLoad bins o1 + (before c rLoad bins t b + (p * rLoad b + l))]? =
      some (t, b, idx, l) := by
  have hbb := mem_interval.mp hb
  obtain ⟨hpl, hpe⟩ := List.getElem?_eq_some_iff.mp hp
  have hcell : p * rLoad b + l < (bins b).length * rLoad b := by
    calc p * rLoad b + l < p * rLoad b + rLoad b := by omega
      _ = (p + 1) * rLoad b := by rw [Nat.add_mul, Nat.one_mul]
      _ ≤ (bins b).length * rLoad b := Nat.mul_le_mul_right _ hpl
  have h1 : ((bins b).flatMap fun idx => (List.range (rLoad b)).map fun l => (b, idx, l))[p * rLoad b + l]? = some (b, idx, l) := by
    have hs : bins b = (bins b).take p ++ idx :: (bins b).drop (p + 1) := by
      rw [← hpe, List.getElem_cons_drop, List.take_append_drop]
    rw [hs]
    have := flatMap_place (fun idx => (List.range (rLoad b)).map fun l => (b, idx, l)) ((bins b).take p) idx ((bins b).drop (p + 1)) l
      (by simpa using hl)
    rw [cell_length, List.length_take, Nat.min_eq_left (by omega)] at this
    rw [this, List.getElem?_map, List.getElem?_range hl]
    rfl
  have h2 : (sendRows c rLoad bins t)[before c rLoad bins t b + (p * rLoad b + l)]? = some (b, idx, l) := by
    unfold sendRows Cfg.binsOf before
    rw [interval_at hbb.1 hbb.2, ← rows_length]
    rw [flatMap_place _ _ _ _ _ (by rw [cell_length]; exact hcell)]
    exact h1
  have h3 : before c rLoad bins t b + (p * rLoad b + l) < (sendRows c rLoad bins t).length := (List.getElem?_eq_some_iff.mp h2).1
  rw [← start_length]
  unfold rowData
  rw [flatMap_place _ _ _ _ _ (by simpa using h3), List.getElem?_map, h2]
  rfl

/-- Every row of the buffer that holds a mask is of this form. -/
theorem rowData_split (c : Cfg) (rLoad : Nat → Nat) (bins : Nat → List Nat) (order : List Nat) (r : Nat)
    (hr : r < (rowData c rLoad bins order).length) :
    ∃ o1 t o2 b p idx l, order = o1 ++ t :: o2 ∧ b ∈ c.binsOf t ∧ (bins b)[p]? = some idx ∧ l < rLoad b ∧
      r = start c rLoad bins o1 + (before c rLoad bins t b + (p * rLoad b + l)) := by
  obtain ⟨o1, t, o2, j, e1, hj, hr⟩ := flatMap_split _ _ _ hr
  rw [List.length_map] at hj
  obtain ⟨b1, b, b2, k, e2, hk, hj'⟩ := flatMap_split _ _ _ hj
  obtain ⟨i1, idx, i2, l, e3, hl, hk'⟩ := flatMap_split _ _ _ hk
  rw [List.length_map, List.length_range] at hl
  have hbm : b ∈ c.binsOf t := by rw [e2]; simp
  refine ⟨o1, t, o2, b, i1.length, idx, l, e1, hbm, by rw [e3]; simp, hl, ?_⟩
  rw [hr, hj', hk', cell_length, rows_length, (interval_split e2).1, ← start_length]
  rfl

/-- C123, where the masks are: whatever the order of the threads and of the stores, the mask of item `p` of bin `b` with column `l` is in row
`start + before + p * rLoad b + l`, where `before` adds up the real sizes of the bins before. -/
theorem C123_row (c : Cfg) (rLoad : Nat → Nat) (xs sm : List Block) (bins : Nat → List Nat) (o1 o2 : List Nat) (t : Nat)
    (ho : (o1 ++ t :: o2).Perm (List.range c.T)) (extra : Int) (hx : 0 ≤ extra) (junk : Nat → Nat) (ws : List (Nat × Nat))
    (hw : ws.Perm (sendWrites c rLoad xs sm bins (o1 ++ t :: o2))) (buf : List Nat) (hbuf : sendBuffer c rLoad bins extra junk ws = .ok buf)
    (b p idx l : Nat) (hb : b ∈ c.binsOf t) (hp : (bins b)[p]? = some idx) (hl : l < rLoad b) :
    buf[start c rLoad bins o1 + (before c rLoad bins t b + (p * rLoad b + l))]? = some (sendMask c rLoad xs sm t b idx l) := by
  obtain ⟨buf', h1, h2, h3, _⟩ := sendBuffer_ok rLoad xs sm bins ho hx junk hw
  rw [hbuf] at h1
  cases h1
  have hd := rowData_at c rLoad bins o1 o2 t b p idx l hb hp hl
  have hlt := (List.getElem?_eq_some_iff.mp hd).1
  have hlt' := hlt
  have hlen := allMasks_length c rLoad xs sm bins (o1 ++ t :: o2) ho
  rw [allMasks_rowData, List.length_map] at hlen
  rw [hlen] at hlt'
  have := h3 _ hlt'
  rw [allMasks_rowData, List.getD_eq_getElem?_getD, List.getD_eq_getElem?_getD, List.getElem?_map, hd] at this
  rw [List.getElem?_eq_getElem (by omega)] at this ⊢
  simpa using this

/-! ### what the receiver sees -/

/-- The buffer that the sender sends in a run. -/
def runBuffer (c : Cfg) (hash : Option (Block → Block)) (X : List Block) (sbins : Nat → List Nat) (sLoad rOwn : Nat → Nat) (s : Sched) : Out (List Nat) :=
  sendBuffer c (fun b => max (rOwn b) (sLoad b)) sbins s.extra s.junk
    (s.writes (sendWrites c (fun b => max (rOwn b) (sLoad b)) (otInputs hash c X)
      (otMasks c c.F1 sLoad (otInputs hash c X) sbins s.sPerm) sbins s.order))

section
variable {c : Cfg} {hash : Option (Block → Block)} {X Y : List Block} {sbins rbins : Nat → List Nat} {sLoad rOwn : Nat → Nat} {s : Sched}

/-- C123, the receiver recognises a common item in the row given by the sizes of the bins. `l` is the number of the OT that the receiver
used for its item in the bin, which it knows. -/
theorem C123_found (h : Run c hash X Y sbins rbins sLoad rOwn s) (buf : List Nat) (hbuf : runBuffer c hash X sbins sLoad rOwn s = .ok buf)
    (o1 o2 : List Nat) (t : Nat) (ho : s.order = o1 ++ t :: o2) (b p i j : Nat) (hb : b ∈ c.binsOf t) (hp : (sbins b)[p]? = some i)
    (hi : i < X.length) (hj : j < Y.length) (hij : X[i] = Y[j]) :
    ∃ l, l < max (rOwn b) (sLoad b) ∧
      (otMasks c c.F2 (fun b => max (rOwn b) (sLoad b)) (otInputs hash c Y) rbins s.rPerm).getD j 0 =
        c.F2 t (off c (fun b => max (rOwn b) (sLoad b)) t b + l) ((otInputs hash c Y).getD j 0) ∧
      Seen c (runEntries c hash Y rbins sLoad rOwn s) buf
        (start c (fun b => max (rOwn b) (sLoad b)) sbins o1 +
          (before c (fun b => max (rOwn b) (sLoad b)) sbins t b + (p * max (rOwn b) (sLoad b) + l))) j := by
  have hlX : X.length = c.N := by have := h.S.len; simpa [hashed] using this
  have hlY : Y.length = c.N := by have := h.R.len; simpa [hashed] using this
  have ht : t < c.T := List.mem_range.mp (h.ord.mem_iff.mp (by rw [ho]; simp))
  have hbB := binsOf_lt h.T h.ov ht hb
  have hib : i ∈ sbins b := List.mem_of_getElem? hp
  have hgX : (hashed hash X).getD i 0 = hash.elim X[i] fun h => h X[i] := by
    unfold hashed; rw [Kkrt.getD_eq (by simpa using hi), List.getElem_map]
  have hgY : (hashed hash Y).getD j 0 = hash.elim Y[j] fun h => h Y[j] := by
    unfold hashed; rw [Kkrt.getD_eq (by simpa using hj), List.getElem_map]
  have hgo : (otInputs hash c X).getD i 0 = (otInputs hash c Y).getD j 0 := by
    unfold otInputs hashed
    rw [Kkrt.getD_eq (by simpa using hi), Kkrt.getD_eq (by simpa using hj)]
    simp only [List.getElem_map]
    rw [hij]
  have hab := (List.mem_filter.mp ((h.S.mem b hbB).mem_iff.mp hib)).2
  have hjb : j ∈ rbins b := (h.R.mem b hbB).mem_iff.mpr
    (List.mem_filter.mpr ⟨List.mem_range.mpr (by omega), by rw [hgY, ← hij, ← hgX]; simpa using hab⟩)
  obtain ⟨a, ha, hma⟩ := otMasks_spec c.F1 (otInputs hash c X) h.T h.ov (h.S.holds h.B) h.sl h.sp ht hb hib
  obtain ⟨a', ha', hma'⟩ := otMasks_spec (load := fun b => max (rOwn b) (sLoad b)) c.F2 (otInputs hash c Y) h.T h.ov
    (h.R.holds h.B) h.rl h.rp ht hb hjb
  refine ⟨a', ha', hma', ?_⟩
  have hw := h.wr (sendWrites c (fun b => max (rOwn b) (sLoad b)) (otInputs hash c X)
      (otMasks c c.F1 sLoad (otInputs hash c X) sbins s.sPerm) sbins s.order)
  have hord := h.ord
  unfold runBuffer at hbuf
  rw [ho] at hw hord hbuf
  have hrow := C123_row c (fun b => max (rOwn b) (sLoad b)) _ _ sbins o1 o2 t hord s.extra h.ex s.junk _ hw buf hbuf b p i a' hb hp ha'
  obtain ⟨hlt, hval⟩ := List.getElem?_eq_some_iff.mp hrow
  refine ⟨hlt, _, mem_entries.mpr ⟨t, b, j, a, ht, hb, hjb, ha, rfl⟩, ?_, ?_⟩
  · have := h.sM b hbB
    show (j * c.M + a) / c.M = j
    rw [Nat.mul_comm, Nat.mul_add_div (by omega), Nat.div_eq_of_lt (by omega), Nat.add_zero]
  · rw [Kkrt.getD_eq hlt, hval, hma']
    unfold sendMask
    rw [hma, hgo, BitVec.xor_comm]

/-- C123, without accidental collisions the receiver recognises its item in no other rows than those of items of the sender with the same
address and the same OT input. -/
theorem C123_only (h : Run c hash X Y sbins rbins sLoad rOwn s) (buf : List Nat) (hbuf : runBuffer c hash X sbins sLoad rOwn s = .ok buf)
    (hc : CollisionFree c sLoad (fun b => max (rOwn b) (sLoad b)) (otInputs hash c X ++ otInputs hash c Y))
    (hjunk : ∀ i, ∀ e ∈ runEntries c hash Y rbins sLoad rOwn s, s.junk i ≠ e.2.2) (r j : Nat)
    (hs : Seen c (runEntries c hash Y rbins sLoad rOwn s) buf r j) :
    ∃ o1 t o2 b p i l, s.order = o1 ++ t :: o2 ∧ b ∈ c.binsOf t ∧ (sbins b)[p]? = some i ∧ l < max (rOwn b) (sLoad b) ∧ j ∈ rbins b ∧
      (otInputs hash c X).getD i 0 = (otInputs hash c Y).getD j 0 ∧
      r = start c (fun b => max (rOwn b) (sLoad b)) sbins o1 +
          (before c (fun b => max (rOwn b) (sLoad b)) sbins t b + (p * max (rOwn b) (sLoad b) + l)) := by
  have hlX : X.length = c.N := by have := h.S.len; simpa [hashed] using this
  have hlY : Y.length = c.N := by have := h.R.len; simpa [hashed] using this
  obtain ⟨hr, e, he, hej, hev⟩ := hs
  obtain ⟨buf', h1, h2, h3, h4⟩ := sendBuffer_ok (fun b => max (rOwn b) (sLoad b)) (otInputs hash c X)
    (otMasks c c.F1 sLoad (otInputs hash c X) sbins s.sPerm) sbins h.ord h.ex s.junk
    (h.wr (sendWrites c (fun b => max (rOwn b) (sLoad b)) (otInputs hash c X)
      (otMasks c c.F1 sLoad (otInputs hash c X) sbins s.sPerm) sbins s.order))
  unfold runBuffer at hbuf
  rw [hbuf] at h1
  cases h1
  by_cases hreal : r < realCount c (fun b => max (rOwn b) (sLoad b)) sbins
  · have hlen := allMasks_length c (fun b => max (rOwn b) (sLoad b)) (otInputs hash c X)
      (otMasks c c.F1 sLoad (otInputs hash c X) sbins s.sPerm) sbins s.order h.ord
    rw [allMasks_rowData, List.length_map] at hlen
    obtain ⟨o1, t, o2, b, p, i, l, e1, hbt, hp, hl, hrr⟩ := rowData_split c (fun b => max (rOwn b) (sLoad b)) sbins s.order r (by omega)
    have hib : i ∈ sbins b := List.mem_of_getElem? hp
    have ht : t < c.T := List.mem_range.mp (h.ord.mem_iff.mp (by rw [e1]; simp))
    have hd := rowData_at c (fun b => max (rOwn b) (sLoad b)) sbins o1 o2 t b p i l hbt hp hl
    rw [← e1, ← hrr] at hd
    have hv := h3 r hreal
    rw [allMasks_rowData, List.getD_eq_getElem?_getD (l := List.map _ _), List.getElem?_map, hd] at hv
    simp only [Option.map_some, Option.getD_some] at hv
    rw [hv] at hev
    obtain ⟨t', b', j', l', ht', hbt', hj', hl', rfl⟩ := mem_entries.mp he
    have hbB' := binsOf_lt h.T h.ov ht' hbt'
    have hjj : j' = j := by
      rw [← hej]
      have := h.sM b' hbB'
      show _ = (j' * c.M + l') / c.M
      rw [Nat.mul_comm, Nat.mul_add_div (by omega), Nat.div_eq_of_lt (by omega), Nat.add_zero]
    subst hjj
    obtain ⟨a', ha', hma'⟩ := otMasks_spec (load := fun b => max (rOwn b) (sLoad b)) c.F2 (otInputs hash c Y)
      h.T h.ov (h.R.holds h.B) h.rl h.rp ht' hbt' hj'
    obtain ⟨a, ha, hma⟩ := otMasks_spec c.F1 (otInputs hash c X) h.T h.ov (h.S.holds h.B) h.sl h.sp ht hbt hib
    have hiN : i < X.length := by
      rw [hlX]
      exact List.mem_range.mp ((holds_threads h.T h.ov (h.S.holds h.B)).mem_iff.mp
        (List.mem_flatMap.mpr ⟨t, List.mem_range.mpr ht, List.mem_flatMap.mpr ⟨b, hbt, hib⟩⟩))
    have hjN : j' < Y.length := by
      rw [hlY]
      exact List.mem_range.mp ((holds_threads h.T h.ov (h.R.holds h.B)).mem_iff.mp
        (List.mem_flatMap.mpr ⟨t', List.mem_range.mpr ht', List.mem_flatMap.mpr ⟨b', hbt', hj'⟩⟩))
    simp only at hev
    unfold sendMask at hev
    rw [hma, hma', BitVec.xor_comm (c.F1 t' _ _)] at hev
    obtain ⟨e1', e2, e3, e4⟩ := hc t ht t' ht' _ (off_lt_total (load := fun b => max (rOwn b) (sLoad b)) hbt hl) _
      (off_lt_total (load := fun b => max (rOwn b) (sLoad b)) hbt' ha') _ (off_lt_total hbt ha) _ (off_lt_total hbt' hl')
      _ (List.mem_append_left _ (getD_otInputs_mem hiN)) _ (List.mem_append_right _ (getD_otInputs_mem hjN)) hev.symm
    subst e1'
    obtain ⟨e5, e6⟩ := off_inj c (fun b => max (rOwn b) (sLoad b)) hbt hbt' hl ha' e2
    subst e5
    exact ⟨o1, t, o2, b, p, i, l, e1, hbt, hp, hl, hj', e4, hrr⟩
  · exfalso
    rw [h4 r (by omega) hr] at hev
    exact hjunk r e he hev.symm

/-! ### one thread -/

theorem before_one (hT : c.T = 1) (rLoad : Nat → Nat) (bins : Nat → List Nat) (b : Nat) (hB : c.B < 2 ^ 64) :
    before c rLoad bins 0 b = weight rLoad (fun b => (bins b).length) b := by
  unfold before weight
  have : bound c.B c.T 0 = 0 := by
    rw [hT]
    simp [bound]
  rw [this]
  unfold interval
  simp only [Nat.sub_zero, Nat.zero_add, List.map_id']

/-- C123, one thread: the rows in which the receiver recognises item `j` of bin `b` are between the weight of the bins before `b` and the
weight of the bins up to `b`. -/
theorem C123_between (hT : c.T = 1) (h : Run c hash X Y sbins rbins sLoad rOwn s) (buf : List Nat)
    (hbuf : runBuffer c hash X sbins sLoad rOwn s = .ok buf)
    (hc : CollisionFree c sLoad (fun b => max (rOwn b) (sLoad b)) (otInputs hash c X ++ otInputs hash c Y))
    (hjunk : ∀ i, ∀ e ∈ runEntries c hash Y rbins sLoad rOwn s, s.junk i ≠ e.2.2) (r j b : Nat) (hj : j < Y.length)
    (hb : addr c.B ((hashed hash Y).getD j 0) = b) (hs : Seen c (runEntries c hash Y rbins sLoad rOwn s) buf r j) :
    ∃ p l, p < (sbins b).length ∧ l < max (rOwn b) (sLoad b) ∧
      r = weight (fun b => max (rOwn b) (sLoad b)) (fun b => (sbins b).length) b + (p * max (rOwn b) (sLoad b) + l) := by
  have hlY : Y.length = c.N := by have := h.R.len; simpa [hashed] using this
  have hB : c.B < 2 ^ 64 := by have := h.ov; rw [hT] at this; omega
  obtain ⟨o1, t, o2, b', p, i, l, e1, hbt, hp, hl, hjb, _, hr⟩ := C123_only h buf hbuf hc hjunk r j hs
  have ht : t < c.T := List.mem_range.mp (h.ord.mem_iff.mp (by rw [e1]; simp))
  have hbB := binsOf_lt h.T h.ov ht hbt
  have a2 := (List.mem_filter.mp ((h.R.mem b' hbB).mem_iff.mp hjb)).2
  simp only [beq_iff_eq] at a2
  have hbb : b' = b := by rw [← a2, hb]
  subst hbb
  have hlen := h.ord.length_eq
  rw [e1, hT] at hlen
  simp only [List.length_append, List.length_cons, List.length_range] at hlen
  have ho1 : o1 = [] := List.length_eq_zero_iff.mp (by omega)
  have ht0 : t = 0 := by omega
  subst ho1 ht0
  refine ⟨p, l, (List.getElem?_eq_some_iff.mp hp).1, hl, ?_⟩
  rw [hr, before_one hT _ _ _ hB]
  simp [start]

/-- C123, negation: for equal loads `L` the receiver divides the number of the row by `L` and has the real number of the sender's items in
the bins before, up to the place of the item in its bin. -/
theorem C123_count (hT : c.T = 1) (h : Run c hash X Y sbins rbins sLoad rOwn s) (buf : List Nat)
    (hbuf : runBuffer c hash X sbins sLoad rOwn s = .ok buf)
    (hc : CollisionFree c sLoad (fun b => max (rOwn b) (sLoad b)) (otInputs hash c X ++ otInputs hash c Y))
    (hjunk : ∀ i, ∀ e ∈ runEntries c hash Y rbins sLoad rOwn s, s.junk i ≠ e.2.2) (r j b L : Nat) (hj : j < Y.length)
    (hb : addr c.B ((hashed hash Y).getD j 0) = b) (hs : Seen c (runEntries c hash Y rbins sLoad rOwn s) buf r j)
    (hL : ∀ b', b' ≤ b → max (rOwn b') (sLoad b') = L) :
    ((List.range b).map fun b' => (sbins b').length).sum ≤ r / L ∧
      r / L < ((List.range (b + 1)).map fun b' => (sbins b').length).sum := by
  obtain ⟨p, l, hp, hl, hr⟩ := C123_between hT h buf hbuf hc hjunk r j b hj hb hs
  have hw : weight (fun b => max (rOwn b) (sLoad b)) (fun b => (sbins b).length) b = L * ((List.range b).map fun b' => (sbins b').length).sum := by
    have key : ∀ k, k ≤ b → weight (fun b => max (rOwn b) (sLoad b)) (fun b => (sbins b).length) k =
        L * ((List.range k).map fun b' => (sbins b').length).sum := by
      intro k
      induction k with
      | zero => intro _; simp [weight]
      | succ k ih =>
        intro hk
        have := ih (by omega)
        unfold weight at this ⊢
        rw [List.range_succ, List.map_append, List.map_append, List.sum_append, List.sum_append, this, Nat.mul_add]
        simp only [List.map_cons, List.map_nil, List.sum_cons, List.sum_nil, Nat.add_zero]
        rw [hL k (by omega), Nat.mul_comm L (sbins k).length]
    exact key b (Nat.le_refl b)
  rw [hL b (Nat.le_refl b)] at hl hr
  have : r / L = ((List.range b).map fun b' => (sbins b').length).sum + p := by
    rw [hr, hw, Nat.mul_comm p L, ← Nat.add_assoc, ← Nat.mul_add, Nat.mul_add_div (by omega), Nat.div_eq_of_lt hl, Nat.add_zero]
  rw [this, List.range_succ, List.map_append, List.sum_append]
  simp
  omega

variable {X' : List Block} {sbins' : Nat → List Nat} {s' : Sched}

/-- C123, negation: two sets of the sender with the same announced loads and the common item `j` are told apart with certainty, for
every choice of the shuffles, of the noise and of the memory content, if the weight of the bins before differs enough. -/
theorem C123_told_apart (hT : c.T = 1) (h : Run c hash X Y sbins rbins sLoad rOwn s) (h' : Run c hash X' Y sbins' rbins sLoad rOwn s')
    (buf buf' : List Nat) (hbuf : runBuffer c hash X sbins sLoad rOwn s = .ok buf) (hbuf' : runBuffer c hash X' sbins' sLoad rOwn s' = .ok buf')
    (hc : CollisionFree c sLoad (fun b => max (rOwn b) (sLoad b)) (otInputs hash c X ++ otInputs hash c Y))
    (hc' : CollisionFree c sLoad (fun b => max (rOwn b) (sLoad b)) (otInputs hash c X' ++ otInputs hash c Y))
    (hjunk : ∀ i, ∀ e ∈ runEntries c hash Y rbins sLoad rOwn s, s.junk i ≠ e.2.2)
    (hjunk' : ∀ i, ∀ e ∈ runEntries c hash Y rbins sLoad rOwn s', s'.junk i ≠ e.2.2)
    (j b : Nat) (hj : j < Y.length) (hX : Y[j] ∈ X) (hX' : Y[j] ∈ X') (hb : addr c.B ((hashed hash Y).getD j 0) = b)
    (hw : weight (fun b => max (rOwn b) (sLoad b)) (fun b => (sbins b).length) b + (sbins b).length * max (rOwn b) (sLoad b) ≤
      weight (fun b => max (rOwn b) (sLoad b)) (fun b => (sbins' b).length) b) :
    ToldApart (fun r => Seen c (runEntries c hash Y rbins sLoad rOwn s) buf r j)
      (fun r => Seen c (runEntries c hash Y rbins sLoad rOwn s') buf' r j) := by
  have found : ∀ {X sbins s buf}, Run c hash X Y sbins rbins sLoad rOwn s → runBuffer c hash X sbins sLoad rOwn s = .ok buf → Y[j] ∈ X →
      ∃ r, Seen c (runEntries c hash Y rbins sLoad rOwn s) buf r j := by
    intro X sbins s buf h hbuf hX
    obtain ⟨i, hi, hij⟩ := List.getElem_of_mem hX
    have hlX : X.length = c.N := by have := h.S.len; simpa [hashed] using this
    have hgX : (hashed hash X).getD i 0 = (hashed hash Y).getD j 0 := by
      unfold hashed
      rw [Kkrt.getD_eq (by simpa using hi), Kkrt.getD_eq (by simpa using hj), List.getElem_map, List.getElem_map, hij]
    have hbB : b < c.B := by rw [← hb]; exact Nat.mod_lt _ h.B
    have hib : i ∈ sbins b := (h.S.mem b hbB).mem_iff.mpr
      (List.mem_filter.mpr ⟨List.mem_range.mpr (by omega), by rw [hgX]; simpa using hb⟩)
    obtain ⟨p, hp, hpe⟩ := List.getElem_of_mem hib
    have hbm : b ∈ (List.range c.T).flatMap c.binsOf := by
      rw [binsOf_flatMap c h.T h.ov]; exact List.mem_range.mpr hbB
    obtain ⟨t, ht, hbt⟩ := List.mem_flatMap.mp hbm
    obtain ⟨o1, o2, ho⟩ := List.append_of_mem (h.ord.mem_iff.mpr ht)
    obtain ⟨l, _, _, hs⟩ := C123_found h buf hbuf o1 o2 t ho b p i j hbt (by rw [List.getElem?_eq_getElem hp, hpe]) hi hj hij
    exact ⟨_, hs⟩
  refine ⟨found h hbuf hX, found h' hbuf' hX', weight (fun b => max (rOwn b) (sLoad b)) (fun b => (sbins' b).length) b, ?_, ?_⟩
  · intro r hs
    obtain ⟨p, l, hp, hl, hr⟩ := C123_between hT h buf hbuf hc hjunk r j b hj hb hs
    have : p * max (rOwn b) (sLoad b) + l < (sbins b).length * max (rOwn b) (sLoad b) := by
      calc p * max (rOwn b) (sLoad b) + l < p * max (rOwn b) (sLoad b) + max (rOwn b) (sLoad b) := by omega
        _ = (p + 1) * max (rOwn b) (sLoad b) := by rw [Nat.add_mul, Nat.one_mul]
        _ ≤ (sbins b).length * max (rOwn b) (sLoad b) := Nat.mul_le_mul_right _ hp
    omega
  · intro r hs
    obtain ⟨p, l, hp, hl, hr⟩ := C123_between hT h' buf' hbuf' hc' hjunk' r j b hj hb hs
    omega

end

/-- The condition of `C123_told_apart` holds for sets that differ in one item: one more item in a bin `b0` before `b`, and the common item alone
in its bin. The announced loads of such sets are meant to be indistinguishable. -/
theorem C123_neighbours (load size size' : Nat → Nat) (b0 b : Nat) (h0 : b0 < b) (hs0 : size' b0 = size b0 + 1)
    (hs : ∀ b', b' < b → b' ≠ b0 → size' b' = size b') (h1 : size b = 1) (hl : load b ≤ load b0) :
    weight load size b + size b * load b ≤ weight load size' b := by
  have key : ∀ k, b0 < k → k ≤ b → weight load size' k = weight load size k + load b0 := by
    intro k
    induction k with
    | zero => intro h; omega
    | succ k ih =>
      intro hk hkb
      unfold weight at ih ⊢
      rw [List.range_succ, List.map_append, List.map_append, List.sum_append, List.sum_append]
      simp only [List.map_cons, List.map_nil, List.sum_cons, List.sum_nil, Nat.add_zero]
      by_cases e : k = b0
      · subst e
        rw [hs0, Nat.add_mul, Nat.one_mul]
        have : (List.range k).map (fun b' => size' b' * load b') = (List.range k).map (fun b' => size b' * load b') := by
          apply List.map_congr_left
          intro b' hb'
          have := List.mem_range.mp hb'
          rw [hs b' (by omega) (by omega)]
        rw [this]
        omega
      · rw [ih (by omega) (by omega), hs k (by omega) e]
        omega
  rw [key b h0 (Nat.le_refl b), h1]
  omega

/-! An example: three bins, one thread; the sender has item 4 (bin 1) and, in one case 5 (bin 2), in the other 3 (bin 0). -/

def plCfg : Cfg := ⟨2, 3, 2, 1, 8, fun t k x => x * 256#128 + BitVec.ofNat 128 (1 + 2 * k + 16 * t),
  fun t k _ => BitVec.ofNat 128 (2 ^ 20 * (1 + k + 16 * t))⟩

def plSched : Sched := ⟨[0], id, id, fun _ => [1, 0], fun _ => [0, 1], 2, fun _ => 7⟩

def plBins : Nat → List Nat := fun b => [[], [0], [1]].getD b []
def plBins' : Nat → List Nat := fun b => [[1], [0], []].getD b []

theorem plRun : Run plCfg none [4#128, 5#128] [4#128, 8#128] plBins plBins (fun _ => 2) (fun _ => 1) plSched := by
  have h2 : ∀ b, b < 3 → b = 0 ∨ b = 1 ∨ b = 2 := by omega
  refine ⟨by decide, by decide, by decide, by decide, by decide, ⟨rfl, ?_, ?_⟩, ⟨rfl, ?_, ?_⟩, ?_, ?_, ?_, ?_, ?_,
    by decide, fun l => List.Perm.refl l, fun l => List.Perm.refl l, by decide, by decide⟩ <;>
  · intro b hb
    rcases h2 b hb with rfl | rfl | rfl <;> decide

theorem plRun' : Run plCfg none [4#128, 3#128] [4#128, 8#128] plBins' plBins (fun _ => 2) (fun _ => 1) plSched := by
  have h2 : ∀ b, b < 3 → b = 0 ∨ b = 1 ∨ b = 2 := by omega
  refine ⟨by decide, by decide, by decide, by decide, by decide, ⟨rfl, ?_, ?_⟩, ⟨rfl, ?_, ?_⟩, ?_, ?_, ?_, ?_, ?_,
    by decide, fun l => List.Perm.refl l, fun l => List.Perm.refl l, by decide, by decide⟩ <;>
  · intro b hb
    rcases h2 b hb with rfl | rfl | rfl <;> decide

def plBuf (X : List Block) (bins : Nat → List Nat) : List Nat :=
  match runBuffer plCfg none X bins (fun _ => 2) (fun _ => 1) plSched with
  | .ok b => b
  | _ => []

/-- The assumptions of the theorems can be met together. -/
example : ToldApart (fun r => Seen plCfg (runEntries plCfg none [4#128, 8#128] plBins (fun _ => 2) (fun _ => 1) plSched) (plBuf [4#128, 5#128] plBins) r 0)
    (fun r => Seen plCfg (runEntries plCfg none [4#128, 8#128] plBins (fun _ => 2) (fun _ => 1) plSched) (plBuf [4#128, 3#128] plBins') r 0) := by
  have hj : ∀ i, ∀ e ∈ runEntries plCfg none [4#128, 8#128] plBins (fun _ => 2) (fun _ => 1) plSched, plSched.junk i ≠ e.2.2 := by
    intro _
    show ∀ e ∈ runEntries plCfg none [4#128, 8#128] plBins (fun _ => 2) (fun _ => 1) plSched, 7 ≠ e.2.2
    decide +kernel
  exact C123_told_apart rfl plRun plRun' _ _ (by decide +kernel) (by decide +kernel) (collisionFree_of_check (by decide +kernel))
    (collisionFree_of_check (by decide +kernel)) hj hj 0 1 (by decide) (by simp) (by simp) (by decide +kernel)
    (C123_neighbours _ _ _ 0 1 (by decide) (by decide) (by intro b' h1 h2; omega) (by decide) (by decide))

/-- In the first case the item is seen in row 0, in the second in row 2. -/
example : (List.range 6).filter (fun r => (runEntries plCfg none [4#128, 8#128] plBins (fun _ => 2) (fun _ => 1) plSched).any
      fun e => e.2.1 / 2 == 0 && e.2.2 == (plBuf [4#128, 5#128] plBins).getD r 0) = [0] ∧
    (List.range 6).filter (fun r => (runEntries plCfg none [4#128, 8#128] plBins (fun _ => 2) (fun _ => 1) plSched).any
      fun e => e.2.1 / 2 == 0 && e.2.2 == (plBuf [4#128, 3#128] plBins').getD r 0) = [2] := by
  decide +kernel

end Verif.Grr18
