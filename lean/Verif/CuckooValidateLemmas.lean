import Verif.CuckooValidateModel
import Verif.CuckooProps
import Mathlib.Logic.Basic
import Mathlib.Tactic.ByContra
/-!
Lemmas about `CuckooIndex::validate`.
-/
namespace Verif.Cuckoo
open Verif

/-- Different items are in different cells. -/
theorem sum_cnt_le (l : List Nat) : ∀ I : List Nat, I.Nodup → (I.map fun i => cnt i l).sum ≤ l.countP (· != emptyVal) := by
  have single : ∀ (v : Nat) (I : List Nat), I.Nodup →
      (I.map fun i => if holds i v then 1 else 0).sum ≤ if v != emptyVal then 1 else 0 := by
    intro v I
    induction I with
    | nil => simp
    | cons i I ih =>
      intro hI
      obtain ⟨h1, h2⟩ := List.nodup_cons.1 hI
      rw [List.map_cons, List.sum_cons]
      by_cases hv : holds i v = true
      · have hz : (I.map fun i => if holds i v then 1 else 0).sum = 0 := by
          have : ∀ J : List Nat, i ∉ J → (J.map fun i => if holds i v then 1 else 0).sum = 0 := by
            intro J
            induction J with
            | nil => simp
            | cons j J ihJ =>
              intro hJ
              have hj : holds j v ≠ true := by
                intro hj
                unfold holds at hv hj
                simp only [Bool.and_eq_true, beq_iff_eq] at hv hj
                exact hJ (by rw [← hv.2, hj.2]; exact List.mem_cons_self ..)
              rw [List.map_cons, List.sum_cons, if_neg hj, ihJ (fun h => hJ (List.mem_cons_of_mem _ h))]
          exact this I h1
        rw [hz, if_pos hv]
        unfold holds at hv
        simp only [Bool.and_eq_true] at hv
        rw [if_pos hv.1]
        omega
      · rw [if_neg hv]
        have := ih h2
        omega
  induction l with
  | nil =>
    intro I _
    have : ∀ J : List Nat, (J.map fun i => cnt i []).sum = 0 := by
      intro J
      induction J with
      | nil => rfl
      | cons j J ih => rw [List.map_cons, List.sum_cons, ih]; rfl
    rw [this]
    simp
  | cons v l ih =>
    intro I hI
    have hsplit : ∀ J : List Nat, (J.map fun i => cnt i (v :: l)).sum =
        (J.map fun i => cnt i l).sum + (J.map fun i => if holds i v then 1 else 0).sum := by
      intro J
      induction J with
      | nil => rfl
      | cons j J ihJ =>
        rw [List.map_cons, List.map_cons, List.map_cons, List.sum_cons, List.sum_cons, List.sum_cons, ihJ]
        unfold cnt
        rw [List.countP_cons]
        omega
    rw [hsplit, List.countP_cons]
    have := ih I hI
    have := single v I hI
    omega

/-- If all stored items are among `I` nothing else is in the cells. -/
theorem sum_cnt_ge (l I : List Nat) (h : ∀ v ∈ l, v ≠ emptyVal → idxOf v ∈ I) :
    l.countP (· != emptyVal) ≤ (I.map fun i => cnt i l).sum := by
  induction l with
  | nil => simp
  | cons v l ih =>
    have hsplit : ∀ J : List Nat, (J.map fun i => cnt i (v :: l)).sum =
        (J.map fun i => cnt i l).sum + (J.map fun i => if holds i v then 1 else 0).sum := by
      intro J
      induction J with
      | nil => rfl
      | cons j J ihJ =>
        rw [List.map_cons, List.map_cons, List.map_cons, List.sum_cons, List.sum_cons, List.sum_cons, ihJ]
        unfold cnt
        rw [List.countP_cons]
        omega
    have hi := ih (fun w hw => h w (List.mem_cons_of_mem _ hw))
    rw [hsplit, List.countP_cons]
    by_cases hv : v = emptyVal
    · simp only [hv, bne_self_eq_false, Bool.false_eq_true, if_false]
      omega
    · have hm := h v (List.mem_cons_self ..) hv
      have : 1 ≤ (I.map fun i => if holds i v then 1 else 0).sum := by
        clear ih hi h hsplit
        induction I with
        | nil => simp at hm
        | cons j J ihJ =>
          rw [List.map_cons, List.sum_cons]
          rcases List.mem_cons.1 hm with e | e
          · have : holds j v = true := by unfold holds; simp [hv, e]
            rw [if_pos this]
            omega
          · have := ihJ e
            omega
      have hv' : (v != emptyVal) = true := by simpa using hv
      rw [if_pos hv']
      omega

/-- The items that the loop counts. -/
def counted (hs : List Block) : List Nat :=
  (List.range hs.length).filter fun i => hs.getD i 0 != BitVec.allOnes 128

/-- What the loop checks for one item. -/
structure ItemOk (c : Cuckoo) (i : Nat) (h : Block) : Prop where
  lt : i < c.hashes.length
  eq : h = c.hashes.getD i 0
  one : h ≠ BitVec.allOnes 128 → (∀ j, j < c.numHashes → addrOk c i j = true) ∧ matches_ c i = 1

theorem checkItem_ok {c : Cuckoo} {i k : Nat} {h : Block} (hc : checkItem c i h = .ok k) :
    ItemOk c i h ∧ k = if h != BitVec.allOnes 128 then 1 else 0 := by
  unfold checkItem at hc
  split at hc
  · simp at hc
  · rename_i h1
    split at hc
    · simp at hc
    · rename_i h2
      have h2 := not_not.1 h2
      split at hc
      · rename_i h3
        split at hc
        · rename_i h4
          split at hc
          · simp at hc
          · rename_i h5
            simp only [Out.ok.injEq] at hc
            rw [← h2] at h3
            refine ⟨⟨by omega, h2, fun _ => ⟨?_, not_not.1 h5⟩⟩, ?_⟩
            · intro j hj
              exact List.all_eq_true.1 h4 j (List.mem_range.2 hj)
            · have : (h != BitVec.allOnes 128) = true := by simpa using h3
              rw [if_pos this, hc]
        · simp at hc
      · rename_i h3
        have h3 := not_not.1 h3
        rw [← h2] at h3
        simp only [Out.ok.injEq] at hc
        refine ⟨⟨by omega, h2, fun h => absurd h3 h⟩, ?_⟩
        simp [h3, hc.symm]

theorem counted_eq (hs : List Block) :
    ((List.range hs.length).filter fun i => hs.getD i 0 != BitVec.allOnes 128).length =
      hs.countP (· != BitVec.allOnes 128) := by
  induction hs with
  | nil => rfl
  | cons h hs ih =>
    rw [List.length_cons, List.range_succ_eq_map, List.filter_cons, List.countP_cons, List.filter_map, ← ih]
    have : (fun i => (h :: hs).getD i 0 != BitVec.allOnes 128) ∘ Nat.succ = fun i => hs.getD i 0 != BitVec.allOnes 128 := by
      funext i
      simp
    rw [this, List.getD_cons_zero]
    by_cases hh : (h != BitVec.allOnes 128) = true
    · rw [if_pos hh, if_pos hh, List.length_cons, List.length_map]
    · rw [if_neg hh, if_neg hh, List.length_map]; rfl

theorem checkItems_ok {c : Cuckoo} : ∀ (hs : List Block) (i0 count n : Nat), checkItems c i0 hs count = .ok n →
    (∀ i, i < hs.length → ItemOk c (i0 + i) (hs.getD i 0)) ∧ n = count + hs.countP (· != BitVec.allOnes 128) := by
  intro hs
  induction hs with
  | nil =>
    intro i0 count n h
    simp only [checkItems, Out.ok.injEq] at h
    exact ⟨by simp, by simp [h]⟩
  | cons x hs ih =>
    intro i0 count n h
    unfold checkItems at h
    cases hc : checkItem c i0 x with
    | throw => rw [hc] at h; simp [Out.bind] at h
    | ub => rw [hc] at h; simp [Out.bind] at h
    | ok k =>
      rw [hc] at h
      obtain ⟨h1, h2⟩ := checkItem_ok hc
      obtain ⟨h3, h4⟩ := ih (i0 + 1) (count + k) n h
      refine ⟨?_, ?_⟩
      · intro i hi
        cases i with
        | zero => simpa using h1
        | succ i =>
          have := h3 i (by simp only [List.length_cons] at hi; omega)
          rw [show i0 + (i + 1) = i0 + 1 + i by omega]
          simpa using this
      · rw [h4, h2, List.countP_cons]
        omega

theorem checkItems_intro {c : Cuckoo} : ∀ (hs : List Block) (i0 count : Nat),
    (∀ i, i < hs.length → ItemOk c (i0 + i) (hs.getD i 0)) →
    checkItems c i0 hs count = .ok (count + hs.countP (· != BitVec.allOnes 128)) := by
  intro hs
  induction hs with
  | nil => intro i0 count _; simp [checkItems]
  | cons x hs ih =>
    intro i0 count h
    have h0 := h 0 (by simp)
    simp only [Nat.add_zero, List.getD_cons_zero] at h0
    have hi := ih (i0 + 1) (count + if x != BitVec.allOnes 128 then 1 else 0) (by
      intro i hi
      have := h (i + 1) (by simp only [List.length_cons]; omega)
      rw [show i0 + 1 + i = i0 + (i + 1) by omega]
      simpa using this)
    unfold checkItems
    have hc : checkItem c i0 x = .ok (if x != BitVec.allOnes 128 then 1 else 0) := by
      unfold checkItem
      rw [if_neg (by have := h0.lt; omega), if_neg (not_not.2 h0.eq), ← h0.eq]
      by_cases hx : x = BitVec.allOnes 128
      · simp [hx]
      · obtain ⟨h1, h2⟩ := h0.one hx
        rw [if_pos hx, if_pos (List.all_eq_true.2 fun j hj => h1 j (List.mem_range.1 hj)), if_neg (not_not.2 h2)]
        have : (x != BitVec.allOnes 128) = true := by simpa using hx
        rw [if_pos this]
    rw [hc]
    show checkItems c (i0 + 1) hs _ = _
    rw [hi, List.countP_cons]
    congr 1
    omega

/-- Without a wrong hash and out of range access the loop does not stop, or it throws. -/
theorem checkItems_no_ub {c : Cuckoo} : ∀ (hs : List Block) (i0 count : Nat),
    (∀ i, i < hs.length → i0 + i < c.hashes.length) →
    (∀ i, i < c.hashes.length → ∀ j, j < c.numHashes → addrOk c i j = true) →
    checkItems c i0 hs count ≠ .ub := by
  intro hs
  induction hs with
  | nil => intro i0 count _ _; simp [checkItems]
  | cons x hs ih =>
    intro i0 count h h'
    have h0 := h 0 (by simp)
    have hc : checkItem c i0 x ≠ .ub := by
      unfold checkItem
      rw [if_neg (by omega)]
      split
      · simp
      · split
        · rw [if_pos (List.all_eq_true.2 fun j hj => h' i0 (by omega) j (List.mem_range.1 hj))]
          split <;> simp
        · simp
    unfold checkItems
    cases e : checkItem c i0 x with
    | ub => exact absurd e hc
    | throw => simp [Out.bind]
    | ok k =>
      exact ih (i0 + 1) (count + k) (by
        intro i hi
        have := h (i + 1) (by simp only [List.length_cons]; omega)
        omega) h'

theorem matches_pos {c : Cuckoo} {i : Nat} (h : matches_ c i = 1) : ∃ j, j < c.numHashes ∧
    c.bins.getD (addrOf c i j) emptyVal ≠ emptyVal ∧ idxOf (c.bins.getD (addrOf c i j) emptyVal) = i := by
  unfold matches_ at h
  obtain ⟨j, hj⟩ := List.exists_mem_of_length_pos (l := (List.range c.numHashes).filter (isMatch c i)) (by omega)
  obtain ⟨h1, h2⟩ := List.mem_filter.1 hj
  unfold isMatch at h2
  simp only [Bool.and_eq_true, bne_iff_ne, beq_iff_eq] at h2
  exact ⟨j, List.mem_range.1 h1, h2.2.1, h2.2.2⟩

theorem cnt_pos {l : List Nat} {a i : Nat} (h1 : l.getD a emptyVal ≠ emptyVal) (h2 : idxOf (l.getD a emptyVal) = i) :
    0 < cnt i l := by
  have ha : a < l.length := by
    by_contra hc
    apply h1
    simp [List.getD, List.getElem?_eq_none (Nat.le_of_not_lt hc)]
  unfold cnt
  rw [List.countP_pos_iff]
  have e : l.getD a emptyVal = l[a] := by simp [List.getD, List.getElem?_eq_getElem ha]
  refine ⟨l[a], List.getElem_mem ha, ?_⟩
  rw [e] at h1 h2
  unfold holds
  simp [h1, h2]

theorem sum_eq_length {I : List Nat} {f : Nat → Nat} (h1 : ∀ i ∈ I, 1 ≤ f i) (h2 : (I.map f).sum ≤ I.length) :
    ∀ i ∈ I, f i = 1 := by
  induction I with
  | nil => simp
  | cons a I ih =>
    rw [List.map_cons, List.sum_cons, List.length_cons] at h2
    have hge : ∀ J : List Nat, (∀ i ∈ J, 1 ≤ f i) → J.length ≤ (J.map f).sum := by
      intro J
      induction J with
      | nil => simp
      | cons b J ihJ =>
        intro h
        rw [List.map_cons, List.sum_cons, List.length_cons]
        have := h b (List.mem_cons_self ..)
        have := ihJ fun i hi => h i (List.mem_cons_of_mem _ hi)
        omega
    have ha := h1 a (List.mem_cons_self ..)
    have hI := hge I fun i hi => h1 i (List.mem_cons_of_mem _ hi)
    intro i hi
    rcases List.mem_cons.1 hi with e | e
    · rw [e]; omega
    · exact ih (fun i hi => h1 i (List.mem_cons_of_mem _ hi)) (by omega) i e

theorem copies_bins (l : List Nat) (i : Nat) : copies l i = cnt i l := by
  have := copies_eq ⟨0, 0, [], l, []⟩ i
  simpa [occ, cnt] using this

theorem binOf_eq (hash : Block) (j nb : Nat) : binOf hash j nb = getHash hash j nb := by
  unfold binOf getHash
  have : 256 ^ (2 * j) = 2 ^ (16 * j) := by
    rw [show (256 : Nat) = 2 ^ 8 from rfl, ← Nat.pow_mul]; congr 1; omega
  rw [this, show (256 : Nat) ^ 8 = 2 ^ 64 by decide]

theorem countP_unique {p : Nat → Bool} : ∀ {l : List Nat}, l.countP p ≤ 1 → ∀ {a b : Nat} (ha : a < l.length)
    (hb : b < l.length), p l[a] = true → p l[b] = true → a = b := by
  intro l
  induction l with
  | nil => intro _ a b ha; simp at ha
  | cons v l ih =>
    intro h a b ha hb h1 h2
    rw [List.countP_cons] at h
    cases a with
    | zero =>
      cases b with
      | zero => rfl
      | succ b =>
        simp only [List.getElem_cons_zero, List.getElem_cons_succ] at h1 h2
        have : 0 < l.countP p := List.countP_pos_iff.2 ⟨_, List.getElem_mem _, h2⟩
        rw [if_pos h1] at h
        omega
    | succ a =>
      cases b with
      | zero =>
        simp only [List.getElem_cons_zero, List.getElem_cons_succ] at h1 h2
        have : 0 < l.countP p := List.countP_pos_iff.2 ⟨_, List.getElem_mem _, h1⟩
        rw [if_pos h2] at h
        omega
      | succ b =>
        simp only [List.getElem_cons_succ] at h1 h2
        rw [ih (by omega) _ _ h1 h2]

theorem filter_range_single {n j0 : Nat} {p : Nat → Bool} (hj : j0 < n) (hp : p j0 = true)
    (hu : ∀ j, j < n → p j = true → j = j0) : ((List.range n).filter p).length = 1 := by
  have h1 : (List.range n).filter p = (List.range n).filter (· == j0) := by
    apply List.filter_congr
    intro j hj'
    have hj' := List.mem_range.1 hj'
    by_cases hc : j = j0
    · rw [hc, hp]; simp
    · have : p j = false := by
        by_contra hcon
        exact hc (hu j hj' (by simpa using hcon))
      rw [this]
      simp [hc]
  rw [h1, ← List.countP_eq_length_filter]
  have h2 := List.nodup_range (n := n)
  have h3 := List.nodup_iff_count.1 h2 j0
  have h4 : 0 < (List.range n).count j0 := List.count_pos_iff.2 (List.mem_range.2 hj)
  unfold List.count at h3 h4
  omega

/-- A table made by insertions: the number of matches is the number of bins with the item. -/
theorem matches_eq {c : Cuckoo} {H : List (Nat × Block)} (hI : Inv c [] H) (i : Nat) (h1 : cnt i c.bins ≤ 1) :
    matches_ c i = cnt i c.bins := by
  have hz : 0 < matches_ c i → 0 < cnt i c.bins := by
    intro h
    unfold matches_ at h
    obtain ⟨j, hj⟩ := List.exists_mem_of_length_pos h
    obtain ⟨h1, h2⟩ := List.mem_filter.1 hj
    unfold isMatch at h2
    simp only [Bool.and_eq_true, bne_iff_ne, beq_iff_eq] at h2
    exact cnt_pos h2.2.1 h2.2.2
  by_cases hc : cnt i c.bins = 0
  · rw [hc]
    by_contra hcon
    have := hz (by omega)
    omega
  · have hc1 : cnt i c.bins = 1 := by omega
    rw [hc1]
    have hpos : 0 < c.bins.countP (holds i) := by unfold cnt at hc1; omega
    obtain ⟨v, hv, hh⟩ := List.countP_pos_iff.1 hpos
    obtain ⟨a, ha, rfl⟩ := List.mem_iff_getElem.1 hv
    have hh' := hh
    unfold holds at hh'
    simp only [Bool.and_eq_true, bne_iff_ne, beq_iff_eq] at hh'
    rcases hI.bins a ha with he | ⟨i', hx, e1, e2, e3, e4, e5⟩
    · exact absurd he hh'.1
    · have hsm := hI.small
      have hnh := hI.nh_le
      have hii : i' = i := by
        rw [← hh'.2, e1, idxOf_pack _ _ (by unfold nullIdx at hsm; omega) (by omega)]
      subst hii
      -- the first hash function with this bin
      have hex : ∃ j, j < c.numHashes ∧ addrOf c i' j = a := ⟨hx, e4, e5⟩
      obtain ⟨j0, ⟨hj0, hj1⟩, hmin⟩ : ∃ j, (j < c.numHashes ∧ addrOf c i' j = a) ∧
          ∀ k, k < j → ¬ (k < c.numHashes ∧ addrOf c i' k = a) := by
        have : ∀ n, (∃ j, j < n ∧ (j < c.numHashes ∧ addrOf c i' j = a)) →
            ∃ j, (j < c.numHashes ∧ addrOf c i' j = a) ∧ ∀ k, k < j → ¬ (k < c.numHashes ∧ addrOf c i' k = a) := by
          intro n
          induction n with
          | zero => rintro ⟨j, h, _⟩; omega
          | succ n ih =>
            rintro ⟨j, h, hp⟩
            by_cases hlow : ∃ k, k < j ∧ (k < c.numHashes ∧ addrOf c i' k = a)
            · obtain ⟨k, hk, hp'⟩ := hlow
              exact ih ⟨k, by omega, hp'⟩
            · exact ⟨j, hp, fun k hk hp' => hlow ⟨k, hk, hp'⟩⟩
        exact this (hx + 1) ⟨hx, by omega, e4, e5⟩
      have hget : c.bins.getD a emptyVal = c.bins[a] := by rw [List.getD, List.getElem?_eq_getElem ha]; rfl
      unfold matches_
      refine filter_range_single hj0 ?_ ?_
      · unfold isMatch
        rw [hj1, hget]
        simp only [Bool.and_eq_true, bne_iff_ne, beq_iff_eq]
        refine ⟨?_, hh'.1, hh'.2⟩
        rw [Bool.not_eq_true', List.any_eq_false]
        intro k hk
        have hk := List.mem_range.1 hk
        simp only [beq_iff_eq]
        exact fun e => hmin k hk ⟨by omega, e⟩
      · intro j hj hm
        unfold isMatch at hm
        simp only [Bool.and_eq_true, bne_iff_ne, beq_iff_eq] at hm
        obtain ⟨m1, m2, m3⟩ := hm
        have hlt := addrOf_lt c i' j hI.bins_pos
        have hget' : c.bins.getD (addrOf c i' j) emptyVal = c.bins[addrOf c i' j] := by
          rw [List.getD, List.getElem?_eq_getElem hlt]; rfl
        rw [hget'] at m2 m3
        have haa : addrOf c i' j = a := by
          refine countP_unique (p := holds i') (l := c.bins) (by unfold cnt at h1; omega) hlt ha ?_ hh
          unfold holds
          simp [m2, m3]
        rw [Bool.not_eq_true', List.any_eq_false] at m1
        have hnlt : ¬ j0 < j := by
          intro hlt'
          have := m1 j0 (List.mem_range.2 hlt')
          simp only [beq_iff_eq] at this
          exact this (by rw [hj1, haa])
        have : ¬ j < j0 := fun hlt' => hmin j hlt' ⟨hj, haa⟩
        omega

end Verif.Cuckoo
