import Verif.DrrnProps
import Verif.DrrnFullLemmas
/-
Property C47, big blocks of any size: what the two servers together answer to a query.
-/
namespace Verif.Drrn
open Verif

/-- The items of the table in the region that the servers use for bin `b`. -/
def inRegion (c : Params) (tbl : List (Nat × Block)) (b : Nat) : List (Nat × Block) :=
  tbl.filter fun x => decide (((b * c.N + c.S - 1) / c.S + c.bb - 1) / c.bb * c.bb ≤ x.1) &&
    decide (x.1 < (((b + 1) * c.N + c.S - 1) / c.S + c.bb - 1) / c.bb * c.bb)

/-- The items at the positions from `a` on, below `e`. -/
def between (a e : Nat) (l : List (Nat × Block)) : List (Nat × Block) :=
  l.filter fun x => decide (a ≤ x.1) && decide (x.1 < e)

theorem regionItems_eq {c : Params} {tbl : List (Nat × Block)} (hs : (tbl.map (·.1)).Pairwise (· < ·)) (b : Nat) :
    regionItems c tbl b = inRegion c tbl b := by
  have hn : ∀ l : List (Nat × Block), (l.map (·.1)).Pairwise (· < ·) → l.Pairwise fun x y => x.1 < y.1 := fun l h =>
    List.pairwise_map.mp h
  have h1 := hn _ (regionItems_sorted (c := c) hs b)
  have h2 : (inRegion c tbl b).Pairwise fun x y => x.1 < y.1 := (hn _ hs).filter _
  have nd : ∀ l : List (Nat × Block), (l.Pairwise fun x y => x.1 < y.1) → l.Nodup := fun l h =>
    h.imp fun hxy he => by rw [he] at hxy; omega
  have hp : (regionItems c tbl b).Perm (inRegion c tbl b) := by
    rw [List.perm_ext_iff_of_nodup (nd _ h1) (nd _ h2)]
    intro x
    rw [mem_regionItems hs]
    unfold inRegion Params.srvStart roundUpTo divCeil
    rw [List.mem_filter, Bool.and_eq_true, decide_eq_true_iff, decide_eq_true_iff]
  exact hp.eq_of_pairwise (fun x y _ _ hxy hyx => by omega) h1 h2

/-- The list with the places `base`, `base + step`, … -/
def placed (step : Nat) : Nat → List (Nat × Block) → List (Nat × Block)
  | _, [] => []
  | base, x :: l => (base, x.2) :: placed step (base + step) l

theorem takeBlock_eq (step e : Nat) (l : List (Nat × Block)) (hs : (l.map (·.1)).Pairwise (· < ·)) (base : Nat) :
    takeBlock step e l base = (placed step base (l.filter fun x => decide (x.1 < e)),
      l.filter fun x => decide (e ≤ x.1)) := by
  induction l generalizing base with
  | nil => rfl
  | cons x l ih =>
    rw [List.map_cons, List.pairwise_cons] at hs
    unfold takeBlock
    by_cases h : x.1 < e
    · rw [if_pos h, ih hs.2, List.filter_cons_of_pos (by simpa using h), List.filter_cons_of_neg (by simp; omega)]
      rfl
    · rw [if_neg h]
      have h1 : (x :: l).filter (fun x => decide (x.1 < e)) = [] := by
        rw [List.filter_eq_nil_iff]
        intro y hy
        rcases List.mem_cons.mp hy with rfl | hy
        · simpa using h
        · have := hs.1 _ (List.mem_map_of_mem hy)
          simp; omega
      have h2 : (x :: l).filter (fun x => decide (e ≤ x.1)) = x :: l := by
        rw [List.filter_eq_self]
        intro y hy
        rcases List.mem_cons.mp hy with rfl | hy
        · simp; omega
        · have := hs.1 _ (List.mem_map_of_mem hy)
          simp; omega
      rw [h1, h2]
      rfl

theorem placed_ge (step base : Nat) (l : List (Nat × Block)) : ∀ x ∈ placed step base l, base ≤ x.1 := by
  induction l generalizing base with
  | nil => intro x hx; simp [placed] at hx
  | cons a l ih =>
    intro x hx
    rcases List.mem_cons.mp hx with rfl | hx
    · exact Nat.le_refl _
    · have := ih _ x hx; omega

/-- Only the item with number `s` writes to the places from `base + s * L` on, below `base + (s + 1) * L`. -/
theorem placed_sum (L base s j : Nat) (hj : j < L) (l : List (Nat × Block)) (f : Nat → Bool) :
    ((placed L base l).map fun x =>
      if x.1 ≤ base + s * L + j ∧ base + s * L + j < x.1 + L ∧ f (base + s * L + j - x.1) then x.2 else 0).foldl
        (· ^^^ ·) 0 = if f j then (l.map (·.2)).getD s 0 else 0 := by
  induction l generalizing base s with
  | nil => simp [placed]
  | cons a l ih =>
    unfold placed
    rw [List.map_cons, List.foldl_cons, foldl_xor_acc, zero_xor']
    cases s with
    | zero =>
      rw [foldl_xor_zero]
      · simp only [Nat.zero_mul, Nat.add_zero, List.map_cons, List.getD_cons_zero]
        rw [show base + j - base = j by omega]
        by_cases hf : f j
        · rw [if_pos ⟨by omega, by omega, hf⟩, if_pos hf]; simp
        · rw [if_neg (fun h => hf h.2.2), if_neg hf]; simp
      · intro x hx
        have := placed_ge _ _ _ x hx
        rw [if_neg (by intro h; omega)]
    | succ s =>
      have e : base + (s + 1) * L + j = base + L + s * L + j := by rw [Nat.add_mul]; omega
      rw [e, if_neg (by intro h; simp only at h; omega), zero_xor', ih (base + L) s]
      rfl

theorem filter_filter_range (l : List (Nat × Block)) (st d t : Nat) (ht : 0 < t) :
    (l.filter fun x => decide (st + d ≤ x.1)).filter
        (fun x => decide (st + d + (t - 1) * d ≤ x.1) && decide (x.1 < st + d + (t - 1) * d + d)) =
      l.filter fun x => decide (st + t * d ≤ x.1) && decide (x.1 < st + t * d + d) := by
  rw [List.filter_filter]
  congr 1
  funext x
  have e : st + d + (t - 1) * d = st + t * d := by
    obtain ⟨u, rfl⟩ : ∃ u, t = u + 1 := ⟨t - 1, by omega⟩
    rw [Nat.add_sub_cancel, Nat.add_mul]; omega
  have h2 : d ≤ t * d := Nat.le_mul_of_pos_left d ht
  rw [e]
  by_cases h : st + t * d ≤ x.1
  · have : st + d ≤ x.1 := by omega
    simp [h, this]
  · simp [h]

theorem evalLoop_zero (L bb s j : Nat) (hj : j < L) (n : Nat) : ∀ (i e : Nat) (l : List (Nat × Block)),
    (l.map (·.1)).Pairwise (· < ·) → ∀ g : Nat → Nat → Bool, (∀ k : Nat, i ≤ k → k < i + n → g j k = false) →
    ((evalLoop L bb n i e l).map fun x =>
      if x.2.1 ≤ s * L + j ∧ s * L + j < x.2.1 + L ∧ g (s * L + j - x.2.1) x.1 then x.2.2 else 0).foldl (· ^^^ ·) 0 =
      0 := by
  induction n with
  | zero => intro i e l _ g _; rfl
  | succ n ih =>
    intro i e l hs g hg
    unfold evalLoop
    simp only []
    rw [takeBlock_eq _ _ _ hs, List.map_append, List.foldl_append, foldl_xor_acc]
    simp only []
    rw [List.map_map]
    have hfirst := placed_sum L 0 s j hj (l.filter fun x => decide (x.1 < e)) fun a => g a i
    simp only [Nat.zero_add] at hfirst
    have hm : ((fun x : Nat × Nat × Block =>
        if x.2.1 ≤ s * L + j ∧ s * L + j < x.2.1 + L ∧ g (s * L + j - x.2.1) x.1 then x.2.2 else 0) ∘
        fun x : Nat × Block => (i, x)) = fun x : Nat × Block =>
        if x.1 ≤ s * L + j ∧ s * L + j < x.1 + L ∧ g (s * L + j - x.1) i then x.2 else 0 := by
      funext x; rfl
    rw [hm, hfirst, hg i (Nat.le_refl _) (by omega), if_neg (by simp), zero_xor']
    exact ih _ _ _ (hs.sublist (List.Sublist.map _ List.filter_sublist)) g fun k h h' => hg k (by omega) (by omega)

/-- The blocks from number `i` on: the sum over the items that the point `t` selects. -/
theorem evalLoop_sum (L bb s j : Nat) (hj : j < L) (n : Nat) : ∀ (i st t : Nat) (l : List (Nat × Block)),
    (l.map (·.1)).Pairwise (· < ·) → (∀ x ∈ l, st ≤ x.1) → i ≤ t → t < i + n →
    ∀ g : Nat → Nat → Bool, (∀ k : Nat, i ≤ k → k < i + n → g j k = decide (k = t)) →
    ((evalLoop L bb n i (st + bb) l).map fun x =>
      if x.2.1 ≤ s * L + j ∧ s * L + j < x.2.1 + L ∧ g (s * L + j - x.2.1) x.1 then x.2.2 else 0).foldl (· ^^^ ·) 0 =
      ((between (st + (t - i) * bb) (st + (t - i) * bb + bb) l).map (·.2)).getD s 0 := by
  induction n with
  | zero => intro i st t l _ _ h1 h2; omega
  | succ n ih =>
    intro i st t l hs hge h1 h2 g hg
    unfold evalLoop
    simp only []
    rw [takeBlock_eq _ _ _ hs, List.map_append, List.foldl_append, foldl_xor_acc]
    simp only []
    rw [List.map_map]
    have hfirst := placed_sum L 0 s j hj (l.filter fun x => decide (x.1 < st + bb)) fun a => g a i
    simp only [Nat.zero_add] at hfirst
    have hm : ((fun x : Nat × Nat × Block =>
        if x.2.1 ≤ s * L + j ∧ s * L + j < x.2.1 + L ∧ g (s * L + j - x.2.1) x.1 then x.2.2 else 0) ∘
        fun x : Nat × Block => (i, x)) = fun x : Nat × Block =>
        if x.1 ≤ s * L + j ∧ s * L + j < x.1 + L ∧ g (s * L + j - x.1) i then x.2 else 0 := by
      funext x; rfl
    rw [hm, hfirst]
    have hs' : ((l.filter fun x => decide (st + bb ≤ x.1)).map (·.1)).Pairwise (· < ·) :=
      hs.sublist (List.Sublist.map _ List.filter_sublist)
    have hge' : ∀ x ∈ l.filter fun x => decide (st + bb ≤ x.1), st + bb ≤ x.1 := by
      intro x hx; simpa using (List.mem_filter.mp hx).2
    rcases Nat.eq_or_lt_of_le h1 with rfl | hlt
    · rw [hg i (Nat.le_refl _) h2, decide_eq_true rfl, if_pos rfl, Nat.sub_self, Nat.zero_mul]
      have hz : ((evalLoop L bb n (i + 1) (st + bb + bb) (l.filter fun x => decide (st + bb ≤ x.1))).map
          fun x : Nat × Nat × Block => if x.2.1 ≤ s * L + j ∧ s * L + j < x.2.1 + L ∧
            g (s * L + j - x.2.1) x.1 then x.2.2 else 0).foldl (· ^^^ ·) (0 : Block) = 0 :=
        evalLoop_zero L bb s j hj n _ _ _ hs' g fun k h h' => by
          rw [hg k (by omega) (by omega), decide_eq_false (by omega)]
      rw [hz]
      have hb : between st (st + bb) l = l.filter fun x => decide (x.1 < st + bb) := by
        unfold between
        apply List.filter_congr
        intro x hx
        rw [decide_eq_true (hge x hx), Bool.true_and]
      rw [Nat.add_zero, hb]
      simp
    · rw [hg i (Nat.le_refl _) (by omega), decide_eq_false (by omega), if_neg (by simp), zero_xor',
        ih (i + 1) (st + bb) t _ hs' hge' hlt (by omega) g fun k h h' => hg k (by omega) (by omega)]
      unfold between
      rw [show t - (i + 1) = t - i - 1 by omega, filter_filter_range l st bb (t - i) (by omega)]

/-- C47, big blocks of any size, rows of a multiple of eight queries: what the two servers together answer to query `j`
of bin `b`, whose keys point to big block `t`, in the part number `s` of the row. It is the item number `s` among the
occupied slots of big block `t`, where the big blocks are counted from the first occupied slot of the region and the
empty slots of a big block are not counted; the zero block if there is none. -/
theorem C47_block_answer (c : Params) (hb : 0 < c.bb) (h8 : 8 ∣ c.L) (tbl : List (Nat × Block))
    (hs : (tbl.map (·.1)).Pairwise (· < ·)) (bits0 bits1 : Nat → Nat → Nat → Bool) {b j s t : Nat} (hbS : b < c.S)
    (hj : j < c.L) (hsb : s < c.bb)
    (hbits : ∀ i : Nat, i < divCeil (c.srvStart (b + 1) - c.srvStart b) c.bb →
      (bits0 b j i ^^ bits1 b j i) = decide (i = t)) :
    (shares c tbl bits0).getD (b * (c.L * c.bb) + (s * c.L + j)) 0 ^^^
      (shares c tbl bits1).getD (b * (c.L * c.bb) + (s * c.L + j)) 0 =
      ((between (((inRegion c tbl b).map (·.1)).headD 0 + t * c.bb)
        (((inRegion c tbl b).map (·.1)).headD 0 + t * c.bb + c.bb) (inRegion c tbl b)).map (·.2)).getD s 0 := by
  have hq : s * c.L + j < c.L * c.bb := by
    have : (s + 1) * c.L ≤ c.bb * c.L := Nat.mul_le_mul_right _ hsb
    rw [Nat.add_mul, Nat.one_mul, Nat.mul_comm c.bb] at this
    omega
  unfold shares
  rw [flatMap_range_getD _ _ _ _ hbS hq, flatMap_range_getD _ _ _ _ hbS hq]
  unfold outAt
  rw [foldl_xor_map]
  have hm : ∀ pl : List (Nat × Nat × Block), (pl.map fun x =>
      (if x.2.1 ≤ s * c.L + j ∧ s * c.L + j < x.2.1 + c.L ∧ bits0 b (s * c.L + j - x.2.1) x.1 then x.2.2 else 0) ^^^
      if x.2.1 ≤ s * c.L + j ∧ s * c.L + j < x.2.1 + c.L ∧ bits1 b (s * c.L + j - x.2.1) x.1 then x.2.2 else 0) =
      pl.map fun x => if x.2.1 ≤ s * c.L + j ∧ s * c.L + j < x.2.1 + c.L ∧
        (fun j i => bits0 b j i ^^ bits1 b j i) (s * c.L + j - x.2.1) x.1 then x.2.2 else 0 := by
    intro pl
    apply List.map_congr_left
    intro x _
    by_cases h : x.2.1 ≤ s * c.L + j ∧ s * c.L + j < x.2.1 + c.L
    · have hx : ∀ a : Bool, (if x.2.1 ≤ s * c.L + j ∧ s * c.L + j < x.2.1 + c.L ∧ a = true then x.2.2 else 0) =
          if a then x.2.2 else 0 := by
        intro a; cases a <;> simp [h.1, h.2]
      rw [hx, hx, hx, xor_if]
    · rw [if_neg fun h' => h ⟨h'.1, h'.2.1⟩, if_neg fun h' => h ⟨h'.1, h'.2.1⟩, if_neg fun h' => h ⟨h'.1, h'.2.1⟩]
      simp
  rw [hm]
  have hmem := mem_regionItems (c := c) hs b
  have hsort := regionItems_sorted (c := c) hs b
  rw [← regionItems_eq hs b]
  generalize hits : regionItems c tbl b = its at *
  cases its with
  | nil => rfl
  | cons x rest =>
    obtain ⟨p, v⟩ := x
    unfold placements
    simp only [List.map_cons, List.headD_cons]
    have hL : 8 * (c.L / 8) = c.L := Nat.mul_div_cancel' h8
    rw [hL]
    have hge : ∀ y ∈ (p, v) :: rest, p ≤ y.1 := by
      intro y hy
      rcases List.mem_cons.mp hy with rfl | hy
      · exact Nat.le_refl _
      · rw [List.map_cons, List.pairwise_cons] at hsort
        exact Nat.le_of_lt (hsort.1 _ (List.mem_map_of_mem hy))
    by_cases ht : t < divCeil (c.srvStart (b + 1) - c.srvStart b) c.bb
    · have := evalLoop_sum c.L c.bb s j hj (divCeil (c.srvStart (b + 1) - c.srvStart b) c.bb) 0 p t ((p, v) :: rest)
        hsort hge (Nat.zero_le _) (by omega) (fun j i => bits0 b j i ^^ bits1 b j i) fun k _ hk => hbits k (by omega)
      rw [Nat.sub_zero] at this
      exact this
    · have hz := evalLoop_zero c.L c.bb s j hj (divCeil (c.srvStart (b + 1) - c.srvStart b) c.bb) 0 (p + c.bb)
        ((p, v) :: rest) hsort (fun j i => bits0 b j i ^^ bits1 b j i) fun k _ hk => by
          rw [hbits k (by omega), decide_eq_false (by omega)]
      rw [hz]
      have he : between (p + t * c.bb) (p + t * c.bb + c.bb) ((p, v) :: rest) = [] := by
        unfold between
        rw [List.filter_eq_nil_iff]
        intro y hy
        have h1 := (hmem y).mp hy
        have h2 := (hmem (p, v)).mp (List.mem_cons_self ..)
        simp only at h2
        have h3 : c.srvStart (b + 1) - c.srvStart b ≤ divCeil (c.srvStart (b + 1) - c.srvStart b) c.bb * c.bb := by
          generalize c.srvStart (b + 1) - c.srvStart b = a
          unfold divCeil
          have := Nat.div_add_mod (a + c.bb - 1) c.bb
          have h5 := Nat.mod_lt (a + c.bb - 1) hb
          rw [Nat.mul_comm] at this
          omega
        have h4 : divCeil (c.srvStart (b + 1) - c.srvStart b) c.bb * c.bb ≤ t * c.bb :=
          Nat.mul_le_mul_right _ (by omega)
        simp only [Bool.and_eq_true, decide_eq_true_eq]
        omega
      rw [he]
      rfl

/-- The same for keys that agree: the servers together answer nothing. -/
theorem block_unused (c : Params) (h8 : 8 ∣ c.L) (tbl : List (Nat × Block))
    (hs : (tbl.map (·.1)).Pairwise (· < ·)) (bits0 bits1 : Nat → Nat → Nat → Bool) {b j s : Nat} (hbS : b < c.S)
    (hj : j < c.L) (hsb : s < c.bb)
    (hbits : ∀ i : Nat, i < divCeil (c.srvStart (b + 1) - c.srvStart b) c.bb → bits0 b j i = bits1 b j i) :
    (shares c tbl bits0).getD (b * (c.L * c.bb) + (s * c.L + j)) 0 ^^^
      (shares c tbl bits1).getD (b * (c.L * c.bb) + (s * c.L + j)) 0 = 0 := by
  have hq : s * c.L + j < c.L * c.bb := by
    have : (s + 1) * c.L ≤ c.bb * c.L := Nat.mul_le_mul_right _ hsb
    rw [Nat.add_mul, Nat.one_mul, Nat.mul_comm c.bb] at this
    omega
  unfold shares
  rw [flatMap_range_getD _ _ _ _ hbS hq, flatMap_range_getD _ _ _ _ hbS hq]
  unfold outAt
  rw [foldl_xor_map]
  have hm : ∀ pl : List (Nat × Nat × Block), (pl.map fun x =>
      (if x.2.1 ≤ s * c.L + j ∧ s * c.L + j < x.2.1 + c.L ∧ bits0 b (s * c.L + j - x.2.1) x.1 then x.2.2 else 0) ^^^
      if x.2.1 ≤ s * c.L + j ∧ s * c.L + j < x.2.1 + c.L ∧ bits1 b (s * c.L + j - x.2.1) x.1 then x.2.2 else 0) =
      pl.map fun x => if x.2.1 ≤ s * c.L + j ∧ s * c.L + j < x.2.1 + c.L ∧
        (fun j i => bits0 b j i ^^ bits1 b j i) (s * c.L + j - x.2.1) x.1 then x.2.2 else 0 := by
    intro pl
    apply List.map_congr_left
    intro x _
    by_cases h : x.2.1 ≤ s * c.L + j ∧ s * c.L + j < x.2.1 + c.L
    · have hx : ∀ a : Bool, (if x.2.1 ≤ s * c.L + j ∧ s * c.L + j < x.2.1 + c.L ∧ a = true then x.2.2 else 0) =
          if a then x.2.2 else 0 := by
        intro a; cases a <;> simp [h.1, h.2]
      rw [hx, hx, hx, xor_if]
    · rw [if_neg fun h' => h ⟨h'.1, h'.2.1⟩, if_neg fun h' => h ⟨h'.1, h'.2.1⟩, if_neg fun h' => h ⟨h'.1, h'.2.1⟩]
      simp
  rw [hm]
  have hsort := regionItems_sorted (c := c) hs b
  generalize hits : regionItems c tbl b = its at *
  cases its with
  | nil => rfl
  | cons x rest =>
    obtain ⟨p, v⟩ := x
    unfold placements
    simp only []
    rw [Nat.mul_div_cancel' h8]
    exact evalLoop_zero c.L c.bb s j hj (divCeil (c.srvStart (b + 1) - c.srvStart b) c.bb) 0 (p + c.bb)
      ((p, v) :: rest) hsort (fun j i => bits0 b j i ^^ bits1 b j i) fun k _ hk => by
        rw [hbits k (by omega), Bool.xor_self]

/-- The item number `s` in big block `t` of the region of bin `b`, the zero block if there is none; big blocks are counted from
the first occupied slot, empty slots are not counted. -/
def blockItem (c : Params) (tbl : List (Nat × Block)) (b t s : Nat) : Block :=
  ((between (((inRegion c tbl b).map (·.1)).headD 0 + t * c.bb)
    (((inRegion c tbl b).map (·.1)).headD 0 + t * c.bb + c.bb) (inRegion c tbl b)).map (·.2)).getD s 0

/-- C47, big blocks of any size: what the first server enters into the final PSI at the place where the client expects the
answer to query `k` of bin `b`. The mask is that of the query, but the item is the answer to query `k` of bin `b / bb`, at the
place `b % bb` of its big block: the client lays out one entry per query, the servers lay out `bb`. With big blocks of two or more
slots the queries of every bin but the first are answered with items of another bin. -/
theorem C47_wrong_bin (c : Params) (slot : Block → Nat → Nat) (xs : List Block) (tbl : List (Nat × Block)) (w : Rand)
    (bits0 bits1 : Nat → Nat → Nat → Bool) (hS : 0 < c.S) (hb : 0 < c.bb) (h8 : 8 ∣ c.L)
    (hfit : ∀ b : Nat, b < c.S → (bin c slot xs b).length ≤ c.L) (hbits : BitsOk c slot xs bits0 bits1)
    (hs : (tbl.map (·.1)).Pairwise (· < ·)) (hp : w.pi1.Perm (List.range c.permSize)) {b k : Nat} (hbS : b < c.S)
    (hk : k < (bin c slot xs b).length) (hr : rIdx c slot xs b ((bin c slot xs b).getD k (0, 0)) < c.permSize) :
    (serverValues c slot xs tbl w bits0 bits1).getD (b * c.L + k) 0 =
      (if k < (bin c slot xs (b / c.bb)).length then
        blockItem c tbl (b / c.bb) (target c slot xs (b / c.bb) ((bin c slot xs (b / c.bb)).getD k (0, 0))) (b % c.bb)
       else 0) ^^^
      (swapAll c w.sigma xs.length w.r).getD (rIdx c slot xs b ((bin c slot xs b).getD k (0, 0))) 0 ∧
    (0 < b → 1 < c.bb → b / c.bb < b) := by
  refine ⟨?_, fun h0 h1 => Nat.div_lt_self h0 h1⟩
  have hkL : k < c.L := Nat.lt_of_lt_of_le hk (hfit b hbS)
  have hrow : b * c.L + k < c.S * c.L := by
    have : (b + 1) * c.L ≤ c.S * c.L := Nat.mul_le_mul_right _ hbS
    rw [Nat.add_mul, Nat.one_mul] at this
    omega
  have hpi : (pi c slot xs).getD (b * c.L + k) 0 = rIdx c slot xs b ((bin c slot xs b).getD k (0, 0)) := by
    have h := (piBins_at (c := c) (slot := slot) (xs := xs) (List.range c.S) (xs.length * c.h)
      (fun b hb => hfit b (List.mem_range.mp hb)) (k := b) (q := k) (by simpa using hbS) hkL).1
    have e : (List.range c.S).getD b 0 = b := by rw [Kkrt.getD_eq (by simpa using hbS)]; simp
    rw [e] at h
    rw [← h hk]
    unfold pi
    have hlen := piBins_length (c := c) (slot := slot) (xs := xs) (List.range c.S) (xs.length * c.h)
      (fun b hb => hfit b (List.mem_range.mp hb))
    rw [List.length_range] at hlen
    rw [List.getD_eq_getElem?_getD, List.getElem?_append_left (by omega), ← List.getD_eq_getElem?_getD]
  have hi : b * c.L + k < c.permSize := by
    unfold Params.permSize
    exact Nat.lt_of_lt_of_le hrow (Nat.le_mul_of_pos_right _ hb)
  rw [serverValues_at hp hi (by rw [hpi]; exact hr), hpi]
  congr 1
  have hidx : b * c.L + k = b / c.bb * (c.L * c.bb) + (b % c.bb * c.L + k) := by
    have h1 : (c.bb * (b / c.bb) + b % c.bb) * c.L = b * c.L := by rw [Nat.div_add_mod]
    rw [Nat.add_mul, Nat.mul_comm c.bb, Nat.mul_assoc, Nat.mul_comm c.bb] at h1
    omega
  have hb' : b / c.bb < c.S := Nat.lt_of_le_of_lt (Nat.div_le_self _ _) hbS
  have hn := (region_blocks (c := c) hS hb (b / c.bb)).2
  rw [hidx]
  split
  case isTrue h =>
    exact C47_block_answer c hb h8 tbl hs bits0 bits1 hb' hkL (Nat.mod_lt _ hb) fun i hi =>
      hbits.real _ k hb' h i (Nat.lt_of_lt_of_le hi hn)
  case isFalse h =>
    exact block_unused c h8 tbl hs bits0 bits1 hb' hkL (Nat.mod_lt _ hb) fun i hi =>
      hbits.unused _ k hb' (by omega) hkL i (Nat.lt_of_lt_of_le hi hn)

/-- The hypotheses hold for big blocks of two slots and two bins; the only item of the client and the servers lies in the second
bin and is not found there: the servers enter the bare mask. -/
example : BitsOk ⟨4, 2, 8, 2, 1⟩ (fun _ _ => 2) [5] (fun _ _ i => decide (i = 0)) (fun b k i => decide (i = 0 ∧ ¬ (b = 1 ∧ k = 0))) ∧
    (∀ b : Nat, b < 2 → (bin ⟨4, 2, 8, 2, 1⟩ (fun _ _ => 2) [5] b).length ≤ 8) ∧
    bin ⟨4, 2, 8, 2, 1⟩ (fun _ _ => 2) [5] 1 = [(0, 0)] ∧ bin ⟨4, 2, 8, 2, 1⟩ (fun _ _ => 2) [5] 0 = [] := by
  refine ⟨⟨fun b k hb hk i _ => ?_, fun b k hb hk _ i _ => ?_⟩, by decide +kernel, by decide +kernel, by decide +kernel⟩
  · have h : b = 0 ∨ b = 1 := by change b < 2 at hb; omega
    rcases h with rfl | rfl
    · exact absurd hk (by rw [show (bin ⟨4, 2, 8, 2, 1⟩ (fun _ _ => 2) [5] 0).length = 0 from by decide +kernel]; omega)
    · rw [show (bin ⟨4, 2, 8, 2, 1⟩ (fun _ _ => 2) [5] 1).length = 1 from by decide +kernel] at hk
      have : k = 0 := by omega
      subst this
      rw [show target ⟨4, 2, 8, 2, 1⟩ (fun _ _ => 2) [5] 1 ((bin ⟨4, 2, 8, 2, 1⟩ (fun _ _ => 2) [5] 1).getD 0 (0, 0)) = 0
        from by decide +kernel]
      simp
  · have h : b = 0 ∨ b = 1 := by change b < 2 at hb; omega
    rcases h with rfl | rfl
    · simp
    · rw [show (bin ⟨4, 2, 8, 2, 1⟩ (fun _ _ => 2) [5] 1).length = 1 from by decide +kernel] at hk
      have : k ≠ 0 := by omega
      simp [this]

/-- Big blocks of two slots, one region of four slots with the items 9 and 5 in the slots 1 and 2: the first block starts
at slot 1, so the query for block 0 is answered by 9 and 5. -/
example : ((between 1 3 (inRegion ⟨4, 1, 8, 2, 1⟩ [(1, 9), (2, 5)] 0)).map (·.2)) = [9, 5] ∧
    (shares ⟨4, 1, 8, 2, 1⟩ [(1, 9), (2, 5)] (fun _ _ i => decide (i = 0))).getD 11 0 = 5 := by decide +kernel

/-- Without a multiple of eight the parts of a row overlap: with nine queries per row and two items in the block, the
place of the first query in the second part gets both items although no query asked for both. -/
theorem C47_row_overlap : ∃ (c : Params) (tbl : List (Nat × Block)) (bits : Nat → Nat → Nat → Bool),
    c.L = 9 ∧ c.bb = 8 ∧ (tbl.map (·.1)).Pairwise (· < ·) ∧ (tbl.map (·.2)) = [16, 5] ∧
    (shares c tbl bits).getD 8 0 = 16 ^^^ 5 :=
  ⟨⟨8, 1, 9, 8, 1⟩, [(0, 16), (1, 5)], fun _ _ i => decide (i = 0), rfl, rfl, by decide, rfl, by decide +kernel⟩

end Verif.Drrn
