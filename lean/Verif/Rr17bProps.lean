import Verif.Rr17bLemmas
/-
Properties C41, C42, C68: RR17b after the insertion into bins, and the release of the send buffers.
-/
namespace Verif.Rr17b
open Verif Part Rr17

variable {D : Type}

/-! ### C41 -/

/-- C41: the bins of thread `t` of the sender and of thread `t` of the receiver (which share a channel and its OTs)
agree for all threads exactly if the number of threads divides the number of bins. The full property has no such
condition and is false of the code. -/
theorem C41_agree_iff_partial (c : Cfg D) (hT : 0 < c.T) (hB : 0 < c.B) (hov : (c.B + c.T) * c.T < 2 ^ 64) :
    (∀ t, t < c.T → c.sBins t = c.rBins t) ↔ c.T ∣ c.B := by
  constructor
  · intro h
    have h0 := congrArg List.length (h 0 hT)
    unfold Cfg.sBins Cfg.rBins interval ceilStart ceilEnd bound perThread at h0
    rw [Nat.add_mul] at hov
    have hTT : c.T ≤ c.T * c.T := Nat.le_mul_of_pos_left _ hT
    have hBT : c.B ≤ c.B * c.T := Nat.le_mul_of_pos_right _ hT
    simp only [List.length_map, List.length_range, Nat.zero_mul, Nat.zero_add, Nat.mul_zero, Nat.zero_mod,
      Nat.zero_div, Nat.sub_zero, Nat.mul_one, Nat.one_mul] at h0
    rw [Nat.mod_eq_of_lt (a := c.B + c.T - 1) (by omega), Nat.mod_eq_of_lt (a := c.B) (by omega)] at h0
    have hle : (c.B + c.T - 1) / c.T ≤ c.B := by
      rw [Nat.div_le_iff_le_mul hT]
      omega
    rw [Nat.mod_eq_of_lt (a := (c.B + c.T - 1) / c.T) (by omega), Nat.min_eq_left hle] at h0
    have h1 := Nat.div_add_mod c.B c.T
    have h2 := Nat.mod_lt c.B hT
    rcases Nat.eq_zero_or_pos (c.B % c.T) with hz | hz
    · exact Nat.dvd_of_mod_eq_zero hz
    · exfalso
      have : c.B / c.T + 1 ≤ (c.B + c.T - 1) / c.T := by
        rw [Nat.le_div_iff_mul_le hT, Nat.add_mul, Nat.one_mul, Nat.mul_comm]
        omega
      omega
  · intro hd t ht
    obtain ⟨h1, h2, h3, h4⟩ := ranges_of_dvd hT hd ht hov
    unfold Cfg.sBins Cfg.rBins
    rw [h1, h2, h3, h4]

/-- C41, negation: 4 bins and 3 threads. Bin 1 is in thread 0 of the sender and in thread 1 of the receiver. -/
theorem C41_disagree (tag : Nat → Nat → Block → Nat) (key : Nat → Nat → Block → Block) (H : Block → Block → D) :
    let c : Cfg D := ⟨4, 4, 2, 3, tag, key, H⟩
    c.sBins 0 = [0, 1] ∧ c.rBins 0 = [0] ∧ c.sBins 1 = [2, 3] ∧ c.rBins 1 = [1] ∧ c.sBins 2 = [] ∧
      c.rBins 2 = [2, 3] := by
  show interval (ceilStart 4 3 0) (ceilEnd 4 3 0) = _ ∧ interval (bound 4 3 0) (bound 4 3 1) = _ ∧
    interval (ceilStart 4 3 1) (ceilEnd 4 3 1) = _ ∧ interval (bound 4 3 1) (bound 4 3 2) = _ ∧
    interval (ceilStart 4 3 2) (ceilEnd 4 3 2) = _ ∧ interval (bound 4 3 2) (bound 4 3 3) = _
  decide

/-- C41: every bin is in exactly one range on either side, whatever the numbers. -/
theorem C41_covered (c : Cfg D) (hT : 0 < c.T) (hov : (c.B + c.T) * c.T < 2 ^ 64) :
    (List.range c.T).flatMap c.sBins = List.range c.B ∧ (List.range c.T).flatMap c.rBins = List.range c.B := by
  constructor
  · exact C31_ceil_ranges c.B c.T hT hov
  · exact C31_scaled_ranges c.B c.T hT (by rw [Nat.add_mul] at hov; omega)

/-- C41: the OTs of thread `t` are numbered without gaps and without repetition, `M` for each bin, on either side; if the
number of threads divides the number of bins, bin `b` has the same numbers on both sides. -/
theorem C41_ots_partial (c : Cfg D) (hT : 0 < c.T) (hov : (c.B + c.T) * c.T < 2 ^ 64) (t : Nat) (ht : t < c.T) :
    ((c.sBins t).flatMap fun b => (List.range c.M).map (c.sOt t b + ·)) = List.range ((c.sBins t).length * c.M) ∧
    ((c.rBins t).flatMap fun b => (List.range c.M).map (c.rOt t b + ·)) = List.range ((c.rBins t).length * c.M) ∧
    (c.T ∣ c.B → ∀ b, c.sOt t b = c.rOt t b) := by
  refine ⟨?_, ?_, ?_⟩
  · unfold Cfg.sBins Cfg.sOt interval
    rw [List.flatMap_map, List.length_map, List.length_range, ← flatMap_range_mul]
    apply flatMap_congr'
    intro k _
    simp only [Nat.add_sub_cancel_left]
  · unfold Cfg.rBins Cfg.rOt interval
    rw [List.flatMap_map, List.length_map, List.length_range, ← flatMap_range_mul]
    apply flatMap_congr'
    intro k _
    simp only [Nat.add_sub_cancel_left]
  · intro hd b
    obtain ⟨h1, _, h3, _⟩ := ranges_of_dvd hT hd ht hov
    unfold Cfg.sOt Cfg.rOt
    rw [h1, h3]

/-! ### C42 -/

/-- The bins after the insertion: bin `b` holds the indices with address `b`, in any order, and at most `M` of them. -/
structure Placed (c : Cfg D) (f : Nat → Nat) (bins : Nat → List Nat) : Prop where
  mem : ∀ b, b < c.B → (bins b).Perm ((List.range c.N).filter fun i => f i == b)
  lt : ∀ i, i < c.N → f i < c.B
  cap : ∀ b, b < c.B → (bins b).length ≤ c.M

theorem Placed.addr {c : Cfg D} {f : Nat → Nat} {bins : Nat → List Nat} (h : Placed c f bins) {b i : Nat}
    (hb : b < c.B) (hi : i ∈ bins b) : i < c.N ∧ f i = b := by
  have := List.mem_filter.mp ((h.mem b hb).mem_iff.mp hi)
  exact ⟨List.mem_range.mp this.1, by simpa using this.2⟩

theorem Placed.mem' {c : Cfg D} {f : Nat → Nat} {bins : Nat → List Nat} (h : Placed c f bins) {i : Nat}
    (hi : i < c.N) : i ∈ bins (f i) :=
  (h.mem _ (h.lt i hi)).mem_iff.mpr (List.mem_filter.mpr ⟨List.mem_range.mpr hi, by simp⟩)

/-- Thread and OT of bin `b` if the number of threads divides the number of bins. -/
theorem bin_thread (c : Cfg D) (hT : 0 < c.T) (hd : c.T ∣ c.B) (hov : (c.B + c.T) * c.T < 2 ^ 64) {t b : Nat}
    (ht : t < c.T) : (b ∈ c.sBins t ↔ t * (c.B / c.T) ≤ b ∧ b < (t + 1) * (c.B / c.T)) ∧
      (b ∈ c.rBins t ↔ t * (c.B / c.T) ≤ b ∧ b < (t + 1) * (c.B / c.T)) ∧
      c.sOt t b = (b - t * (c.B / c.T)) * c.M ∧ c.rOt t b = (b - t * (c.B / c.T)) * c.M := by
  obtain ⟨h1, h2, h3, h4⟩ := ranges_of_dvd hT hd ht hov
  unfold Cfg.sBins Cfg.rBins Cfg.sOt Cfg.rOt
  rw [h1, h2, h3, h4]
  exact ⟨mem_interval, mem_interval, rfl, rfl⟩

theorem in_block {b B T t : Nat} (h : t * (B / T) ≤ b ∧ b < (t + 1) * (B / T)) : b / (B / T) = t := by
  have hq : 0 < B / T := by
    rcases Nat.eq_zero_or_pos (B / T) with hz | hz
    · rw [hz] at h; omega
    · exact hz
  apply Nat.div_eq_of_lt_le
  · exact h.1
  · exact h.2

theorem thread_of {b B T : Nat} (hT : 0 < T) (hd : T ∣ B) (hb : b < B) :
    b / (B / T) < T ∧ b / (B / T) * (B / T) ≤ b ∧ b < (b / (B / T) + 1) * (B / T) := by
  obtain ⟨q, rfl⟩ := hd
  rw [Nat.mul_div_cancel_left q hT]
  have hq : 0 < q := by
    rcases Nat.eq_zero_or_pos q with hz | hz
    · rw [hz] at hb; omega
    · exact hz
  refine ⟨?_, Nat.div_mul_le_self b q, ?_⟩
  · rw [Nat.div_lt_iff_lt_mul hq]; exact hb
  · have h1 := Nat.div_add_mod b q
    have h2 := Nat.mod_lt b hq
    rw [Nat.add_mul, Nat.one_mul, Nat.mul_comm]
    omega

/-- The OT number of column `l` of bin `b` in its thread. -/
def otNo (c : Cfg D) (b l : Nat) : Nat := (b - b / (c.B / c.T) * (c.B / c.T)) * c.M + l

section
variable (c : Cfg D) (X Y : List Block) (ot : Block → Block) (r : Nat → Block) (perm : List Nat)
  (f g : Nat → Nat) (sbins rbins : Nat → List Nat) (rnd : Nat → Nat → Nat)

/-- Every store belongs to an item in its bin. -/
theorem stores_mem (hT : 0 < c.T) (hd : c.T ∣ c.B) (hov : (c.B + c.T) * c.T < 2 ^ 64) (hS : Placed c f sbins)
    {w : Nat × Cell D} :
    w ∈ (List.range c.T).flatMap (threadStores c X ot r perm sbins) ↔
    ∃ idx, idx < c.N ∧ w ∈ itemStores c X ot r perm (f idx / (c.B / c.T)) (f idx) idx := by
  constructor
  · intro h
    obtain ⟨t, ht, h⟩ := List.mem_flatMap.mp h
    have ht := List.mem_range.mp ht
    obtain ⟨b, hb, h⟩ := List.mem_flatMap.mp h
    obtain ⟨idx, hi, h⟩ := List.mem_flatMap.mp h
    have hb' := (bin_thread c hT hd hov ht).1.mp hb
    have htb := in_block hb'
    have hbB : b < c.B := by
      obtain ⟨q, hq⟩ := hd
      have : (t + 1) * (c.B / c.T) ≤ c.T * (c.B / c.T) := Nat.mul_le_mul_right _ ht
      rw [hq, Nat.mul_div_cancel_left q hT] at this hb'
      omega
    obtain ⟨h1, h2⟩ := hS.addr hbB hi
    refine ⟨idx, h1, ?_⟩
    rw [h2, htb]
    exact h
  · rintro ⟨idx, hi, h⟩
    obtain ⟨h1, h2⟩ := thread_of hT hd (hS.lt idx hi)
    exact List.mem_flatMap.mpr ⟨_, List.mem_range.mpr h1, List.mem_flatMap.mpr ⟨_,
      (bin_thread c hT hd hov h1).1.mpr h2, List.mem_flatMap.mpr ⟨idx, hS.mem' hi, h⟩⟩⟩

theorem item_cell {X : List Block} {ot : Block → Block} {r : Nat → Block} {perm : List Nat} {t b idx : Nat}
    {w : Nat × Cell D} : w ∈ itemStores c X ot r perm t b idx ↔
    w = (perm.getD idx 0 * c.setSize, .comm (c.H (X.getD idx 0) (r idx))) ∨
    ∃ l, l < c.M ∧ w = (perm.getD idx 0 * c.setSize + (20 + 20 * l),
      .pair (c.tag t (c.sOt t b + l) (ot (X.getD idx 0))) (c.key t (c.sOt t b + l) (ot (X.getD idx 0)) ^^^ r idx)) := by
  unfold itemStores
  simp only [List.mem_cons, List.mem_map, List.mem_range]
  constructor
  · rintro (h | ⟨l, hl, h⟩)
    · exact .inl h
    · refine .inr ⟨l, hl, ?_⟩
      rw [← h, Nat.add_assoc]
  · rintro (h | ⟨l, hl, h⟩)
    · exact .inl h
    · refine .inr ⟨l, hl, ?_⟩
      rw [h, Nat.add_assoc]

theorem rec_at (hT : 0 < c.T) (hd : c.T ∣ c.B) (hov : (c.B + c.T) * c.T < 2 ^ 64) (hS : Placed c f sbins)
    (hp : perm.Perm (List.range c.N)) (i : Nat) (hi : i < c.N) :
    RecAt c (buffer ((List.range c.T).flatMap (threadStores c X ot r perm sbins))) (perm.getD i 0)
      (c.H (X.getD i 0) (r i))
      (fun l => c.tag (f i / (c.B / c.T)) (otNo c (f i) l) (ot (X.getD i 0)))
      (fun l => c.key (f i / (c.B / c.T)) (otNo c (f i) l) (ot (X.getD i 0)) ^^^ r i) := by
  have hlen : perm.length = c.N := by rw [hp.length_eq, List.length_range]
  have hnd : perm.Nodup := hp.nodup_iff.mpr List.nodup_range
  have hinj : ∀ i' < c.N, perm.getD i' 0 = perm.getD i 0 → i' = i := by
    intro i' hi' h
    exact Kkrt.getD_inj hnd (by omega) (by omega) h
  have hso : ∀ l, c.sOt (f i / (c.B / c.T)) (f i) + l = otNo c (f i) l := by
    intro l
    obtain ⟨h1, _⟩ := thread_of hT hd (hS.lt i hi)
    rw [(bin_thread c hT hd hov h1).2.2.1]
    rfl
  have hSz : c.setSize = 20 * c.M + 20 := rfl
  have hpos : 0 < c.setSize := by omega
  refine ⟨?_, ?_⟩
  · apply buffer_get
    · exact (stores_mem c X ot r perm f sbins hT hd hov hS).mpr ⟨i, hi, (item_cell c).mpr (.inl rfl)⟩
    · intro y hy
      obtain ⟨i', hi', hw⟩ := (stores_mem c X ot r perm f sbins hT hd hov hS).mp hy
      rcases (item_cell c).mp hw with h | ⟨l, hl, h⟩
      · obtain ⟨h1, h2⟩ := Prod.mk.inj h
        have := hinj i' hi' (Nat.eq_of_mul_eq_mul_right hpos h1.symm)
        rw [h2, this]
      · have h1 := (Prod.mk.inj h).1
        have := (offset_inj (p := perm.getD i 0) (q := perm.getD i' 0) (u := 0) (v := 20 + 20 * l) (S := c.setSize)
          (by omega) (by omega) (by omega)).2
        omega
  · intro l hl
    rw [Nat.add_assoc]
    apply buffer_get
    · refine (stores_mem c X ot r perm f sbins hT hd hov hS).mpr ⟨i, hi, (item_cell c).mpr (.inr ⟨l, hl, ?_⟩)⟩
      rw [hso]
    · intro y hy
      obtain ⟨i', hi', hw⟩ := (stores_mem c X ot r perm f sbins hT hd hov hS).mp hy
      rcases (item_cell c).mp hw with h | ⟨l', hl', h⟩
      · have h1 := (Prod.mk.inj h).1
        have := (offset_inj (p := perm.getD i 0) (q := perm.getD i' 0) (u := 20 + 20 * l) (v := 0) (S := c.setSize)
          (by omega) (by omega) (by omega)).2
        omega
      · obtain ⟨h1, h2⟩ := Prod.mk.inj h
        obtain ⟨h3, h4⟩ := offset_inj (S := c.setSize) (by omega) (by omega) h1
        have := hinj i' hi' h3.symm
        subst this
        have : l' = l := by omega
        subst this
        rw [h2, hso]

/-- The entry of an item of the receiver. -/
theorem entry_mem (hT : 0 < c.T) (hd : c.T ∣ c.B) (hov : (c.B + c.T) * c.T < 2 ^ 64) (hR : Placed c g rbins)
    (j : Nat) (hj : j < c.N) : ∃ a, a < c.M ∧
      (c.tag (g j / (c.B / c.T)) (otNo c (g j) a) (ot (Y.getD j 0)), j,
        c.key (g j / (c.B / c.T)) (otNo c (g j) a) (ot (Y.getD j 0))) ∈
      (List.range c.T).flatMap (threadEntries c Y ot rbins rnd) := by
  obtain ⟨h1, h2⟩ := thread_of hT hd (hR.lt j hj)
  have hcov := (C41_covered c hT hov).2
  have hb : g j ∈ c.rBins (g j / (c.B / c.T)) := (bin_thread c hT hd hov h1).2.1.mpr h2
  have hl : ∀ b ∈ c.rBins (g j / (c.B / c.T)), (rbins b).length ≤ c.M := by
    intro b hb'
    apply hR.cap
    have : b ∈ (List.range c.T).flatMap c.rBins := List.mem_flatMap.mpr ⟨_, List.mem_range.mpr h1, hb'⟩
    rw [hcov] at this
    exact List.mem_range.mp this
  obtain ⟨hm1, hm2⟩ := recvBins_spec c.M rbins rnd (c.rBins (g j / (c.B / c.T))) hl (List.range c.M) (List.Perm.refl _)
  rw [← hm1] at hb
  obtain ⟨x, hx, hxb⟩ := List.mem_map.mp hb
  obtain ⟨hx1, hx2⟩ := hm2 x hx
  have hjx : j ∈ x.2.filterMap (·.2) := by rw [hx2, hxb]; exact hR.mem' hj
  obtain ⟨o, ho, hoj⟩ := List.mem_filterMap.mp hjx
  have hoM : o.1 < c.M := List.mem_range.mp (hx1.mem_iff.mp (List.mem_map.mpr ⟨o, ho, rfl⟩))
  refine ⟨o.1, hoM, ?_⟩
  refine List.mem_flatMap.mpr ⟨_, List.mem_range.mpr h1, List.mem_flatMap.mpr ⟨x, hx, List.mem_filterMap.mpr
    ⟨o, ho, ?_⟩⟩⟩
  rw [hoj, hxb, (bin_thread c hT hd hov h1).2.2.2]
  rfl

/-- Conversely every entry belongs to an item of the receiver. -/
theorem entry_lt (hT : 0 < c.T) (hov : (c.B + c.T) * c.T < 2 ^ 64) (hR : Placed c g rbins)
    {e : Nat × Nat × Block} (he : e ∈ (List.range c.T).flatMap (threadEntries c Y ot rbins rnd)) : e.2.1 < c.N := by
  obtain ⟨t, ht, he⟩ := List.mem_flatMap.mp he
  have ht := List.mem_range.mp ht
  obtain ⟨x, hx, he⟩ := List.mem_flatMap.mp he
  obtain ⟨o, ho, he⟩ := List.mem_filterMap.mp he
  have hlt : ∀ b ∈ c.rBins t, b < c.B := by
    intro b hb'
    have : b ∈ (List.range c.T).flatMap c.rBins := List.mem_flatMap.mpr ⟨_, List.mem_range.mpr ht, hb'⟩
    rw [(C41_covered c hT hov).2] at this
    exact List.mem_range.mp this
  obtain ⟨hm1, hm2⟩ := recvBins_spec c.M rbins rnd (c.rBins t) (fun b hb => hR.cap b (hlt b hb)) (List.range c.M)
    (List.Perm.refl _)
  obtain ⟨_, hx2⟩ := hm2 x hx
  cases hoj : o.2 with
  | none => rw [hoj] at he; cases he
  | some j =>
    rw [hoj] at he
    simp only [Option.map_some, Option.some.injEq] at he
    subst he
    have hjx : j ∈ x.2.filterMap (·.2) := List.mem_filterMap.mpr ⟨o, ho, hoj⟩
    rw [hx2] at hjx
    have hxb : x.1 ∈ c.rBins t := by rw [← hm1]; exact List.mem_map.mpr ⟨x, hx, rfl⟩
    exact (hR.addr (hlt _ hxb) hjx).1
end

/-- C42, execution: with bins placed by address, a permutation of the records, any order of the table's entries and a
number of threads that divides the number of bins, the online phase ends without exception and without reading beside
a record, and reports for every sender's item the first match of its record. -/
theorem C42_runs_partial [DecidableEq D] (c : Cfg D) (X Y : List Block) (ot : Block → Block) (r : Nat → Block)
    (perm : List Nat) (f : Nat → Nat) (sbins : Nat → List Nat) (tagMap : List (Nat × Nat × Block))
    (hT : 0 < c.T) (hd : c.T ∣ c.B) (hov : (c.B + c.T) * c.T < 2 ^ 64) (hov' : (c.N + c.T) * c.T < 2 ^ 64)
    (hS : Placed c f sbins) (hp : perm.Perm (List.range c.N)) :
    ∃ res, online c X Y ot r perm sbins tagMap = .ok res ∧
      res.Perm ((List.range c.N).filterMap fun i => firstMatch c Y tagMap (c.H (X.getD i 0) (r i))
        (fun l => c.tag (f i / (c.B / c.T)) (otNo c (f i) l) (ot (X.getD i 0)))
        (fun l => c.key (f i / (c.B / c.T)) (otNo c (f i) l) (ot (X.getD i 0)) ^^^ r i)) := by
  have hlen : perm.length = c.N := by rw [hp.length_eq, List.length_range]
  have hinv : ∀ q, q < c.N → perm.idxOf q < c.N ∧ perm.getD (perm.idxOf q) 0 = q := by
    intro q hq
    have hm : q ∈ perm := hp.mem_iff.mpr (List.mem_range.mpr hq)
    have h1 : perm.idxOf q < perm.length := List.idxOf_lt_length_of_mem hm
    refine ⟨by omega, ?_⟩
    rw [Kkrt.getD_eq h1]
    exact List.getElem_idxOf h1
  have hrun := online_ok c X Y ot r perm sbins tagMap hT hov'
    (fun q => c.H (X.getD (perm.idxOf q) 0) (r (perm.idxOf q)))
    (fun q l => c.tag (f (perm.idxOf q) / (c.B / c.T)) (otNo c (f (perm.idxOf q)) l) (ot (X.getD (perm.idxOf q) 0)))
    (fun q l => c.key (f (perm.idxOf q) / (c.B / c.T)) (otNo c (f (perm.idxOf q)) l)
      (ot (X.getD (perm.idxOf q) 0)) ^^^ r (perm.idxOf q))
    (fun q hq => by
      obtain ⟨h1, h2⟩ := hinv q hq
      have := rec_at c X ot r perm f sbins hT hd hov hS hp (perm.idxOf q) h1
      rw [h2] at this
      exact this)
  refine ⟨_, hrun, ?_⟩
  have hperm : ((List.range c.N).map fun q => perm.idxOf q).Perm (List.range c.N) := by
    refine (hp.symm.map (fun q => perm.idxOf q)).trans ?_
    have : perm.map (fun q => perm.idxOf q) = List.range c.N := by
      apply List.ext_getElem
      · rw [List.length_map, hlen, List.length_range]
      · intro i h1 h2
        rw [List.getElem_map, List.getElem_range]
        exact (hp.nodup_iff.mpr List.nodup_range).idxOf_getElem i (by simpa using h1)
    rw [this]
  have := hperm.filterMap fun i => firstMatch c Y tagMap (c.H (X.getD i 0) (r i))
        (fun l => c.tag (f i / (c.B / c.T)) (otNo c (f i) l) (ot (X.getD i 0)))
        (fun l => c.key (f i / (c.B / c.T)) (otNo c (f i) l) (ot (X.getD i 0)) ^^^ r i)
  rw [List.filterMap_map] at this
  exact this

/-- A match of a record opens its commitment with a key of the table. -/
theorem firstMatch_some [DecidableEq D] {c : Cfg D} {Y : List Block} {tagMap : List (Nat × Nat × Block)} {d : D}
    {ts : Nat → Nat} {es : Nat → Block} {j : Nat} (h : firstMatch c Y tagMap d ts es = some j) :
    ∃ l e, l < c.M ∧ e ∈ tagMap ∧ e.1 = ts l ∧ e.2.1 = j ∧ c.H (Y.getD j 0) (e.2.2 ^^^ es l) = d := by
  unfold firstMatch at h
  obtain ⟨l, hl, h⟩ := List.exists_of_findSome?_eq_some h
  unfold tryPair at h
  obtain ⟨e, he, rfl⟩ := Option.map_eq_some_iff.mp h
  have h1 := List.find?_some he
  have h2 := List.mem_filter.mp (List.mem_of_find?_eq_some he)
  exact ⟨l, e, List.mem_range.mp hl, h2.1, by simpa using h2.2, rfl, of_decide_eq_true h1⟩

/-- A record that some entry opens has a match. -/
theorem firstMatch_isSome [DecidableEq D] {c : Cfg D} {Y : List Block} {tagMap : List (Nat × Nat × Block)} {d : D}
    {ts : Nat → Nat} {es : Nat → Block} {l : Nat} {e : Nat × Nat × Block} (hl : l < c.M) (he : e ∈ tagMap)
    (ht : e.1 = ts l) (ho : c.H (Y.getD e.2.1 0) (e.2.2 ^^^ es l) = d) :
    ∃ j, firstMatch c Y tagMap d ts es = some j := by
  rw [← Option.isSome_iff_exists]
  unfold firstMatch
  rw [List.findSome?_isSome_iff]
  refine ⟨l, List.mem_range.mpr hl, ?_⟩
  unfold tryPair
  rw [Option.isSome_map, List.find?_isSome]
  exact ⟨e, List.mem_filter.mpr ⟨he, by simpa using ht⟩, decide_eq_true ho⟩

/-- C42, soundness and completeness, for a commitment that is binding (`H x r = H y r'` only if `x = y`), distinct
items of the receiver, and bins determined by the item: the reported indices are exactly the positions of the
receiver's items that the sender has. The full property has no condition on the number of threads; without it the OTs
of the parties do not agree (`C41_disagree`). -/
theorem C42_matching_partial [DecidableEq D] (c : Cfg D) (X Y : List Block) (ot : Block → Block) (f : Block → Nat)
    (r : Nat → Block) (perm : List Nat) (sbins rbins : Nat → List Nat) (rnd : Nat → Nat → Nat)
    (tagMap : List (Nat × Nat × Block)) (hX : X.length = c.N) (hY : Y.length = c.N)
    (hT : 0 < c.T) (hd : c.T ∣ c.B) (hov : (c.B + c.T) * c.T < 2 ^ 64) (hov' : (c.N + c.T) * c.T < 2 ^ 64)
    (hS : Placed c (fun i => f (X.getD i 0)) sbins) (hR : Placed c (fun j => f (Y.getD j 0)) rbins)
    (hp : perm.Perm (List.range c.N)) (htm : tagMap.Perm ((List.range c.T).flatMap (threadEntries c Y ot rbins rnd)))
    (hbind : ∀ x y k k', c.H x k = c.H y k' → x = y) (hnd : Y.Nodup) :
    ∃ res, online c X Y ot r perm sbins tagMap = .ok res ∧
      ∀ j, j ∈ res ↔ ∃ hj : j < Y.length, Y[j] ∈ X := by
  obtain ⟨res, hrun, hres⟩ := C42_runs_partial c X Y ot r perm (fun i => f (X.getD i 0)) sbins tagMap hT hd hov hov' hS hp
  refine ⟨res, hrun, fun j => ?_⟩
  rw [hres.mem_iff, List.mem_filterMap]
  constructor
  · rintro ⟨i, hi, hm⟩
    have hi := List.mem_range.mp hi
    obtain ⟨l, e, _, he, _, rfl, ho⟩ := firstMatch_some hm
    have hj : e.2.1 < Y.length := by
      rw [hY]; exact entry_lt c Y ot _ rbins rnd hT hov hR (htm.mem_iff.mp he)
    refine ⟨hj, ?_⟩
    have := hbind _ _ _ _ ho
    rw [Kkrt.getD_eq hj] at this
    rw [this, Kkrt.getD_eq (by omega)]
    exact List.getElem_mem _
  · rintro ⟨hj, hmem⟩
    obtain ⟨i, hi, hij⟩ := List.getElem_of_mem hmem
    refine ⟨i, List.mem_range.mpr (by omega), ?_⟩
    have hgd : Y.getD j 0 = X.getD i 0 := by rw [Kkrt.getD_eq hj, Kkrt.getD_eq hi, hij]
    obtain ⟨a, ha, he⟩ := entry_mem c Y ot (fun j => f (Y.getD j 0)) rbins rnd hT hd hov hR j (by omega)
    rw [hgd] at he
    obtain ⟨j', hj'⟩ := firstMatch_isSome (c := c) (Y := Y) (tagMap := tagMap) (d := c.H (X.getD i 0) (r i))
      (ts := fun l => c.tag (f (X.getD i 0) / (c.B / c.T)) (otNo c (f (X.getD i 0)) l) (ot (X.getD i 0)))
      (es := fun l => c.key (f (X.getD i 0) / (c.B / c.T)) (otNo c (f (X.getD i 0)) l) (ot (X.getD i 0)) ^^^ r i)
      ha (htm.mem_iff.mpr he) rfl (by
        simp only
        rw [hgd, ← BitVec.xor_assoc, BitVec.xor_self, BitVec.zero_xor])
    rw [hj']
    obtain ⟨l, e, _, he', _, rfl, ho⟩ := firstMatch_some hj'
    have hjl : e.2.1 < Y.length := by
      rw [hY]; exact entry_lt c Y ot _ rbins rnd hT hov hR (htm.mem_iff.mp he')
    have := hbind _ _ _ _ ho
    rw [← hgd] at this
    rw [Kkrt.getD_eq hjl, Kkrt.getD_eq hj] at this
    rw [(List.getElem_inj hnd).mp this]

/-- C42: the hypotheses can be met; two threads, the items `3` and `4` of the receiver, `4` in common. -/
example : let c : Cfg (Block × Block) := ⟨2, 2, 2, 2, fun t k x => x.toNat + 16 * k + 256 * t, fun _ _ x => x + 7, Prod.mk⟩
    let X : List Block := [4, 9]
    let Y : List Block := [3, 4]
    let bins : List Block → Nat → List Nat := fun l b => (List.range 2).filter fun i => (l.getD i 0).toNat % 2 == b
    (online c X Y id (fun i => BitVec.ofNat 128 i + 11) [1, 0] (bins X)
      ((List.range 2).flatMap (threadEntries c Y id (bins Y) fun _ _ => 1))) = .ok [1] := by decide +kernel

/-- C42, negation without the condition on the number of threads: both parties hold `0, 1, 2, 3`, four bins, three
threads, a binding commitment; only `0` is reported. -/
theorem C42_missed :
    let c : Cfg (Block × Block) := ⟨4, 4, 1, 3, fun t k x => x.toNat + 16 * k + 256 * t, fun _ _ x => x + 7, Prod.mk⟩
    let X : List Block := [0, 1, 2, 3]
    let bins : Nat → List Nat := fun b => [b]
    online c X X id (fun i => BitVec.ofNat 128 i + 11) [0, 1, 2, 3] bins
      ((List.range 3).flatMap (threadEntries c X id bins fun _ _ => 0)) = .ok [0] := by decide +kernel

/-! ### C68 -/

/-- The chunks handed to the network. -/
def enqueued (es : List Ev) : List Nat :=
  es.filterMap fun e => match e with
    | .enq i => some i
    | .sent _ => none

theorem runA_ok (n : Nat) (es : List Ev) : ∀ (st : BufSt) (old : List Nat),
    (old ++ enqueued es).Nodup → (∀ i ∈ old ++ enqueued es, i < n) → st.count + old.length = n + st.flying.length →
    st.flying.length ≤ old.length → st.freed = decide (st.count = 0) →
    ∃ st', runEv evA st es = .ok st' ∧ st'.count + (old ++ enqueued es).length = n + st'.flying.length ∧
      st'.freed = decide (st'.count = 0) := by
  induction es with
  | nil =>
    intro st old _ _ h1 _ h3
    refine ⟨st, rfl, ?_, h3⟩
    simpa [enqueued] using h1
  | cons e es ih =>
    intro st old hnd hlt h1 h2 h3
    cases e with
    | enq i =>
      have he : enqueued (.enq i :: es) = i :: enqueued es := rfl
      rw [he] at hnd hlt
      have hle : (old ++ i :: enqueued es).length ≤ n := by
        have := Verif.length_le_of_nodup_subset hnd (l₂ := List.range n) fun x hx => List.mem_range.mpr (hlt x hx)
        simpa using this
      have hc : st.count ≠ 0 := by
        rw [List.length_append, List.length_cons] at hle
        omega
      have hf : st.freed = false := by rw [h3]; simpa using hc
      have hstep : evA st (.enq i) = .ok (BufSt.mk st.count st.freed (i :: st.flying)) := by
        unfold evA
        rw [hf]
        rfl
      obtain ⟨st', g1, g2, g3⟩ := ih (BufSt.mk st.count st.freed (i :: st.flying)) (old ++ [i])
        (by simpa using hnd) (by simpa using hlt) (by simp; omega) (by simp; omega) h3
      refine ⟨st', ?_, ?_, g3⟩
      · unfold runEv
        rw [hstep]
        exact g1
      · rw [he]
        simpa using g2
    | sent i =>
      have he : enqueued (.sent i :: es) = enqueued es := rfl
      rw [he] at hnd hlt ⊢
      by_cases hi : i ∈ st.flying
      · have hlen := List.length_erase_of_mem hi
        have hpos := List.length_pos_of_mem hi
        have holdn : old.length ≤ n := by
          have := Verif.length_le_of_nodup_subset (l₁ := old) (l₂ := List.range n) (List.nodup_append.mp hnd).1
            fun x hx => List.mem_range.mpr (hlt x (List.mem_append_left _ hx))
          simpa using this
        have hc : st.count ≠ 0 := by omega
        have hf : st.freed = false := by rw [h3]; simpa using hc
        have hstep : evA st (.sent i) =
            .ok (BufSt.mk (st.count - 1) (decide (st.count - 1 = 0)) (st.flying.erase i)) := by
          unfold evA onSent
          simp only
          rw [if_pos hi, if_neg (by simp [hf, hc])]
        obtain ⟨st', g1, g2, g3⟩ := ih (BufSt.mk (st.count - 1) (decide (st.count - 1 = 0)) (st.flying.erase i)) old hnd hlt
          (by show st.count - 1 + old.length = n + (st.flying.erase i).length; omega)
          (by show (st.flying.erase i).length ≤ old.length; omega) rfl
        refine ⟨st', ?_, g2, g3⟩
        unfold runEv
        rw [hstep]
        exact g1
      · have hstep : evA st (.sent i) = .ok st := by
          unfold evA onSent
          simp only
          rw [if_neg hi]
        obtain ⟨st', g1, g2, g3⟩ := ih st old hnd hlt h1 h2 h3
        refine ⟨st', ?_, g2, g3⟩
        unfold runEv
        rw [hstep]
        exact g1

/-- C68, RR17a: `n ≥ 1` chunks, each handed over at most once, sent in any order and at any time: the buffer is never
used after its release, and it has been released exactly when all chunks were handed over and sent. -/
theorem C68_rr17a (n : Nat) (hn : 0 < n) (es : List Ev) (hnd : (enqueued es).Nodup) (hlt : ∀ i ∈ enqueued es, i < n) :
    ∃ st, runEv evA ⟨n, false, []⟩ es = .ok st ∧
      (st.freed = true ↔ (enqueued es).length = n ∧ st.flying = []) := by
  obtain ⟨st, h1, h2, h3⟩ := runA_ok n es ⟨n, false, []⟩ [] (by simpa using hnd) (by simpa using hlt) (by simp)
    (Nat.le_refl _) (by simp; omega)
  refine ⟨st, h1, ?_⟩
  have hle : (enqueued es).length ≤ n := by
    have := Verif.length_le_of_nodup_subset hnd (l₂ := List.range n) fun x hx => List.mem_range.mpr (hlt x hx)
    simpa using this
  rw [List.nil_append] at h2
  rw [h3, decide_eq_true_iff, ← List.length_eq_zero_iff]
  omega

/-- C68, RR17a: an order that sends one chunk before the next is handed over. -/
example : runEv evA ⟨2, false, []⟩ [.enq 0, .sent 0, .enq 1, .sent 1] = .ok ⟨0, true, []⟩ := rfl

/-- C68, negation for RR17b: if the first chunk has been sent before the second is handed over, the counter reaches
zero, the buffer is deleted, and the second chunk is read from the deleted buffer. -/
theorem C68_rr17b : runEv evB ⟨0, false, []⟩ [.enq 0, .sent 0, .enq 1] = .ub := rfl

/-- C68, RR17b: the failure appears for every number of chunks from two on. -/
theorem C68_rr17b_any (n : Nat) (hn : 2 ≤ n) : ∃ es : List Ev, enqueued es = List.range n ∧
    runEv evB ⟨0, false, []⟩ es = .ub := by
  refine ⟨.enq 0 :: .sent 0 :: (interval 1 n).map .enq, ?_, ?_⟩
  · have h : interval 1 n = 1 :: interval 2 n := by
      obtain ⟨m, rfl⟩ : ∃ m, n = 1 + (m + 1) := ⟨n - 2, by omega⟩
      rw [interval_succ_right]
      show _ :: interval 2 (1 + 1 + m) = 1 :: interval 2 (1 + (m + 1))
      rw [Nat.add_assoc, Nat.add_comm 1 m]
    have he : ∀ l : List Nat, enqueued (l.map .enq) = l := by
      intro l
      unfold enqueued
      rw [List.filterMap_map]
      induction l with
      | nil => rfl
      | cons a l ih => rw [List.filterMap_cons]; simp only [Function.comp]; rw [← ih]; simp [ih]
    show 0 :: enqueued ((interval 1 n).map .enq) = _
    rw [he, ← interval_zero n, show n = 0 + (n - 1 + 1) by omega, interval_succ_right]
    simp
    congr 1
    omega
  · obtain ⟨m, rfl⟩ : ∃ m, n = 1 + (m + 1) := ⟨n - 2, by omega⟩
    rw [interval_succ_right]
    rfl

/-- C68, RR17b: one chunk per thread and one thread, the only case in which no order fails; the full property is
`C68_rr17b`'s negation. -/
theorem C68_rr17b_one_partial (es : List Ev) (h : enqueued es = [0]) :
    ∃ st, runEv evB ⟨0, false, []⟩ es = .ok st := by
  have main : ∀ es st, (enqueued es = [] ∧ ((st.flying = [] ) ∨ (st.flying = [0] ∧ st.count = 1 ∧ st.freed = false)) ∨
      enqueued es = [0] ∧ st.flying = [] ∧ st.count = 0 ∧ st.freed = false) →
      ∃ st', runEv evB st es = .ok st' := by
    intro es
    induction es with
    | nil => intro st _; exact ⟨st, rfl⟩
    | cons e es ih =>
      intro st h
      cases e with
      | enq i =>
        rcases h with ⟨h, _⟩ | ⟨h, hf, hc, hfr⟩
        · cases h
        · obtain ⟨rfl, h''⟩ : i = 0 ∧ enqueued es = [] := by
            have : i :: enqueued es = [0] := h
            simpa using this
          obtain ⟨st', hst⟩ := ih ⟨st.count + 1, st.freed, 0 :: st.flying⟩ (.inl ⟨h'', .inr ⟨by rw [hf], by simp [hc], hfr⟩⟩)
          refine ⟨st', ?_⟩
          unfold runEv evB
          simp only
          rw [hfr] at hst ⊢
          exact hst
      | sent i =>
        have hstep : (i ∈ st.flying ∧ st.flying = [0] ∧ st.count = 1 ∧ st.freed = false ∧ enqueued es = []) ∨
            i ∉ st.flying := by
          by_cases hi : i ∈ st.flying
          · rcases h with ⟨h, h' | h'⟩ | ⟨h, h', _⟩
            · rw [h'] at hi; cases hi
            · exact .inl ⟨hi, h'.1, h'.2.1, h'.2.2, h⟩
            · rw [h'] at hi; cases hi
          · exact .inr hi
        rcases hstep with ⟨hi, h1, h2, h3, h4⟩ | hi
        · have hi0 : i = 0 := by rw [h1] at hi; simpa using hi
          obtain ⟨st', hst⟩ := ih ⟨0, true, []⟩ (.inl ⟨h4, .inl rfl⟩)
          refine ⟨st', ?_⟩
          unfold runEv evB onSent
          simp only
          rw [if_pos hi, if_neg (by simp [h2, h3]), h2, h1, hi0]
          exact hst
        · obtain ⟨st', hst⟩ := ih st h
          refine ⟨st', ?_⟩
          unfold runEv evB onSent
          simp only
          rw [if_neg hi]
          exact hst
  exact main es _ (.inr ⟨h, rfl, rfl, rfl⟩)

example : enqueued [.enq 0, .sent 0] = [0] := rfl

end Verif.Rr17b
