import Verif.KkrtLemmas
/-
Lemmas on the KKRT receiver.
-/
namespace Verif.Kkrt
open Verif Cuckoo

theorem countP_le_one_inj {α : Type} (p : α → Bool) (l : List α) (h : l.countP p ≤ 1) (a b : Nat)
    (ha : a < l.length) (hb : b < l.length) (pa : p l[a] = true) (pb : p l[b] = true) : a = b := by
  induction l generalizing a b with
  | nil => simp at ha
  | cons x l ih =>
    rw [List.countP_cons] at h
    have pos : ∀ k (hk : k < l.length), p l[k] = true → 0 < l.countP p := by
      intro k hk hp
      exact List.countP_pos_iff.mpr ⟨_, List.getElem_mem hk, hp⟩
    cases a with
    | zero =>
      cases b with
      | zero => rfl
      | succ b =>
        simp only [List.getElem_cons_zero] at pa
        simp only [List.getElem_cons_succ] at pb
        have := pos b (by simpa using hb) pb
        rw [pa, if_pos rfl] at h
        omega
    | succ a =>
      simp only [List.getElem_cons_succ] at pa
      cases b with
      | zero =>
        simp only [List.getElem_cons_zero] at pb
        have := pos a (by simpa using ha) pa
        rw [pb, if_pos rfl] at h
        omega
      | succ b =>
        simp only [List.getElem_cons_succ] at pb
        rw [ih (by omega) a b (by simpa using ha) (by simpa using hb) pa pb]

/-- What the receiver's cuckoo index looks like after a successful insertion without stash. -/
structure Placed (aes : Block → Block) (nb : Nat) (items : List Block) (c : Cuckoo) : Prop where
  len : c.bins.length = nb
  hash : ∀ i, i < items.length → i < c.hashes.length ∧
    c.hashes.getD i 0 = hashOfItem aes (items.getD i 0)
  bins : ∀ b, b < nb → c.bins.getD b emptyVal ≠ emptyVal →
    idxOf (c.bins.getD b emptyVal) < items.length ∧
    ∃ h, h < 3 ∧ getHash (hashOfItem aes (items.getD (idxOf (c.bins.getD b emptyVal)) 0)) h nb = b
  uniq : ∀ b b', b < nb → b' < nb → c.bins.getD b emptyVal ≠ emptyVal →
    c.bins.getD b' emptyVal ≠ emptyVal →
    idxOf (c.bins.getD b emptyVal) = idxOf (c.bins.getD b' emptyVal) → b = b'
  all : ∀ i, i < items.length → ∃ b, b < nb ∧ c.bins.getD b emptyVal ≠ emptyVal ∧
    idxOf (c.bins.getD b emptyVal) = i

theorem placed {aes : Block → Block} {c c' : Cuckoo} {n nb l : Nat} {items : List Block}
    (h : Start c n nb 0 3 l) (hlen : items.length ≤ n) (hok : insertItems aes c items 0 = .ok c') :
    Placed aes nb items c' := by
  have hfl := chunks16_flatten ((List.range items.length).map fun j =>
      (j + 0, aes (items.getD j 0) ^^^ items.getD j 0))
  have hfit : Fits n (chunks16 ((List.range items.length).map fun j =>
      (j + 0, aes (items.getD j 0) ^^^ items.getD j 0))).flatten := by
    rw [hfl]
    refine ⟨?_, ?_⟩
    · intro p hp
      obtain ⟨a, ha, rfl⟩ := List.mem_map.mp hp
      have := List.mem_range.mp ha
      simp only; omega
    · rw [List.map_map]
      exact List.Pairwise.map _ (fun a b hab => by simpa using hab) List.nodup_range
  unfold insertItems at hok
  rcases history_spec h _ hfit with ⟨d, e, hI, hs⟩ | ⟨e, _⟩
  · rw [hok] at e
    simp only [Out.ok.injEq] at e
    subst e
    rw [hfl] at hI
    obtain ⟨_, s1, s2, s3, s4, s5⟩ := h.inv
    have hblen : c'.bins.length = nb := by rw [hs.2.2.2.1, s2]
    have hst : c'.stash = [] := List.eq_nil_of_length_eq_zero (by rw [hs.2.2.2.2, s3])
    have hget : ∀ b, (hb : b < nb) → c'.bins.getD b emptyVal = c'.bins[b]'(by omega) := by
      intro b hb
      simp only [List.getD, List.getElem?_eq_getElem (show b < c'.bins.length by omega), Option.getD_some]
    have hhash : ∀ i, i < items.length → i < c'.hashes.length ∧
        c'.hashes.getD i 0 = hashOfItem aes (items.getD i 0) := by
      intro i hi
      have := hI.hash_eq (i, aes (items.getD i 0) ^^^ items.getD i 0)
        (List.mem_map.mpr ⟨i, List.mem_range.mpr hi, by simp⟩)
      simp only at this
      refine ⟨?_, ?_⟩
      · rcases Nat.lt_or_ge i c'.hashes.length with hlt | hge
        · exact hlt
        · rw [List.getElem?_eq_none hge] at this; simp at this
      · rw [List.getD, this]; rfl
    have hmem : ∀ i, i ∈ (((List.range items.length).map fun j =>
        (j + 0, aes (items.getD j 0) ^^^ items.getD j 0)).map (·.1)) ↔ i < items.length := by
      intro i
      rw [List.map_map]
      simp
    have hone : ∀ i, c'.bins.countP (holds i) = if i < items.length then 1 else 0 := by
      intro i
      have := hI.count i
      simp only [hmem] at this
      unfold occ cnt heldCount at this
      rw [hst] at this
      simpa using this
    have hsm := hI.small
    unfold nullIdx at hsm
    refine ⟨hblen, hhash, ?_, ?_, ?_⟩
    · intro b hb hne
      rw [hget b hb] at hne ⊢
      rcases hI.bins b (by omega) with he | ⟨i, hx, e1, e2, e3, e4, e5⟩
      · exact absurd he hne
      · have hi := (hmem i).mp e2
        have hnh : hx < 3 := by rw [hs.1, s4] at e4; exact e4
        rw [e1, idxOf_pack i hx (by omega) (by omega)]
        refine ⟨hi, hx, hnh, ?_⟩
        rw [← (hhash i hi).2, ← hblen]
        exact e5
    · intro b b' hb hb' hne hne' he
      rw [hget b hb] at hne he
      rw [hget b' hb'] at hne' he
      refine countP_le_one_inj (holds (idxOf (c'.bins[b]'(by omega)))) c'.bins ?_ b b' (by omega) (by omega)
        ?_ ?_
      · rw [hone]; split <;> omega
      · simp [holds, hne]
      · simp [holds, hne', he]
    · intro i hi
      have h1 := hone i
      rw [if_pos hi] at h1
      obtain ⟨v, hv, hp⟩ := List.countP_pos_iff.mp (show 0 < c'.bins.countP (holds i) by omega)
      obtain ⟨b, hb, rfl⟩ := List.getElem_of_mem hv
      refine ⟨b, by omega, ?_, ?_⟩
      · rw [hget b (by omega)]
        intro he
        rw [he, holds_empty] at hp
        simp at hp
      · rw [hget b (by omega)]
        unfold holds at hp
        simp at hp
        exact hp.2
  · rw [hok] at e
    simp at e

/-! ### minCollidingHashIdx -/

theorem minColl_spec (t : Nat) (hash : Block) (nb : Nat) (k i h : Nat) (h1 : i ≤ h) (h2 : h < i + k)
    (h3 : getHash hash h nb = t) :
    i ≤ minColl t hash nb k i ∧ minColl t hash nb k i < i + k ∧
      getHash hash (minColl t hash nb k i) nb = t ∧
      ∀ j, i ≤ j → j < minColl t hash nb k i → getHash hash j nb ≠ t := by
  induction k generalizing i with
  | zero => omega
  | succ k ih =>
    rw [minColl]
    by_cases he : t = getHash hash i nb
    · rw [if_pos he]
      exact ⟨by omega, by omega, he.symm, by omega⟩
    · rw [if_neg he]
      have hne : i ≠ h := by rintro rfl; exact he h3.symm
      obtain ⟨g1, g2, g3, g4⟩ := ih (i + 1) (by omega) (by omega)
      refine ⟨by omega, by omega, g3, ?_⟩
      intro j hj hjl
      by_cases hji : j = i
      · subst hji; exact fun e => he e.symm
      · exact g4 j (by omega) hjl

theorem minColl_rep (t : Nat) (hash : Block) (nb : Nat) {h : Nat} (h2 : h < 3)
    (h3 : getHash hash h nb = t) :
    minColl t hash nb 3 0 < 3 ∧ getHash hash (minColl t hash nb 3 0) nb = t ∧
      rep hash nb (minColl t hash nb 3 0) = false := by
  obtain ⟨_, g2, g3, g4⟩ := minColl_spec t hash nb 3 0 h (by omega) (by omega) h3
  refine ⟨by omega, g3, ?_⟩
  unfold rep
  rw [List.any_eq_false]
  intro j hj
  have := List.mem_range.mp hj
  rw [g3]
  simp only [beq_iff_eq]
  exact g4 j (by omega) this

theorem minColl_of_not_rep (hash : Block) (nb : Nat) {h : Nat} (h2 : h < 3)
    (hr : rep hash nb h = false) : minColl (getHash hash h nb) hash nb 3 0 = h := by
  obtain ⟨_, g2, g3, g4⟩ := minColl_spec (getHash hash h nb) hash nb 3 0 h (by omega) (by omega) rfl
  rcases Nat.lt_trichotomy (minColl (getHash hash h nb) hash nb 3 0) h with hlt | heq | hgt
  · unfold rep at hr
    rw [List.any_eq_false] at hr
    have := hr _ (List.mem_range.mpr hlt)
    simp only [beq_iff_eq] at this
    exact absurd g3 this
  · exact heq
  · exact absurd rfl (g4 h (by omega) hgt)

/-! ### the maps -/

theorem lookup_mem {l : List Entry} {key : Nat} {v : Nat × Nat} (h : lookup l key = some v) :
    (key, v) ∈ l := by
  unfold lookup at h
  cases hf : l.find? (·.1 == key) with
  | none => rw [hf] at h; simp at h
  | some e =>
    rw [hf] at h
    simp only [Option.map_some, Option.some.injEq] at h
    have h1 := List.mem_of_find?_eq_some hf
    have h2 := List.find?_some hf
    simp only [beq_iff_eq] at h2
    subst h2; subst h
    exact h1

theorem lookup_some_of_mem {l : List Entry} {e : Entry} (h : e ∈ l) : lookup l e.1 ≠ none := by
  unfold lookup
  rw [ne_eq, Option.map_eq_none_iff, List.find?_eq_none]
  intro hall
  exact hall e h (by simp)

theorem mem_emplace {l : List Entry} {key : Nat} {v : Nat × Nat} {e : Entry}
    (h : e ∈ emplace l key v) : e ∈ l ∨ e = (key, v) := by
  unfold emplace at h
  split at h
  · exact Or.inl h
  · simpa using h

theorem lookup_emplace_self (l : List Entry) (key : Nat) (v : Nat × Nat) :
    lookup (emplace l key v) key ≠ none := by
  unfold emplace
  split
  · next he => rw [he]; simp
  · exact lookup_some_of_mem (e := (key, v)) (by simp)

theorem lookup_emplace_mono {l : List Entry} (key : Nat) (v : Nat × Nat) {k : Nat}
    (h : lookup l k ≠ none) : lookup (emplace l key v) k ≠ none := by
  cases hl : lookup l k with
  | none => exact absurd hl h
  | some w =>
    have := lookup_mem hl
    unfold emplace
    split
    · exact h
    · exact lookup_some_of_mem (e := (k, w)) (by simp [this])

section
variable (F : Nat → Block → Nat) (mb : Nat) (aes : Block → Block) (nb : Nat) (items : List Block) (c : Cuckoo)

/-- The index stored in bin `b`. -/
def idxAt (b : Nat) : Nat := idxOf (c.bins.getD b emptyVal)
/-- The mask for bin `b`. -/
def encAt (b : Nat) : Nat := F b (items.getD (idxAt c b) 0) % 256 ^ mb
/-- The hash function number for bin `b`. -/
def hAt (b : Nat) : Nat := minColl b (hashOfItem aes (items.getD (idxAt c b) 0)) nb 3 0

/-- The maps after the bins below `b`. -/
structure MapInv (b : Nat) (maps : Nat → List Entry) : Prop where
  sound : ∀ k, ∀ e ∈ maps k, ∃ b', b' < b ∧ c.bins.getD b' emptyVal ≠ emptyVal ∧ hAt aes nb items c b' = k ∧
    e = (encAt F mb items c b' % 2 ^ 64, encAt F mb items c b', idxAt c b')
  complete : ∀ b', b' < b → c.bins.getD b' emptyVal ≠ emptyVal →
    lookup (maps (hAt aes nb items c b')) (encAt F mb items c b' % 2 ^ 64) ≠ none

variable {F mb aes nb items c}

theorem recvBin_ok (hP : Placed aes nb items c) (hmb : mb ≤ 16) {b : Nat} (hb : b < nb)
    (maps : Nat → List Entry) (h : MapInv F mb aes nb items c b maps) :
    ∃ maps', recvBin F mb items c b maps = .ok maps' ∧ MapInv F mb aes nb items c (b + 1) maps' := by
  unfold recvBin
  simp only
  by_cases hne : c.bins.getD b emptyVal ≠ emptyVal
  · rw [if_pos hne]
    obtain ⟨h1, x, hx, h2⟩ := hP.bins b hb hne
    obtain ⟨h3, h4⟩ := hP.hash _ h1
    rw [if_pos ⟨h1, h3, hmb⟩, hP.len, h4]
    have hm := minColl_rep b _ nb hx h2
    rw [if_pos hm.1]
    refine ⟨_, rfl, ⟨?_, ?_⟩⟩
    · intro k e he
      split at he
      · next hk =>
        rcases mem_emplace he with he | he
        · obtain ⟨b', g1, g2⟩ := h.sound k e he
          exact ⟨b', by omega, g2⟩
        · exact ⟨b, by omega, hne, hk.symm, he⟩
      · obtain ⟨b', g1, g2⟩ := h.sound k e he
        exact ⟨b', by omega, g2⟩
    · intro b' hb' hne'
      by_cases hbb : b' = b
      · subst hbb
        split
        · exact lookup_emplace_self _ _ _
        · next hn => exact absurd rfl hn
      · have := h.complete b' (by omega) hne'
        split
        · exact lookup_emplace_mono _ _ this
        · exact this
  · rw [if_neg hne]
    refine ⟨maps, rfl, ⟨?_, ?_⟩⟩
    · intro k e he
      obtain ⟨b', g1, g2⟩ := h.sound k e he
      exact ⟨b', by omega, g2⟩
    · intro b' hb' hne'
      by_cases hbb : b' = b
      · subst hbb; exact absurd hne' hne
      · exact h.complete b' (by omega) hne'

theorem recvBins_ok (hP : Placed aes nb items c) (hmb : mb ≤ 16) (k b : Nat) (hk : b + k = nb)
    (maps : Nat → List Entry) (h : MapInv F mb aes nb items c b maps) :
    ∃ maps', recvBins F mb items c k b maps = .ok maps' ∧ MapInv F mb aes nb items c nb maps' := by
  induction k generalizing b maps with
  | zero => exact ⟨maps, rfl, by simpa [show b = nb by omega] using h⟩
  | succ k ih =>
    obtain ⟨m1, e1, h1⟩ := recvBin_ok hP hmb (show b < nb by omega) maps h
    obtain ⟨m2, e2, h2⟩ := ih (b + 1) (by omega) m1 h1
    exact ⟨m2, by rw [recvBins, e1]; exact e2, h2⟩
end

/-! ### the regions -/

theorem recvRegions_ok (maps : Nat → List Entry) (T : Nat → Nat) (step : Nat) (hstep : 0 < step)
    (fuel i rem fuel' : Nat) (hf : rem ≤ fuel') (hfe : fuel = (rem + step - 1) / step) :
    recvRegions maps step rem fuel (chunksFrom T step fuel' i rem) =
      .ok ((List.range rem).flatMap fun a => (List.range 3).flatMap fun k =>
        matchMask maps k (T ((i + a) * 3 + k))) := by
  induction fuel generalizing i rem fuel' with
  | zero =>
    have hr : rem = 0 := by
      rcases Nat.eq_zero_or_pos rem with h | h
      · exact h
      · exfalso
        have : 1 ≤ (rem + step - 1) / step := (Nat.le_div_iff_mul_le hstep).mpr (by omega)
        omega
    subst hr
    rw [recvRegions]
    rfl
  | succ fuel ih =>
    have hr : rem ≠ 0 := by
      rintro rfl
      rw [Nat.div_eq_of_lt (by omega)] at hfe
      omega
    obtain ⟨f', rfl⟩ : ∃ f', fuel' = f' + 1 := ⟨fuel' - 1, by omega⟩
    rw [chunksFrom, if_neg hr, recvRegions]
    simp only [List.length_map, List.length_range, Nat.min_comm step rem]
    rw [if_neg (by simp)]
    rw [ih (i + min rem step) (rem - min rem step) f' (by omega) ?_]
    · simp only [Out.bind, Out.ok.injEq]
      have hsplit : List.range rem = List.range (min rem step) ++
          (List.range (rem - min rem step)).map (min rem step + ·) := by
        rw [← List.range_add]
        congr 1; omega
      rw [hsplit, List.flatMap_append]
      congr 1
      · apply flatMap_congr'
        intro a ha
        have ha := List.mem_range.mp ha
        apply flatMap_congr'
        intro k hk
        have hk := List.mem_range.mp hk
        congr 1
        simp only [List.getD, List.getElem?_map]
        rw [List.getElem?_range (by omega)]
        simp only [Option.map_some, Option.getD_some]
        congr 1; omega
      · rw [List.flatMap_map]
        apply flatMap_congr'
        intro a _
        rw [show i + min rem step + a = i + (min rem step + a) by omega]
    · by_cases hle : rem ≤ step
      · rw [Nat.min_eq_left hle, Nat.sub_self, Nat.div_eq_of_lt (by omega)]
        rw [show rem + step - 1 = (rem - 1) + step by omega, Nat.add_div_right _ hstep,
          Nat.div_eq_of_lt (by omega)] at hfe
        omega
      · rw [Nat.min_eq_right (by omega), show rem - step + step - 1 = rem - 1 by omega]
        rw [show rem + step - 1 = (rem - 1) + step by omega, Nat.add_div_right _ hstep] at hfe
        omega

end Verif.Kkrt
