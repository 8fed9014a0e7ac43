import Verif.DrrnSeenSpec
import Verif.DrrnFullLemmas
/-
Lemmas for property C163.
-/
namespace Verif.Drrn
open Verif

/-! ### the order after the swaps -/

theorem exchange_length (a : List Nat) (j s : Nat) : (exchange a j s).length = a.length := by simp [exchange]

theorem exchange_get (a : List Nat) (j s m : Nat) (hj : j < a.length) (hs : s < a.length) :
    (exchange a j s).getD m 0 = if m = s then a.getD j 0 else if m = j then a.getD s 0 else a.getD m 0 := by
  unfold exchange
  rw [Kkrt.getD_set _ _ _ _ _ (by simpa using hs), Kkrt.getD_set _ _ _ _ _ hj]

theorem exchange_perm (a : List Nat) (j s : Nat) (hj : j < a.length) (hs : s < a.length) : (exchange a j s).Perm a := by
  unfold exchange
  rw [Kkrt.getD_eq hj, Kkrt.getD_eq hs]
  exact List.set_set_perm hj hs

theorem foldl_exchange_perm (h : Nat) (σ : List Nat) (hσ : ∀ j, σ.getD j 0 < h) (l : List Nat) (hl : ∀ j ∈ l, j + 1 < h) (a : List Nat)
    (ha : a.length = h) : (l.foldl (fun a j => exchange a (j + 1) (σ.getD (j + 1) 0)) a).Perm a := by
  induction l generalizing a with
  | nil => exact List.Perm.refl _
  | cons j l ih =>
    rw [List.foldl_cons]
    have h1 := hl j (List.mem_cons_self ..)
    have h2 := hσ (j + 1)
    exact (ih (fun j hj => hl j (List.mem_cons_of_mem _ hj)) _ (by rw [exchange_length, ha])).trans
      (exchange_perm a _ _ (by omega) (by omega))

theorem order_perm (h : Nat) (σ : List Nat) (hσ : ∀ j, σ.getD j 0 < h) : (order h σ).Perm (List.range h) :=
  foldl_exchange_perm h σ hσ _ (fun j hj => by have := List.mem_range.mp hj; omega) _ (by simp)

theorem sigma_lt {h : Nat} (hh : 0 < h) {σ : List Nat} (hσ : ∀ v ∈ σ, v < h) (j : Nat) : σ.getD j 0 < h := by
  by_cases hl : j < σ.length
  · rw [Kkrt.getD_eq hl]
    exact hσ _ (List.getElem_mem _)
  · rw [List.getD_eq_getElem?_getD, List.getElem?_eq_none (by omega)]
    exact hh

theorem order_lt {h : Nat} {σ : List Nat} (hσ : ∀ j, σ.getD j 0 < h) {j : Nat} (hj : j < h) : (order h σ).getD j 0 < h := by
  have hp := order_perm h σ hσ
  have hl : j < (order h σ).length := by rw [hp.length_eq]; simpa using hj
  rw [Kkrt.getD_eq hl]
  exact List.mem_range.mp (hp.mem_iff.mp (List.getElem_mem _))

theorem order_inj {h : Nat} {σ : List Nat} (hσ : ∀ j, σ.getD j 0 < h) {j j' : Nat} (hj : j < h) (hj' : j' < h)
    (e : (order h σ).getD j 0 = (order h σ).getD j' 0) : j = j' := by
  have hp := order_perm h σ hσ
  have hl : j < (order h σ).length := by rw [hp.length_eq]; simpa using hj
  have hl' : j' < (order h σ).length := by rw [hp.length_eq]; simpa using hj'
  rw [Kkrt.getD_eq hl, Kkrt.getD_eq hl'] at e
  exact (List.getElem_inj (hp.nodup_iff.mpr List.nodup_range)).mp e

/-! ### the masks after the swaps -/

/-- The masks of one item. -/
theorem swapMasks_at (k h : Nat) (σ : List Nat) (hσ : ∀ j, σ.getD j 0 < h) (r0 : List Block) (hr : k + h ≤ r0.length) (l : List Nat)
    (hl : ∀ j ∈ l, j + 1 < h) (a : List Nat) (ha : a.length = h) (r : List Block) (hlen : r.length = r0.length)
    (hin : ∀ m, m < h → r.getD (k + m) 0 = r0.getD (k + a.getD m 0) 0) :
    (swapMasks k (l.map fun j => (j + 1, σ.getD (j + 1) 0)) r).length = r.length ∧
    (∀ m, m < h → (swapMasks k (l.map fun j => (j + 1, σ.getD (j + 1) 0)) r).getD (k + m) 0 =
      r0.getD (k + (l.foldl (fun a j => exchange a (j + 1) (σ.getD (j + 1) 0)) a).getD m 0) 0) ∧
    (∀ m, (m < k ∨ k + h ≤ m) → (swapMasks k (l.map fun j => (j + 1, σ.getD (j + 1) 0)) r).getD m 0 = r.getD m 0) := by
  induction l generalizing a r with
  | nil => exact ⟨rfl, hin, fun _ _ => rfl⟩
  | cons j l ih =>
    have h1 := hl j (List.mem_cons_self ..)
    have h2 := hσ (j + 1)
    rw [List.map_cons, swapMasks, List.foldl_cons]
    have hset : ∀ m, ((r.set (k + (j + 1)) (r.getD (k + σ.getD (j + 1) 0) 0)).set (k + σ.getD (j + 1) 0) (r.getD (k + (j + 1)) 0)).getD m 0 =
        if m = k + σ.getD (j + 1) 0 then r.getD (k + (j + 1)) 0 else if m = k + (j + 1) then r.getD (k + σ.getD (j + 1) 0) 0 else r.getD m 0 := by
      intro m
      rw [Kkrt.getD_set _ _ _ _ _ (by rw [List.length_set]; omega), Kkrt.getD_set _ _ _ _ _ (by omega)]
    obtain ⟨i1, i2, i3⟩ := ih (fun j hj => hl j (List.mem_cons_of_mem _ hj)) (exchange a (j + 1) (σ.getD (j + 1) 0))
      (by rw [exchange_length, ha])
      ((r.set (k + (j + 1)) (r.getD (k + σ.getD (j + 1) 0) 0)).set (k + σ.getD (j + 1) 0) (r.getD (k + (j + 1)) 0)) (by simp [hlen]) (by
        intro m hm
        rw [hset, exchange_get a _ _ _ (by omega) (by omega)]
        by_cases e1 : m = σ.getD (j + 1) 0
        · rw [if_pos (by rw [e1]), if_pos e1]
          exact hin _ h1
        · rw [if_neg (by omega), if_neg e1]
          by_cases e2 : m = j + 1
          · rw [if_pos (by rw [e2]), if_pos e2]
            exact hin _ h2
          · rw [if_neg (by omega), if_neg e2]
            exact hin _ hm)
    refine ⟨by rw [i1]; simp, i2, fun m hm => ?_⟩
    rw [i3 m hm, hset, if_neg (by omega), if_neg (by omega)]

theorem swapAll_at {c : Params} (hh : 0 < c.h) {sigma : Nat → List Nat} {n : Nat} (hs : ∀ i : Nat, i < n → ∀ v ∈ sigma i, v < c.h)
    (r : List Block) (hr : n * c.h ≤ r.length) :
    (∀ i m, i < n → m < c.h → (swapAll c sigma n r).getD (i * c.h + m) 0 = r.getD (i * c.h + (order c.h (sigma i)).getD m 0) 0) ∧
    (∀ m, n * c.h ≤ m → (swapAll c sigma n r).getD m 0 = r.getD m 0) ∧ (swapAll c sigma n r).length = r.length := by
  induction n with
  | zero => exact ⟨fun _ _ h => absurd h (by omega), fun _ _ => rfl, rfl⟩
  | succ n ih =>
    have hr' : n * c.h + c.h ≤ r.length := by rw [Nat.add_mul, Nat.one_mul] at hr; exact hr
    obtain ⟨i1, i2, i3⟩ := ih (fun i hi => hs i (by omega)) (by omega)
    have e : swapAll c sigma (n + 1) r =
        swapMasks (n * c.h) ((List.range (c.h - 1)).map fun j => (j + 1, (sigma n).getD (j + 1) 0)) (swapAll c sigma n r) := by
      unfold swapAll
      rw [List.range_succ, List.foldl_append]
      rfl
    obtain ⟨s1, s2, s3⟩ := swapMasks_at (n * c.h) c.h (sigma n) (sigma_lt hh (hs n (by omega))) r hr' (List.range (c.h - 1))
      (fun j hj => by have := List.mem_range.mp hj; omega) (List.range c.h) (by simp) (swapAll c sigma n r) i3 (by
        intro m hm
        rw [i2 _ (by omega), Kkrt.getD_eq (l := List.range c.h) (by simpa using hm)]
        simp)
    rw [e]
    refine ⟨fun i m hi hm => ?_, fun m hm => ?_, by rw [s1, i3]⟩
    · by_cases hin : i = n
      · subst hin
        exact s2 m hm
      · have hlt : i * c.h + m < n * c.h := by
          have : (i + 1) * c.h ≤ n * c.h := Nat.mul_le_mul_right _ (by omega)
          rw [Nat.add_mul, Nat.one_mul] at this
          omega
        rw [s3 _ (Or.inl hlt)]
        exact i1 i m (by omega) hm
    · rw [Nat.add_mul, Nat.one_mul] at hm
      rw [s3 _ (Or.inr hm), i2 _ (by omega)]

/-- Which masked item of the client the servers have. -/
theorem matched_iff (c : Params) (slot : Block → Nat → Nat) (xs : List Block) (tbl : List (Nat × Block))
    (w : Rand) (bits0 bits1 : Nat → Nat → Nat → Bool) (hS : 0 < c.S) (hh : 0 < c.h) (hb : c.bb = 1)
    (hslot : ∀ x ∈ xs, ∀ j : Nat, j < c.h → slot x j < c.N)
    (hfit : ∀ b : Nat, b < c.S → (bin c slot xs b).length ≤ c.L)
    (hbits : BitsOk c slot xs bits0 bits1) (htbl : TableOk c slot tbl) (hw : RandOk c xs tbl w) (i j : Nat) (hi : i < xs.length)
    (hj : j < c.h) :
    w.r.getD (i * c.h + j) 0 ^^^ xs.getD i 0 ∈ serverValues c slot xs tbl w bits0 bits1 ↔
      ∃ j', j' < c.h ∧ answer c tbl (slot (xs.getD i 0) j') = xs.getD i 0 ∧ (order c.h (w.sigma i)).getD j' 0 = j := by
  have hps : c.permSize = c.S * c.L := by unfold Params.permSize; rw [hb]; omega
  have hperm := pi_perm hS hb hslot hfit
  have hnh : xs.length * c.h ≤ c.permSize := by
    have h1 := bin_sum (c := c) (slot := slot) (xs := xs) (List.range c.S)
      fun b hb => hfit b (List.mem_range.mp hb)
    rw [bin_total hS hslot, List.length_range] at h1
    omega
  obtain ⟨hsw, hsw', _⟩ := swapAll_at hh hw.sigma w.r (by rw [hw.len]; exact hnh)
  have hdom : c.slotsPerBin ≤ 2 ^ c.kDepth * c.groupSize * 128 := by
    have h1 := slotsPerBin_le (c := c) (by omega)
    have h2 := Nat.mul_le_mul_right 128 (leafBlocks_le c)
    rw [hb] at h1
    omega
  have hpos : ∀ b q : Nat, b < c.S → q < c.L → b * c.L + q < c.permSize := by
    intro b q hb hq
    have : (b + 1) * c.L ≤ c.S * c.L := Nat.mul_le_mul_right _ hb
    rw [Nat.add_mul, Nat.one_mul] at this
    omega
  have hval : ∀ b q : Nat, b < c.S → q < c.L →
      (serverValues c slot xs tbl w bits0 bits1).getD (b * c.L + q) 0 =
      (shares c tbl bits0).getD (b * c.L + q) 0 ^^^ (shares c tbl bits1).getD (b * c.L + q) 0 ^^^
        (swapAll c w.sigma xs.length w.r).getD ((pi c slot xs).getD (b * c.L + q) 0) 0 := by
    intro b q hb hq
    apply serverValues_at hw.perm (hpos b q hb hq)
    have hl : b * c.L + q < (pi c slot xs).length := by
      rw [hperm.length_eq, List.length_range]; exact hpos b q hb hq
    rw [Kkrt.getD_eq hl]
    exact List.mem_range.mp (hperm.mem_iff.mp (List.getElem_mem hl))
  -- the queries of item `i`
  have hquery : ∀ i j : Nat, i < xs.length → j < c.h → ∃ b q : Nat, b < c.S ∧ q < (bin c slot xs b).length ∧
      (bin c slot xs b).getD q (0, 0) = (j, i) ∧ b = c.region (slot (xs.getD i 0) j) := by
    intro i j hi hj
    have hx : xs.getD i 0 ∈ xs := by rw [Kkrt.getD_eq hi]; exact List.getElem_mem _
    have hm : (j, i) ∈ bin c slot xs (c.region (slot (xs.getD i 0) j)) := by
      unfold bin
      rw [List.mem_filter]
      exact ⟨mem_insertions.mpr ⟨hj, hi⟩, by simp⟩
    obtain ⟨q, hq, he⟩ := List.getElem_of_mem hm
    exact ⟨_, q, region_lt hS (hslot _ hx j hj), hq, by rw [Kkrt.getD_eq hq, he], rfl⟩
  -- what the servers compute for it
  have hreal : ∀ b q : Nat, b < c.S → q < (bin c slot xs b).length → ∀ i j : Nat, (bin c slot xs b).getD q (0, 0) = (j, i) →
      i < xs.length ∧ j < c.h ∧
      (shares c tbl bits0).getD (b * c.L + q) 0 ^^^ (shares c tbl bits1).getD (b * c.L + q) 0 =
        answer c tbl (slot (xs.getD i 0) j) ∧
      (pi c slot xs).getD (b * c.L + q) 0 = i * c.h + j := by
    intro b q hbS hq i j he
    have hqL : q < c.L := Nat.lt_of_lt_of_le hq (hfit b hbS)
    have hm : (j, i) ∈ bin c slot xs b := by rw [← he, Kkrt.getD_eq hq]; exact List.getElem_mem _
    unfold bin at hm
    rw [List.mem_filter] at hm
    obtain ⟨hj, hi⟩ := mem_insertions.mp hm.1
    simp only at hj hi
    have hr : c.region (slot (xs.getD i 0) j) = b := by simpa using hm.2
    have hx : xs.getD i 0 ∈ xs := by rw [Kkrt.getD_eq hi]; exact List.getElem_mem _
    have hN : 0 < c.N := by have := hslot _ hx j hj; omega
    have hreg := (region_iff hN hS _ b).mp hr
    have hv := values_real hb htbl.ordered hbS hqL bits0 bits1 (t := slot (xs.getD i 0) j - c.binOff b) (by
      intro k hk
      rw [hbits.real b q hbS hq k (by omega), he]
      unfold target cuckooIdx
      rw [hb, Nat.div_one]) hS
    refine ⟨hi, hj, ?_, ?_⟩
    · rw [hv, answer, hr]
    rw [(pi_at hb hfit hbS hqL).1 hq, he, rIdx_one hb]
  have hlen : (serverValues c slot xs tbl w bits0 bits1).length = c.permSize := by simp [serverValues]
  have hx : xs.getD i 0 ∈ xs := by rw [Kkrt.getD_eq hi]; exact List.getElem_mem _
  have hlt : i * c.h + j < xs.length * c.h := by
    have : (i + 1) * c.h ≤ xs.length * c.h := Nat.mul_le_mul_right _ hi
    rw [Nat.add_mul, Nat.one_mul] at this
    omega
  have hdiv : ∀ i j : Nat, j < c.h → (i * c.h + j) / c.h = i := by
    intro i j hj
    rw [Nat.add_comm, Nat.mul_comm, Nat.add_mul_div_left _ _ hh, Nat.div_eq_of_lt hj, Nat.zero_add]
  constructor
  · intro hm
    obtain ⟨k, hk, hke⟩ := List.getElem_of_mem hm
    rw [hlen] at hk
    have hL : 0 < c.L := by
      rcases Nat.eq_zero_or_pos c.L with h | h
      · rw [hps, h] at hk; omega
      · exact h
    generalize hkb : k / c.L = b
    generalize hkq : k % c.L = q
    have hkbq : b * c.L + q = k := by rw [← hkb, ← hkq, Nat.mul_comm]; exact Nat.div_add_mod k c.L
    have hbS : b < c.S := by rw [← hkb, Nat.div_lt_iff_lt_mul hL, ← hps]; exact hk
    have hqL : q < c.L := by rw [← hkq]; exact Nat.mod_lt _ hL
    have h1 := hval b q hbS hqL
    rw [hkbq, Kkrt.getD_eq (by rw [hlen]; exact hk), hke] at h1
    have hpk : (pi c slot xs).getD k 0 < c.permSize := by
      have hl : k < (pi c slot xs).length := by rw [hperm.length_eq, List.length_range]; exact hk
      rw [Kkrt.getD_eq hl]
      exact List.mem_range.mp (hperm.mem_iff.mp (List.getElem_mem hl))
    by_cases hreal' : q < (bin c slot xs b).length
    · obtain ⟨i', j', hbe⟩ : ∃ i' j', (bin c slot xs b).getD q (0, 0) = (j', i') :=
        ⟨((bin c slot xs b).getD q (0, 0)).2, ((bin c slot xs b).getD q (0, 0)).1, rfl⟩
      obtain ⟨hi', hj', hv, hpi⟩ := hreal b q hbS hreal' i' j' hbe
      rw [hkbq] at hpi hv
      rw [hv, hpi, hsw i' j' hi' hj'] at h1
      have ho := order_lt (sigma_lt hh (hw.sigma i' hi')) hj'
      have hlt' : i' * c.h + (order c.h (w.sigma i')).getD j' 0 < xs.length * c.h := by
        have : (i' + 1) * c.h ≤ xs.length * c.h := Nat.mul_le_mul_right _ hi'
        rw [Nat.add_mul, Nat.one_mul] at this
        omega
      have hkk : i * c.h + j = i' * c.h + (order c.h (w.sigma i')).getD j' 0 := by
        by_cases hne : i * c.h + j = i' * c.h + (order c.h (w.sigma i')).getD j' 0
        · exact hne
        · exact absurd (by rw [h1, BitVec.xor_comm])
            (hw.apart _ _ (by omega) (by omega) hne _ hx _ (answer_cases htbl.ordered _))
      have hii : i = i' := by rw [← hdiv i j hj, hkk, hdiv _ _ ho]
      subst hii
      rw [hkk, BitVec.xor_comm (answer ..)] at h1
      refine ⟨j', hj', ?_, by omega⟩
      have := congrArg (w.r.getD (i * c.h + (order c.h (w.sigma i)).getD j' 0) 0 ^^^ ·) h1
      simpa [← BitVec.xor_assoc] using this.symm
    · have h0 := values_dummy hb htbl.ordered hbS hqL bits0 bits1
        (fun k hk => hbits.unused b q hbS (by omega) hqL k (by omega)) hS
      rw [hkbq] at h0
      have hge := (pi_at hb hfit hbS hqL).2 (by omega)
      rw [hkbq] at hge
      rw [h0, hsw' _ hge] at h1
      exfalso
      exact hw.apart (i * c.h + j) ((pi c slot xs).getD k 0) (by omega) hpk (by omega) _ hx 0 (Or.inl rfl) (by rw [h1, BitVec.xor_comm])
  · rintro ⟨j', hj', hans, rfl⟩
    obtain ⟨b, q, hbS, hq, hbe, hreg⟩ := hquery i j' hi hj'
    obtain ⟨_, _, hv, hpi⟩ := hreal b q hbS hq i j' hbe
    have hqL : q < c.L := Nat.lt_of_lt_of_le hq (hfit b hbS)
    have h1 := hval b q hbS hqL
    rw [hv, hans, hpi, hsw i j' hi hj'] at h1
    rw [BitVec.xor_comm, ← h1]
    have hl := hpos b q hbS hqL
    rw [← hlen] at hl
    rw [Kkrt.getD_eq hl]
    exact List.getElem_mem _

/-- What the servers answer if the first slots are used. -/
theorem answer_iff {c : Params} (hS : 0 < c.S) (hb : c.bb = 1) {slot : Block → Nat → Nat} {tbl : List (Nat × Block)} (htbl : TableOk c slot tbl)
    (hfirst : FirstUsed c tbl) {p : Nat} (hp : p < c.N) {x : Block} (hx : x ≠ 0) : answer c tbl p = x ↔ (p, x) ∈ tbl := by
  have hreg := (region_iff (by omega) hS p _).mp rfl
  constructor
  · intro h
    by_cases hex : ∃ v, Shifted tbl (c.binOff (c.region p)) (c.binOff (c.region p + 1)) p v
    · obtain ⟨v, hv⟩ := hex
      have h1 := answer_shifted hb htbl.ordered hv
      rw [h] at h1
      subst h1
      obtain ⟨f, ⟨hf1, hf2, ⟨u, hu⟩, hf4⟩, _, hm⟩ := hv
      obtain ⟨y, hy, hye⟩ := hfirst _ (region_lt hS hp) ⟨_, hu, hf1, hf2⟩
      have hle := hf4 y hy (by omega) (by omega)
      have : f = c.binOff (c.region p) := by omega
      subst this
      rwa [show c.binOff (c.region p) + (p - c.binOff (c.region p)) = p by omega] at hm
    · rw [answer_empty hb htbl.ordered fun v hv => hex ⟨v, hv⟩] at h
      exact absurd h.symm hx
  · intro h
    apply answer_shifted hb htbl.ordered
    obtain ⟨y, hy, hye⟩ := hfirst _ (region_lt hS hp) ⟨_, h, hreg⟩
    refine ⟨c.binOff (c.region p), ⟨Nat.le_refl _, by omega, ⟨y.2, by rw [← hye]; exact hy⟩, fun x _ h _ => h⟩, by omega, ?_⟩
    rw [show c.binOff (c.region p) + (p - c.binOff (c.region p)) = p by omega]
    exact h

/-- The query with hash function `j` for item `i` exists. -/
theorem exists_query {c : Params} (hS : 0 < c.S) {slot : Block → Nat → Nat} {xs : List Block}
    (hslot : ∀ x ∈ xs, ∀ j : Nat, j < c.h → slot x j < c.N) {i j : Nat} (hi : i < xs.length) (hj : j < c.h) :
    ∃ k, IsQuery c slot xs k i j := by
  have hx : xs.getD i 0 ∈ xs := by rw [Kkrt.getD_eq hi]; exact List.getElem_mem _
  have hm : (c.region (slot (xs.getD i 0) j), j, i) ∈ queries c slot xs := by
    unfold queries
    rw [List.mem_flatMap]
    refine ⟨_, List.mem_range.mpr (region_lt hS (hslot _ hx j hj)), List.mem_map.mpr ⟨(j, i), ?_, rfl⟩⟩
    unfold bin
    rw [List.mem_filter]
    exact ⟨mem_insertions.mpr ⟨hj, hi⟩, by simp⟩
  obtain ⟨k, hk, e⟩ := List.getElem_of_mem hm
  exact ⟨k, _, List.getElem?_eq_some_iff.mpr ⟨hk, e⟩⟩

theorem query_range {c : Params} {slot : Block → Nat → Nat} {xs : List Block} {k i j : Nat} (h : IsQuery c slot xs k i j) :
    i < xs.length ∧ j < c.h := by
  obtain ⟨b, h⟩ := h
  have hm := List.mem_of_getElem? h
  unfold queries at hm
  rw [List.mem_flatMap] at hm
  obtain ⟨b', _, hm⟩ := hm
  obtain ⟨e, he, hee⟩ := List.mem_map.mp hm
  cases hee
  unfold bin at he
  have := mem_insertions.mp (List.mem_filter.mp he).1
  exact ⟨this.2, this.1⟩

theorem share_at {c : Params} (hb : c.bb = 1) {slot : Block → Nat → Nat} {xs r : List Block} {k i j : Nat} (h : IsQuery c slot xs k i j) :
    (clientShares c slot xs r)[k]? = some (r.getD (i * c.h + j) 0 ^^^ xs.getD i 0) := by
  obtain ⟨b, h⟩ := h
  unfold clientShares
  rw [List.getElem?_map, h, Option.map_some, rIdx_one hb]

end Verif.Drrn
