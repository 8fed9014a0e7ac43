import Verif.SimpleLemmas
/-
Property theorem C17: `SimpleIndex`.

Full property: after `insertItems` every item is in each of its bins, and nothing else is stored.
It is false of the code: with three hash functions all but the first of the items left over after
the last full group of eight are missing (`C17_leftover_missing`); with another number of hash
functions more than eight items make the code write outside `mItemToBinMap`
(`C17_other_hash_counts`). The remaining cases are `C17_complete_partial`.

Specification vocabulary: item number `k` has hash value `AES(x) ^ x`; `wanted … b` are the triples
(item, hash function, does an earlier hash function give the same bin) that belong into bin `b`.
-/
namespace Verif.Simple
open Verif Verif.Cuckoo

/-- The bin of a hash value: eight bytes from byte `2h` on, modulo the number of bins. -/
def binOf (hash : Block) (h numBins : Nat) : Nat :=
  (hash.toNat / 256 ^ (2 * h)) % 256 ^ 8 % numBins

/-- Hash value of item `k`. -/
def hashVal (aes : Block → Block) (items : List Block) (k : Nat) : Block :=
  match items[k]? with
  | some x => aes x ^^^ x
  | none => aes 0

/-- The entries that belong into bin `b`. -/
def wanted (aes : Block → Block) (items : List Block) (nb nh b : Nat) : List (Nat × Nat × Bool) :=
  (List.range items.length).flatMap fun k =>
    ((List.range nh).filter fun h => binOf (hashVal aes items k) h nb == b).map fun h =>
      (k, h, (List.range h).any fun h' => binOf (hashVal aes items k) h' nb == b)

theorem binOf_eq (hash : Block) (h nb : Nat) : binOf hash h nb = getHash hash h nb := by
  unfold binOf getHash
  have : 256 ^ (2 * h) = 2 ^ (16 * h) := by
    rw [show (256 : Nat) = 2 ^ 8 from rfl, ← Nat.pow_mul]; congr 1; omega
  rw [this, show (256 : Nat) ^ 8 = 2 ^ 64 by decide]

theorem hashVal_eq (aes : Block → Block) (items : List Block) (k : Nat) :
    hashVal aes items k = hashOfItem aes items k := by
  unfold hashVal hashOfItem
  cases h : items[k]? <;> simp [List.getD, h]

/-- All entries, item by item. -/
def cano (hs : Nat → Block) (nb nh n : Nat) : List (Nat × Nat × Nat × Bool) :=
  (List.range n).flatMap fun k => (List.range nh).map fun h =>
    (getHash (hs k) h nb, k, h, collision (hs k) nb h)

/-- The entries of the map: item, hash index, value. -/
def canoMap (hs : Nat → Block) (nb nh n : Nat) : List (Nat × Nat × Nat) :=
  (List.range n).flatMap fun k => (List.range nh).map fun h =>
    (k, h, mapVal (getHash (hs k) h nb) (collision (hs k) nb h))

theorem forBin_cano (aes : Block → Block) (items : List Block) (nb nh b : Nat) :
    (forBin b (cano (hashOfItem aes items) nb nh items.length)).map (·.2) =
      wanted aes items nb nh b := by
  unfold forBin cano wanted
  rw [List.filter_flatMap, List.map_flatMap]
  apply flatMap_congr'
  intro k _
  rw [List.filter_map, List.map_map]
  have : (fun e : Nat × Nat × Nat × Bool => e.1 == b) ∘
      (fun h => (getHash (hashOfItem aes items k) h nb, k, h,
        collision (hashOfItem aes items k) nb h)) =
      fun h => binOf (hashVal aes items k) h nb == b := by
    funext h; simp [hashVal_eq, binOf_eq]
  rw [this]
  apply List.map_congr_left
  intro h hh
  rw [List.mem_filter] at hh
  have hb : getHash (hashOfItem aes items k) h nb = b := by
    simpa [hashVal_eq, binOf_eq] using hh.2
  simp [collision, hashVal_eq, binOf_eq, hb]

theorem range_blocks {β : Type} (m : Nat) (g : Nat → List β) :
    ((List.range m).flatMap fun s => (List.range 8).flatMap fun j => g (8 * s + j)) =
      (List.range (8 * m)).flatMap g := by
  induction m with
  | zero => rfl
  | succ m ih =>
    rw [List.range_succ (n := m), List.flatMap_append, ih, Nat.mul_succ, List.range_add,
      List.flatMap_append]
    congr 1
    rw [List.flatMap_cons, List.flatMap_nil, List.append_nil, List.flatMap_map]

theorem flatMap_perm {α β : Type} (l : List α) (f g : α → List β) (h : ∀ a ∈ l, (f a).Perm (g a)) :
    (l.flatMap f).Perm (l.flatMap g) := by
  induction l with
  | nil => exact List.Perm.refl _
  | cons a l ih =>
    rw [List.flatMap_cons, List.flatMap_cons]
    exact List.Perm.append (h a (List.mem_cons_self ..)) (ih fun b hb => h b (List.mem_cons_of_mem _ hb))

theorem binOps_blocks (hs : Nat → Block) (nb m : Nat) :
    (binOps ((List.range m).flatMap fun s => blockOps nb (8 * s) fun j => hs (8 * s + j))).Perm
      (cano hs nb 3 (8 * m)) := by
  rw [binOps_flatMap]
  unfold cano
  rw [← range_blocks m (fun k => (List.range 3).map fun h =>
    (getHash (hs k) h nb, k, h, collision (hs k) nb h))]
  exact flatMap_perm _ _ _ fun s _ => binOps_blockOps nb (8 * s) fun j => hs (8 * s + j)

theorem mapOps_blocks (hs : Nat → Block) (nb m : Nat) :
    (mapOps ((List.range m).flatMap fun s => blockOps nb (8 * s) fun j => hs (8 * s + j))).Perm
      (canoMap hs nb 3 (8 * m)) := by
  rw [mapOps_flatMap]
  unfold canoMap
  rw [← range_blocks m (fun k => (List.range 3).map fun h =>
    (k, h, mapVal (getHash (hs k) h nb) (collision (hs k) nb h)))]
  exact flatMap_perm _ _ _ fun s _ => mapOps_blockOps nb (8 * s) fun j => hs (8 * s + j)

theorem cano_succ (hs : Nat → Block) (nb nh n : Nat) :
    cano hs nb nh (n + 1) = cano hs nb nh n ++ (List.range nh).map fun h =>
      (getHash (hs n) h nb, n, h, collision (hs n) nb h) := by
  unfold cano
  rw [List.range_succ, List.flatMap_append]
  simp

theorem canoMap_succ (hs : Nat → Block) (nb nh n : Nat) :
    canoMap hs nb nh (n + 1) = canoMap hs nb nh n ++ (List.range nh).map fun h =>
      (n, h, mapVal (getHash (hs n) h nb) (collision (hs n) nb h)) := by
  unfold canoMap
  rw [List.range_succ, List.flatMap_append]
  simp

/-- For at most one left over item the unrolled code writes the right entries. -/
theorem ops3_cano (aes : Block → Block) (nb : Nat) (items : List Block) (h1 : items.length % 8 ≤ 1) :
    (binOps (ops3 aes nb items)).Perm (cano (hashOfItem aes items) nb 3 items.length) ∧
      (mapOps (ops3 aes nb items)).Perm (canoMap (hashOfItem aes items) nb 3 items.length) := by
  unfold ops3
  simp only [binOps_append, mapOps_append]
  have hdm := Nat.div_add_mod items.length 8
  rcases Nat.le_one_iff_eq_zero_or_eq_one.mp h1 with h0 | h0
  · have e : (items.length % 8 + 7) / 8 = 0 := by omega
    rw [e]
    have hb := binOps_blocks (hashOfItem aes items) nb (items.length / 8)
    have hm := mapOps_blocks (hashOfItem aes items) nb (items.length / 8)
    rw [show 8 * (items.length / 8) = items.length by omega] at hb hm
    simp only [List.range_zero, List.flatMap_nil, binOps, mapOps, List.append_nil]
    exact ⟨hb, hm⟩
  · have e : (items.length % 8 + 7) / 8 = 1 := by omega
    rw [e]
    have hb := binOps_blocks (hashOfItem aes items) nb (items.length / 8)
    have hm := mapOps_blocks (hashOfItem aes items) nb (items.length / 8)
    have hl : items.length = 8 * (items.length / 8) + 1 := by omega
    have r1 : List.range 1 = [0] := rfl
    rw [r1]
    simp only [List.flatMap_cons, List.flatMap_nil, List.append_nil, Nat.mul_zero, Nat.add_zero]
    rw [binOps_itemOps, mapOps_itemOps]
    have c1 := cano_succ (hashOfItem aes items) nb 3 (8 * (items.length / 8))
    have c2 := canoMap_succ (hashOfItem aes items) nb 3 (8 * (items.length / 8))
    rw [← hl] at c1 c2
    rw [c1, c2]
    exact ⟨List.Perm.append_right _ hb, List.Perm.append_right _ hm⟩

theorem opsGeneral_cano (aes : Block → Block) (nb nh : Nat) (items : List Block)
    (h8 : items.length ≤ 8) :
    binOps (opsGeneral aes nb nh items) = cano (hashOfItem aes items) nb nh items.length ∧
      mapOps (opsGeneral aes nb nh items) = canoMap (hashOfItem aes items) nb nh items.length := by
  unfold opsGeneral cano canoMap
  simp only [binOps_flatMap, mapOps_flatMap, binOps_itemOps, mapOps_itemOps]
  rcases Nat.eq_zero_or_pos items.length with h0 | h0
  · rw [h0]; exact ⟨rfl, rfl⟩
  · rw [show (items.length + 7) / 8 = 1 by omega, show List.range 1 = [0] from rfl]
    simp only [List.flatMap_cons, List.flatMap_nil, List.append_nil, Nat.mul_zero, Nat.zero_add,
      Nat.sub_zero, Nat.add_zero]
    rw [Nat.min_eq_left h8]
    exact ⟨rfl, rfl⟩

theorem decode_encode (k h : Nat) (c : Bool) (hk : k < 2 ^ 56) (hh : h < 128) :
    itemIdx (encode k h c) = k ∧ itemHash (encode k h c) = h ∧ itemColl (encode k h c) = c := by
  unfold itemIdx itemHash itemColl encode
  rw [Nat.mod_eq_of_lt hk, Nat.mod_eq_of_lt hh]
  have h1 : (k + (h + if c then 128 else 0) * 2 ^ 56) / 2 ^ 56 = h + if c then 128 else 0 := by
    rw [Nat.add_mul_div_right _ _ (by decide), Nat.div_eq_of_lt hk, Nat.zero_add]
  rw [h1]
  refine ⟨by omega, ?_, ?_⟩
  · cases c <;> simp <;> omega
  · cases c <;> simp <;> omega

/-- C17, partial. With three hash functions and a number of items that is 0 or 1 modulo 8, or
another number of hash functions (at most 5) and at most 8 items: if the bins are large enough for
what belongs into them, `insertItems` puts into each bin exactly the entries that belong there and
records the bin of each item under each hash function (all ones for a repeated bin). -/
theorem C17_complete_partial (aes : Block → Block) (items : List Block) (nb numBalls nh maxBin : Nat)
    (hn : items.length < 2 ^ 56) (hnb : 0 < nb) (hballs : items.length ≤ numBalls)
    (hcase : (nh = 3 ∧ items.length % 8 ≤ 1) ∨ (nh ≠ 3 ∧ nh ≤ 5 ∧ items.length ≤ 8))
    (hfit : ∀ b, b < nb → (wanted aes items nb nh b).length ≤ maxBin) :
    ∃ s', insertItems aes (init nb numBalls nh maxBin) items = .ok s' ∧
      (∀ b, b < nb → ((s'.bins.getD b []).map fun v => (itemIdx v, itemHash v, itemColl v)).Perm
        (wanted aes items nb nh b)) ∧
      ∀ k h, k < items.length → h < nh → s'.map k h = some
        (if (List.range h).any fun h' =>
            binOf (hashVal aes items k) h' nb == binOf (hashVal aes items k) h nb
         then 2 ^ 64 - 1 else binOf (hashVal aes items k) h nb) := by
  have hnh : nh ≤ 5 := by omega
  -- the writes
  obtain ⟨ops, hrun, hb, hm⟩ : ∃ ops, insertItems aes (init nb numBalls nh maxBin) items =
      run (init nb numBalls nh maxBin) ops ∧
      (binOps ops).Perm (cano (hashOfItem aes items) nb nh items.length) ∧
      (mapOps ops).Perm (canoMap (hashOfItem aes items) nb nh items.length) := by
    unfold insertItems
    have hl : (init nb numBalls nh maxBin).bins.length = nb := by simp [init]
    have hh : (init nb numBalls nh maxBin).numHashes = nh := rfl
    rw [hl, hh, if_neg (by omega)]
    rcases hcase with ⟨h3, h1⟩ | ⟨h3, _, h8⟩
    · rw [if_pos h3]
      subst h3
      exact ⟨_, rfl, ops3_cano aes nb items h1⟩
    · rw [if_neg h3]
      have := opsGeneral_cano aes nb nh items h8
      exact ⟨_, rfl, by rw [this.1], by rw [this.2]⟩
  have hfor : ∀ b, (forBin b (binOps ops)).Perm
      (forBin b (cano (hashOfItem aes items) nb nh items.length)) := fun b => hb.filter _
  have hwant := forBin_cano aes items nb nh
  have hinit : ∀ b, (init nb numBalls nh maxBin).bins.getD b [] = [] := by
    intro b
    simp only [init, List.getD, List.getElem?_replicate]
    split <;> rfl
  have hcm : ∀ e ∈ cano (hashOfItem aes items) nb nh items.length,
      e.1 < nb ∧ e.2.1 < items.length ∧ e.2.2.1 < nh := by
    intro e he
    simp only [cano, List.mem_flatMap, List.mem_map, List.mem_range] at he
    obtain ⟨k, hk, h, hh, rfl⟩ := he
    exact ⟨Nat.mod_lt _ hnb, hk, hh⟩
  have hempty : ∀ b, ¬ b < nb → forBin b (cano (hashOfItem aes items) nb nh items.length) = [] := by
    intro b hbn
    unfold forBin
    rw [List.filter_eq_nil_iff]
    intro e he
    have := (hcm e he).1
    simp; omega
  obtain ⟨s', hs'⟩ := run_ok (s := init nb numBalls nh maxBin) ops
    (by
      intro e he
      have := (hcm e (hb.mem_iff.mp he)).1
      simpa [init] using this)
    (by
      intro e he
      have he := hm.mem_iff.mp he
      simp only [canoMap, List.mem_flatMap, List.mem_map, List.mem_range] at he
      obtain ⟨k, hk, h, hh, rfl⟩ := he
      exact ⟨Nat.lt_of_lt_of_le hk hballs, hh⟩)
    (by
      intro b
      rw [hinit, List.length_nil, Nat.zero_add, (hfor b).length_eq]
      by_cases hbn : b < nb
      · rw [← List.length_map (f := (·.2)), hwant]; exact hfit b hbn
      · rw [hempty b hbn]; exact Nat.zero_le _)
  refine ⟨s', by rw [hrun]; exact hs', ?_, ?_⟩
  · intro b hbn
    obtain ⟨_, _, _, _, h5⟩ := run_bins ops hs' (by intro b; rw [hinit]; exact Nat.zero_le _)
    rw [(h5 b).1, hinit, List.nil_append, List.map_map]
    rw [← hwant b]
    have hc : ∀ e ∈ forBin b (binOps ops),
        ((fun v => (itemIdx v, itemHash v, itemColl v)) ∘ enc) e = e.2 := by
      intro e he
      have he' := hcm e (List.mem_filter.mp ((hfor b).mem_iff.mp he)).1
      obtain ⟨d1, d2, d3⟩ := decode_encode e.2.1 e.2.2.1 e.2.2.2 (by omega) (by omega)
      simp only [Function.comp, enc, d1, d2, d3]
    rw [List.map_congr_left hc]
    exact (hfor b).map _
  · intro k h hk hh
    refine run_map ops hs' k h _ ?_ (Or.inr ?_)
    · intro e he h1 h2
      have he := hm.mem_iff.mp he
      simp only [canoMap, List.mem_flatMap, List.mem_map, List.mem_range] at he
      obtain ⟨k', hk', h', hh', rfl⟩ := he
      simp only at h1 h2
      subst h1 h2
      simp only [mapVal, collision, hashVal_eq, binOf_eq]
      rfl
    · exact ⟨_, hm.mem_iff.mpr (List.mem_flatMap.mpr ⟨k, List.mem_range.mpr hk,
        List.mem_map.mpr ⟨h, List.mem_range.mpr hh, rfl⟩⟩), rfl, rfl⟩

/-- Nine items, three hash functions, two bins: the hypotheses can be met. -/
example : ∃ s', insertItems id (init 2 9 3 27) (List.replicate 9 5) = .ok s' ∧
    (s'.bins.getD 0 []).length = 27 := by
  have hw : ∀ b, b < 2 → (wanted id (List.replicate 9 5) 2 3 b).length ≤ 27 := by
    intro b hb
    have : b = 0 ∨ b = 1 := by omega
    rcases this with rfl | rfl <;> decide +kernel
  obtain ⟨s', h1, h2, _⟩ := C17_complete_partial id (List.replicate 9 5) 2 9 3 27 (by simp)
    (by decide) (by simp) (Or.inl ⟨rfl, by simp⟩) hw
  refine ⟨s', h1, ?_⟩
  have := (h2 0 (by decide)).length_eq
  rw [List.length_map] at this
  rw [this]
  decide +kernel

/-- C17 is false for three hash functions: whenever at least two items are left over after the full
groups of eight, the second and later left over items are in no bin, even though `insertItems`
returns normally. -/
theorem C17_leftover_missing (aes : Block → Block) (items : List Block) (nb numBalls maxBin : Nat)
    (hn : items.length < 2 ^ 56) (s' : Simple)
    (hok : insertItems aes (init nb numBalls 3 maxBin) items = .ok s')
    (k : Nat) (hk : 8 * (items.length / 8) < k) (b v : Nat) (hv : v ∈ s'.bins.getD b []) :
    itemIdx v ≠ k := by
  unfold insertItems at hok
  have hl : (init nb numBalls 3 maxBin).bins.length = nb := by simp [init]
  have hh : (init nb numBalls 3 maxBin).numHashes = 3 := rfl
  rw [hl, hh] at hok
  split at hok
  · simp at hok
  · rw [if_pos rfl] at hok
    have hinit : ∀ b, (init nb numBalls 3 maxBin).bins.getD b [] = [] := by
      intro b
      simp only [init, List.getD, List.getElem?_replicate]
      split <;> rfl
    obtain ⟨_, _, _, _, h5⟩ := run_bins _ hok (by intro b; rw [hinit]; exact Nat.zero_le _)
    rw [(h5 b).1, hinit, List.nil_append] at hv
    obtain ⟨e, he, rfl⟩ := List.mem_map.mp hv
    have he := (List.mem_filter.mp he).1
    have hdm := Nat.div_add_mod items.length 8
    have hidx : e.2.1 ≤ 8 * (items.length / 8) ∧ e.2.2.1 < 3 := by
      unfold ops3 at he
      simp only [binOps_append] at he
      rcases List.mem_append.mp he with he | he
      · have he := (binOps_blocks (hashOfItem aes items) nb (items.length / 8)).mem_iff.mp he
        simp only [cano, List.mem_flatMap, List.mem_map, List.mem_range] at he
        obtain ⟨k', hk', h, hh', rfl⟩ := he
        exact ⟨by simp only; omega, hh'⟩
      · rw [binOps_flatMap] at he
        simp only [binOps_itemOps, List.mem_flatMap, List.mem_map, List.mem_range] at he
        obtain ⟨s, _, h, hh', rfl⟩ := he
        exact ⟨Nat.le_refl _, hh'⟩
    obtain ⟨d1, _, _⟩ := decode_encode e.2.1 e.2.2.1 e.2.2.2 (by omega) (by omega)
    rw [enc, d1]
    omega

/-- The hypotheses can be met: two items, one bin. The second item is missing. -/
example : ∃ s', insertItems id (init 1 2 3 3) [1, 2] = .ok s' ∧
    ∀ v ∈ s'.bins.getD 0 [], itemIdx v ≠ 1 := by
  have h : ∃ s', insertItems id (init 1 2 3 3) [1, 2] = .ok s' := by
    refine run_ok (s := init 1 2 3 3) (ops3 id 1 [1, 2]) ?_ ?_ ?_
    · decide +kernel
    · decide +kernel
    · intro b
      by_cases hb : b = 0
      · subst hb; decide +kernel
      · have h1 : (init 1 2 3 3).bins.getD b [] = [] := by
          simp only [init, List.getD, List.getElem?_replicate]
          split <;> rfl
        have h2 : forBin b (binOps (ops3 id 1 [1, 2])) = [] := by
          unfold forBin
          rw [List.filter_eq_nil_iff]
          have : ∀ e ∈ binOps (ops3 id 1 [1, 2]), e.1 = 0 := by decide +kernel
          intro e he; rw [this e he]; simp; omega
        rw [h1, h2]; decide
  obtain ⟨s', hs'⟩ := h
  exact ⟨s', hs', fun v hv => C17_leftover_missing id [1, 2] 1 2 3 (by simp) s' hs' 1 (by simp) 0 v hv⟩

/-- C17, what the map says about left over items: their rows are never written, so they stay as
they were after `init`. -/
theorem C17_leftover_map (aes : Block → Block) (items : List Block) (nb numBalls maxBin : Nat)
    (s' : Simple) (hok : insertItems aes (init nb numBalls 3 maxBin) items = .ok s')
    (k : Nat) (hk : 8 * (items.length / 8) < k) (h : Nat) : s'.map k h = none := by
  unfold insertItems at hok
  have hh : (init nb numBalls 3 maxBin).numHashes = 3 := rfl
  rw [hh] at hok
  split at hok
  · simp at hok
  · rw [if_pos rfl] at hok
    rw [run_map_other _ hok k _ h]
    · rfl
    · intro e he
      unfold ops3 at he
      simp only [mapOps_append] at he
      rcases List.mem_append.mp he with he | he
      · have he := (mapOps_blocks (hashOfItem aes items) _ (items.length / 8)).mem_iff.mp he
        simp only [canoMap, List.mem_flatMap, List.mem_map, List.mem_range] at he
        obtain ⟨k', hk', h, hh', rfl⟩ := he
        simp only; omega
      · rw [mapOps_flatMap] at he
        simp only [mapOps_itemOps, List.mem_flatMap, List.mem_map, List.mem_range] at he
        obtain ⟨s, hs, h, hh', rfl⟩ := he
        simp only; omega

/-- The row of the second of two items is not written. -/
example (s' : Simple) (h : insertItems id (init 1 2 3 3) [1, 2] = .ok s') : s'.map 1 0 = none :=
  C17_leftover_map id [1, 2] 1 2 3 s' h 1 (by simp) 0

/-- C17 is false for six and more hash functions: the address of the sixth is read behind the
16 byte hash, whatever is inserted. -/
theorem C17_six_hashes (aes : Block → Block) (items : List Block) (nb numBalls nh maxBin : Nat)
    (h : 5 < nh) (hi : items ≠ []) : insertItems aes (init nb numBalls nh maxBin) items = .ub := by
  unfold insertItems
  have hh : (init nb numBalls nh maxBin).numHashes = nh := rfl
  rw [hh, if_pos ⟨hi, by omega, Or.inr h⟩]

/-- Six hash functions are too many, five are not. -/
example : insertItems id (init 4 1 6 100) [7] = .ub ∧
    ∃ s', insertItems id (init 4 1 5 100) [7] = .ok s' := by
  refine ⟨C17_six_hashes id [7] 4 1 6 100 (by decide) (by simp), ?_⟩
  obtain ⟨s', h, _⟩ := C17_complete_partial id [7] 4 1 5 100 (by simp) (by decide) (by simp)
    (Or.inr ⟨by decide, by decide, by simp⟩) (by decide +kernel)
  exact ⟨s', h⟩

/-- C17 is false for other numbers of hash functions: more than eight items, for an index that was
initialised for at most this many items, always write outside of the map. -/
theorem C17_other_hash_counts (aes : Block → Block) (items : List Block) (nb numBalls nh maxBin : Nat)
    (h0 : 0 < nh) (h3 : nh ≠ 3) (h8 : 8 < items.length) (hballs : numBalls ≤ items.length) :
    insertItems aes (init nb numBalls nh maxBin) items = .ub := by
  unfold insertItems
  split
  · rfl
  · have hh : (init nb numBalls nh maxBin).numHashes = nh := rfl
    rw [hh, if_neg h3]
    rcases run_total (opsGeneral aes (init nb numBalls nh maxBin).bins.length nh items)
      (init nb numBalls nh maxBin) with h | ⟨s', h⟩
    · exact h
    · exfalso
      have := run_map_range _ h
        (items.length - 1 + 8 * ((items.length - 1) / 8), 0, mapVal
          (getHash (hashOfItem aes items (items.length - 1)) 0 (init nb numBalls nh maxBin).bins.length)
          (collision (hashOfItem aes items (items.length - 1))
            (init nb numBalls nh maxBin).bins.length 0)) (by
        unfold opsGeneral
        simp only [mapOps_flatMap, mapOps_itemOps, List.mem_flatMap, List.mem_map, List.mem_range]
        refine ⟨(items.length - 1) / 8, by omega, (items.length - 1) % 8, by omega, 0, h0, ?_⟩
        rw [Nat.div_add_mod])
      have h2 : (init nb numBalls nh maxBin).numBalls = numBalls := rfl
      rw [h2] at this
      simp only at this
      omega

example : insertItems id (init 4 9 2 100) (List.replicate 9 0) = .ub :=
  C17_other_hash_counts id (List.replicate 9 0) 4 9 2 100 (by decide) (by decide) (by simp) (by simp)

end Verif.Simple
