import Verif.DrrnLemmas
import Verif.DrrnSpec
/-
Properties of the DRRN protocol: C46 (addresses), C47 (membership), C48 (slot search), C75 (every mask is used once),
C76 (the servers' masks cancel).
-/
namespace Verif.Drrn
open Verif

/-! ### C46: addresses -/

/-- Every slot lies in exactly one of the regions, the client's offset does not underflow, is smaller than the region's
padded size, and the DPF position is in the domain of the key. -/
theorem C46_addresses (c : Params) (hS : 0 < c.S) (hb : 0 < c.bb) (p : Nat) (hp : p < c.N) :
    c.region p < c.S ∧ c.binOff (c.region p) ≤ p ∧ p - c.binOff (c.region p) < c.slotsPerBin ∧
      (p - c.binOff (c.region p)) / c.bb < 2 ^ c.kDepth * c.groupSize * 128 ∧
      ∀ b : Nat, c.region p = b ↔ c.binOff b ≤ p ∧ p < c.binOff (b + 1) :=
  ⟨region_lt hS hp, ((region_iff (by omega) hS p _).mp rfl).1, offset_lt hS hp, dpf_lt hS hb hp,
    fun b => region_iff (by omega) hS p b⟩

/-- The exception for `groupSize > 8` is never thrown. -/
theorem C46_group_size (c : Params) : c.groupSize ≤ 8 := groupSize_le c

example : (Params.mk 1000 7 1 8 3).region 142 = 0 ∧ (Params.mk 1000 7 1 8 3).region 143 = 1 ∧
    (Params.mk 1000 7 1 8 3).binOff 1 = 143 := by decide

/-- The server starts a region where the client does exactly if the start is a multiple of the big-block size. -/
theorem C46_server_agrees_iff (c : Params) (hb : 0 < c.bb) (b : Nat) :
    c.srvStart b = c.binOff b ↔ c.bb ∣ c.binOff b := srvStart_eq_iff hb b

/-- Without big blocks the servers agree with the client. -/
theorem C46_server_agrees_one (c : Params) (hb : c.bb = 1) (b : Nat) : c.srvStart b = c.binOff b := srvStart_one hb b

/-- With the default big-block size the server's regions differ from the client's: slot 143 is in the client's region 1
and in the server's region 0. -/
theorem C46_server_differs : ∃ (c : Params) (p b : Nat), c.bb = 8 ∧ p < c.N ∧ c.region p = b ∧ p < c.srvStart b :=
  ⟨⟨1000, 7, 1, 8, 3⟩, 143, 1, by decide⟩

/-! ### C48: search -/

/-- `find` on the ordered positions throws nothing, ends, and gives the first entry not before the key (the length if
there is none). -/
theorem C48_find (a : List Nat) (h : a.Pairwise (· < ·)) (key : Nat) :
    ∃ k, findOut a key = .ok k ∧ k ≤ a.length ∧ (∀ i : Nat, i < k → a.getD i 0 < key) ∧
      (∀ i : Nat, k ≤ i → i < a.length → key ≤ a.getD i 0) := findOut_spec h key

example : findOut [2, 3, 7, 9] 7 = .ok 2 ∧ findOut [2, 3, 7, 9] 8 = .ok 3 ∧ findOut [2, 3, 7, 9] 10 = .ok 4 ∧
    findOut [] 1 = .ok 0 := by decide

/-- The items that the servers evaluate for a region are those with a position in it. -/
theorem C48_region_items (c : Params) (tbl : List (Nat × Block)) (hs : (tbl.map (·.1)).Pairwise (· < ·)) (b : Nat)
    (x : Nat × Block) :
    x ∈ regionItems c tbl b ↔ x ∈ tbl ∧ c.srvStart b ≤ x.1 ∧ x.1 < c.srvStart (b + 1) := mem_regionItems hs b x

/-! ### C75: use of the masks -/

/-- With big blocks of one slot the client's permutation uses every mask exactly once.
Missing: other sizes of the big blocks, for which it is false (next theorem). -/
theorem C75_masks_once_partial (c : Params) (slot : Block → Nat → Nat) (xs : List Block) (hS : 0 < c.S) (hb : c.bb = 1)
    (hslot : ∀ x ∈ xs, ∀ j : Nat, j < c.h → slot x j < c.N)
    (hfit : ∀ b : Nat, b < c.S → (bin c slot xs b).length ≤ c.L) :
    (pi c slot xs).Perm (List.range c.permSize) := pi_perm hS hb hslot hfit

example : pi ⟨8, 2, 3, 1, 2⟩ (fun x j => x.toNat + j) [2, 4] = [0, 1, 4, 2, 3, 5] := by decide +kernel

/-- With the default size of the big blocks two queries can use the same mask, and mask 0 is used for all unused
places. -/
theorem C75_masks_repeat : ∃ (c : Params) (slot : Block → Nat → Nat) (xs : List Block), c.bb = 8 ∧ 0 < c.S ∧
    (∀ x ∈ xs, ∀ j : Nat, j < c.h → slot x j < c.N) ∧ (∀ b : Nat, b < c.S → (bin c slot xs b).length ≤ c.L) ∧
    ¬ (pi c slot xs).Nodup :=
  ⟨⟨64, 1, 4, 8, 2⟩, fun x j => x.toNat + j, [2, 0], rfl, by decide, by
      intro x hx j hj
      have hj' : j < 2 := hj
      have : x = 2 ∨ x = 0 := by simpa using hx
      rcases this with rfl | rfl
      · show 2 + j < 64; omega
      · show 0 + j < 64; omega,
    fun b hb => by
      have : b = 0 := by
        have h : b < 1 := hb
        omega
      subst this; decide +kernel, by decide +kernel⟩

/-! ### C76: the masks of the servers cancel -/

/-- What the first server enters into the PSI is the sum of the two shares and one mask, for all shuffles and all
masks, at every place with a mask index in range. -/
theorem C76_masks_cancel (c : Params) (slot : Block → Nat → Nat) (xs : List Block) (tbl : List (Nat × Block)) (w : Rand)
    (bits0 bits1 : Nat → Nat → Nat → Bool) (hp : w.pi1.Perm (List.range c.permSize)) (i : Nat) (hi : i < c.permSize)
    (hpi : (pi c slot xs).getD i 0 < c.permSize) :
    (serverValues c slot xs tbl w bits0 bits1).getD i 0 =
      (shares c tbl bits0).getD i 0 ^^^ (shares c tbl bits1).getD i 0 ^^^
        (swapAll c w.sigma xs.length w.r).getD ((pi c slot xs).getD i 0) 0 := serverValues_at hp hi hpi

/-- The swaps of the second server move a mask only among the masks of the same item. -/
theorem C76_swaps (c : Params) (hh : 0 < c.h) (sigma : Nat → List Nat) (n : Nat)
    (hs : ∀ i : Nat, i < n → ∀ v ∈ sigma i, v < c.h) (r : List Block) (hr : n * c.h ≤ r.length) (k : Nat)
    (hk : k < r.length) :
    ∃ k' : Nat, k' < r.length ∧ (swapAll c sigma n r).getD k 0 = r.getD k' 0 ∧
      (k' = k ∨ (k' / c.h = k / c.h ∧ k < n * c.h ∧ k' < n * c.h)) := (swapAll_groups hh hs r hr).src k hk

example : swapAll ⟨8, 1, 4, 1, 2⟩ (fun _ => [1, 0]) 2 [10, 20, 30, 40] = [20, 10, 40, 30] := by decide

/-! ### C47: membership -/

/-- Big blocks of one slot: exactly what is reported. The item must be what the servers find for one of its slots; they
count from the first occupied slot of the region, and find the zero block where there is nothing. -/
theorem C47_reported_iff (c : Params) (slot : Block → Nat → Nat) (xs : List Block) (tbl : List (Nat × Block))
    (w : Rand) (bits0 bits1 : Nat → Nat → Nat → Bool) (hS : 0 < c.S) (hh : 0 < c.h) (hb : c.bb = 1)
    (hslot : ∀ x ∈ xs, ∀ j : Nat, j < c.h → slot x j < c.N)
    (hfit : ∀ b : Nat, b < c.S → (bin c slot xs b).length ≤ c.L)
    (hbits : BitsOk c slot xs bits0 bits1) (htbl : TableOk c slot tbl) (hw : RandOk c xs tbl w) :
    ∃ res, run c slot xs tbl w bits0 bits1 = .ok res ∧
      ∀ i : Nat, i ∈ res ↔ i < xs.length ∧ ∃ j p b : Nat, j < c.h ∧ p = slot (xs.getD i 0) j ∧
        c.binOff b ≤ p ∧ p < c.binOff (b + 1) ∧
        (Shifted tbl (c.binOff b) (c.binOff (b + 1)) p (xs.getD i 0) ∨
          (xs.getD i 0 = 0 ∧ ∀ v, ¬ Shifted tbl (c.binOff b) (c.binOff (b + 1)) p v)) := by
  obtain ⟨res, hr, h⟩ := reported_iff c slot xs tbl w bits0 bits1 hS hh hb hslot hfit hbits htbl hw
  refine ⟨res, hr, fun i => ?_⟩
  rw [h]
  constructor
  · rintro ⟨hi, j, hj, he⟩
    have hN : 0 < c.N := by
      have := hslot _ (by rw [Kkrt.getD_eq hi]; exact List.getElem_mem _ : xs.getD i 0 ∈ xs) j hj
      omega
    have hreg := (region_iff hN hS (slot (xs.getD i 0) j) _).mp rfl
    refine ⟨hi, j, _, _, hj, rfl, hreg.1, hreg.2, ?_⟩
    by_cases hex : ∃ v, Shifted tbl (c.binOff (c.region (slot (xs.getD i 0) j)))
        (c.binOff (c.region (slot (xs.getD i 0) j) + 1)) (slot (xs.getD i 0) j) v
    · obtain ⟨v, hv⟩ := hex
      have h1 := answer_shifted hb htbl.ordered hv
      rw [he] at h1
      exact Or.inl (by rw [← h1] at hv; exact hv)
    · have h1 := answer_empty hb htbl.ordered (fun v hv => hex ⟨v, hv⟩)
      rw [he] at h1
      exact Or.inr ⟨h1, fun v hv => hex ⟨v, hv⟩⟩
  · rintro ⟨hi, j, p, b, hj, rfl, h1, h2, ho⟩
    have hN : 0 < c.N := by
      have := hslot _ (by rw [Kkrt.getD_eq hi]; exact List.getElem_mem _ : xs.getD i 0 ∈ xs) j hj
      omega
    have hreg := (region_iff hN hS (slot (xs.getD i 0) j) b).mpr ⟨h1, h2⟩
    subst hreg
    refine ⟨hi, j, hj, ?_⟩
    rcases ho with hv | ⟨hz, hv⟩
    · exact answer_shifted hb htbl.ordered hv
    · rw [answer_empty hb htbl.ordered hv, hz]

/-- Big blocks of one slot, the first slot of every region with items occupied, no zero item at the client: the client
reports exactly its items in the servers' set.
Missing: big blocks of other sizes (the default is 8), regions with an empty first slot, the zero block. For all three
the property is false (the next theorems). -/
theorem C47_membership_partial (c : Params) (slot : Block → Nat → Nat) (xs : List Block) (tbl : List (Nat × Block))
    (w : Rand) (bits0 bits1 : Nat → Nat → Nat → Bool) (hS : 0 < c.S) (hh : 0 < c.h) (hb : c.bb = 1)
    (hslot : ∀ x ∈ xs, ∀ j : Nat, j < c.h → slot x j < c.N)
    (hfit : ∀ b : Nat, b < c.S → (bin c slot xs b).length ≤ c.L)
    (hbits : BitsOk c slot xs bits0 bits1) (htbl : TableOk c slot tbl) (hw : RandOk c xs tbl w)
    (hfirst : ∀ b : Nat, b < c.S → (∃ x ∈ tbl, c.binOff b ≤ x.1 ∧ x.1 < c.binOff (b + 1)) →
      ∃ x ∈ tbl, x.1 = c.binOff b)
    (hzero : 0 ∉ xs) :
    ∃ res, run c slot xs tbl w bits0 bits1 = .ok res ∧
      ∀ i : Nat, i ∈ res ↔ i < xs.length ∧ ∃ p, (p, xs.getD i 0) ∈ tbl := by
  obtain ⟨res, hr, h⟩ := C47_reported_iff c slot xs tbl w bits0 bits1 hS hh hb hslot hfit hbits htbl hw
  refine ⟨res, hr, fun i => ?_⟩
  rw [h]
  constructor
  · rintro ⟨hi, j, p, b, hj, hp, h1, h2, ho⟩
    refine ⟨hi, ?_⟩
    rcases ho with ⟨f, _, _, hm⟩ | ⟨hz, _⟩
    · exact ⟨_, hm⟩
    · exact absurd (by rw [← hz, Kkrt.getD_eq hi]; exact List.getElem_mem _) hzero
  · rintro ⟨hi, p, hp⟩
    obtain ⟨j, hj, hpj⟩ := htbl.placed _ hp
    simp only at hpj
    have hx : xs.getD i 0 ∈ xs := by rw [Kkrt.getD_eq hi]; exact List.getElem_mem _
    have hpN : p < c.N := by rw [hpj]; exact hslot _ hx j hj
    have hreg := (region_iff (by omega) hS p _).mp rfl
    refine ⟨hi, j, p, c.region p, hj, hpj, hreg.1, hreg.2, Or.inl ?_⟩
    obtain ⟨y, hy, hye⟩ := hfirst _ (region_lt hS hpN) ⟨_, hp, hreg⟩
    refine ⟨c.binOff (c.region p), ⟨Nat.le_refl _, by omega, ⟨y.2, by rw [← hye]; exact hy⟩, fun x _ h _ => h⟩, ?_, ?_⟩
    · omega
    · rw [show c.binOff (c.region p) + (p - c.binOff (c.region p)) = p by omega]
      exact hp

/-- Big blocks of one slot: an item other than the zero block is reported only if it is in the servers' set, whatever
the first slots are. -/
theorem C47_sound_partial (c : Params) (slot : Block → Nat → Nat) (xs : List Block) (tbl : List (Nat × Block))
    (w : Rand) (bits0 bits1 : Nat → Nat → Nat → Bool) (hS : 0 < c.S) (hh : 0 < c.h) (hb : c.bb = 1)
    (hslot : ∀ x ∈ xs, ∀ j : Nat, j < c.h → slot x j < c.N)
    (hfit : ∀ b : Nat, b < c.S → (bin c slot xs b).length ≤ c.L)
    (hbits : BitsOk c slot xs bits0 bits1) (htbl : TableOk c slot tbl) (hw : RandOk c xs tbl w) :
    ∃ res, run c slot xs tbl w bits0 bits1 = .ok res ∧
      ∀ i ∈ res, xs.getD i 0 ≠ 0 → ∃ p, (p, xs.getD i 0) ∈ tbl := by
  obtain ⟨res, hr, h⟩ := C47_reported_iff c slot xs tbl w bits0 bits1 hS hh hb hslot hfit hbits htbl hw
  refine ⟨res, hr, fun i hi hz => ?_⟩
  obtain ⟨_, j, p, b, _, _, _, _, ho⟩ := (h i).mp hi
  rcases ho with ⟨f, _, _, hm⟩ | ⟨hz', _⟩
  · exact ⟨_, hm⟩
  · exact absurd hz' hz

/-- The zero block is reported whenever a region of one of its slots has no items at all, although it is not in the
servers' set. -/
theorem C47_zero_reported (c : Params) (slot : Block → Nat → Nat) (xs : List Block) (tbl : List (Nat × Block))
    (w : Rand) (bits0 bits1 : Nat → Nat → Nat → Bool) (hS : 0 < c.S) (hb : c.bb = 1)
    (hslot : ∀ x ∈ xs, ∀ j : Nat, j < c.h → slot x j < c.N)
    (hfit : ∀ b : Nat, b < c.S → (bin c slot xs b).length ≤ c.L)
    (hbits : BitsOk c slot xs bits0 bits1) (htbl : TableOk c slot tbl) (hw : RandOk c xs tbl w)
    (i j b : Nat) (hi : i < xs.length) (hz : xs.getD i 0 = 0) (hj : j < c.h)
    (hreg : c.binOff b ≤ slot 0 j ∧ slot 0 j < c.binOff (b + 1))
    (hempty : ∀ x ∈ tbl, ¬ (c.binOff b ≤ x.1 ∧ x.1 < c.binOff (b + 1))) :
    ∃ res, run c slot xs tbl w bits0 bits1 = .ok res ∧ i ∈ res := by
  obtain ⟨res, hr, h⟩ := C47_reported_iff c slot xs tbl w bits0 bits1 hS (by omega) hb hslot hfit hbits htbl hw
  refine ⟨res, hr, (h i).mpr ⟨hi, j, slot 0 j, b, hj, by rw [hz], hreg.1, hreg.2, Or.inr ⟨hz, ?_⟩⟩⟩
  rintro v ⟨f, ⟨h1, h2, ⟨u, hu⟩, _⟩, _⟩
  exact hempty _ hu ⟨h1, h2⟩

/-! Concrete runs. One client item, one hash function. -/

theorem bits_one (c : Params) (slot : Block → Nat → Nat) (x : Block) (hS : c.S = 1) (hh : c.h = 1) (hL : c.L = 1)
    (hN : slot x 0 < c.N) :
    BitsOk c slot [x] (fun _ _ i => decide (i = slot x 0 / c.bb)) (fun _ _ _ => false) := by
  have hbin : bin c slot [x] 0 = [(0, 0)] := by
    have h0 : c.region (slot x 0) = 0 := by
      have := region_lt (c := c) (by omega) hN
      omega
    unfold bin insertions
    rw [hh]
    show List.filter (fun e => c.region (slot ([x].getD e.2 0) e.1) == 0) [(0, 0)] = [(0, 0)]
    rw [List.filter_cons_of_pos]
    · rfl
    · show (c.region (slot x 0) == 0) = true
      simp [h0]
  constructor
  · intro b k hb hk i hi
    have hb0 : b = 0 := by omega
    subst hb0
    rw [hbin] at hk ⊢
    have hk0 : k = 0 := by simpa using hk
    subst hk0
    have ho : c.binOff 0 = 0 := by unfold Params.binOff; rw [hS]; simp
    unfold target cuckooIdx
    rw [ho]
    show (decide (i = slot x 0 / c.bb) ^^ false) = decide (i = (slot x 0 - 0) / c.bb)
    simp
  · intro b k hb hk hkL
    have hb0 : b = 0 := by omega
    subst hb0
    rw [hbin, List.length_singleton] at hk
    omega

/-- The client's item 5 is in the servers' set, in slot 2; slots 0 and 1 are empty. It is not reported. -/
theorem C47_first_slot_empty :
    ∃ (c : Params) (slot : Block → Nat → Nat) (xs : List Block) (tbl : List (Nat × Block)) (w : Rand)
      (bits0 bits1 : Nat → Nat → Nat → Bool), 0 < c.S ∧ 0 < c.h ∧ c.bb = 1 ∧
      (∀ x ∈ xs, ∀ j : Nat, j < c.h → slot x j < c.N) ∧
      (∀ b : Nat, b < c.S → (bin c slot xs b).length ≤ c.L) ∧
      BitsOk c slot xs bits0 bits1 ∧ TableOk c slot tbl ∧ RandOk c xs tbl w ∧ 0 ∉ xs ∧
      (2, xs.getD 0 0) ∈ tbl ∧ run c slot xs tbl w bits0 bits1 = .ok [] := by
  refine ⟨⟨4, 1, 1, 1, 1⟩, fun _ _ => 2, [5], [(2, 5)], ⟨[7], [1], [3], [0], fun _ => [0]⟩,
    _, _, by decide, by decide, rfl, ?_, ?_, bits_one _ _ _ rfl rfl rfl (by decide), ⟨by decide, by decide, ?_⟩,
    ⟨List.Perm.refl _, ?_, rfl, ?_⟩, by decide, by decide, by decide +kernel⟩
  · intro _ _ _ _
    show 2 < 4
    decide
  · intro b hb
    have h : b < 1 := hb
    have : b = 0 := by omega
    subst this; decide
  · intro x hx
    rw [List.mem_singleton] at hx
    subst hx
    exact ⟨0, by decide, rfl⟩
  · intro i _ v hv
    have : v = 0 := by simpa using hv
    subst this
    show 0 < 1
    decide
  · intro k k' hk hk' hne
    have h1 : k < 1 := hk
    have h2 : k' < 1 := hk'
    omega

/-- Big blocks of eight slots (the default), all first slots occupied: the client's item 5 is in the servers' set, in
slot 1, next to the item 9 in slot 0. It is not reported. -/
theorem C47_big_blocks :
    ∃ (c : Params) (slot : Block → Nat → Nat) (xs : List Block) (tbl : List (Nat × Block)) (w : Rand)
      (bits0 bits1 : Nat → Nat → Nat → Bool), 0 < c.S ∧ 0 < c.h ∧ c.bb = 8 ∧
      (∀ x ∈ xs, ∀ j : Nat, j < c.h → slot x j < c.N) ∧
      (∀ b : Nat, b < c.S → (bin c slot xs b).length ≤ c.L) ∧
      BitsOk c slot xs bits0 bits1 ∧ TableOk c slot tbl ∧ RandOk c xs tbl w ∧ 0 ∉ xs ∧
      (∀ b : Nat, b < c.S → ∃ x ∈ tbl, x.1 = c.binOff b) ∧
      (1, xs.getD 0 0) ∈ tbl ∧ run c slot xs tbl w bits0 bits1 = .ok [] := by
  refine ⟨⟨8, 1, 1, 8, 1⟩, fun x _ => if x = 5 then 1 else 0, [5], [(0, 9), (1, 5)],
    ⟨[16, 32, 48, 64, 80, 96, 112, 128], List.replicate 8 1, List.replicate 8 3, List.range 8, fun _ => [0]⟩,
    _, _, by decide, by decide, rfl, ?_, ?_, bits_one _ _ _ rfl rfl rfl (by decide), ⟨by decide, by decide, ?_⟩,
    ⟨List.Perm.refl _, ?_, rfl, ?_⟩, by decide, ?_, by decide, by decide +kernel⟩
  · intro x _ _ _
    show (if x = 5 then 1 else 0) < 8
    split <;> decide
  · intro b hb
    have h : b < 1 := hb
    have : b = 0 := by omega
    subst this; decide
  · intro x hx
    have : x = (0, 9) ∨ x = (1, 5) := by simpa using hx
    rcases this with rfl | rfl
    · exact ⟨0, by decide, rfl⟩
    · exact ⟨0, by decide, rfl⟩
  · intro i _ v hv
    have : v = 0 := by simpa using hv
    subst this
    show 0 < 1
    decide
  · intro k k' hk hk' hne x hx v hv
    rw [List.mem_singleton] at hx
    subst hx
    have hvs : v ∈ [(0 : Block), 9, 5] := by
      rcases hv with rfl | ⟨p, hp⟩
      · decide
      · have : (p = 0 ∧ v = 9) ∨ (p = 1 ∧ v = 5) := by simpa using hp
        rcases this with ⟨_, rfl⟩ | ⟨_, rfl⟩ <;> decide
    have key : ∀ k < 8, ∀ k' < 8, k ≠ k' → ∀ m < 3,
        [16, 32, 48, 64, 80, 96, 112, (128 : Block)].getD k 0 ^^^ 5 ≠
          [16, 32, 48, 64, 80, 96, 112, (128 : Block)].getD k' 0 ^^^ [(0 : Block), 9, 5].getD m 0 := by decide +kernel
    obtain ⟨m, hm, he⟩ := List.getElem_of_mem hvs
    have := key k hk k' hk' hne m hm
    rw [Kkrt.getD_eq hm, he] at this
    exact this
  · intro b hb
    have h : b < 1 := hb
    have : b = 0 := by omega
    subst this
    exact ⟨(0, 9), by decide, by decide⟩

/-- The hypotheses of `C47_membership_partial` can be met: here the item 5 is in slot 0 and is reported. -/
example : run ⟨4, 1, 1, 1, 1⟩ (fun _ _ => 0) [5] [(0, 5)] ⟨[7], [1], [3], [0], fun _ => [0]⟩
    (fun _ _ i => decide (i = 0)) (fun _ _ _ => false) = .ok [0] := by decide +kernel

example : BitsOk ⟨4, 1, 1, 1, 1⟩ (fun _ _ => 0) [5] (fun _ _ i => decide (i = 0 / 1)) (fun _ _ _ => false) ∧
    TableOk ⟨4, 1, 1, 1, 1⟩ (fun _ _ => 0) [(0, 5)] ∧
    RandOk ⟨4, 1, 1, 1, 1⟩ [5] [(0, 5)] ⟨[7], [1], [3], [0], fun _ => [0]⟩ := by
  refine ⟨bits_one _ _ _ rfl rfl rfl (by decide), ⟨by decide, by decide, ?_⟩, ⟨List.Perm.refl _, ?_, rfl, ?_⟩⟩
  · intro x hx
    rw [List.mem_singleton] at hx
    subst hx
    exact ⟨0, by decide, rfl⟩
  · intro i _ v hv
    have : v = 0 := by simpa using hv
    subst this
    show 0 < 1
    decide
  · intro k k' hk hk' hne
    have h1 : k < 1 := hk
    have h2 : k' < 1 := hk'
    omega

/-- The zero block is reported although the set has only the item 9. -/
example : run ⟨4, 2, 1, 1, 1⟩ (fun x _ => if x = 0 then 3 else 0) [0] [(0, 9)]
    ⟨[7, 8], [1, 2], [3, 4], [0, 1], fun _ => [0]⟩
    (fun b _ i => decide (b = 1 ∧ i = 1)) (fun _ _ _ => false) = .ok [0] := by decide +kernel

end Verif.Drrn
