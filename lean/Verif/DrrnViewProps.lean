import Verif.DrrnHideLemmas
import Verif.DrrnFullProps
/-
Property C127: what the first DRRN server learns about the client's set from the messages before the final PSI.
The seed of the masks and of the shuffle is the constant `CCBlock` (client line 97, server line 50), so `w` is known to
everybody.
-/
namespace Verif.Drrn
open Verif

/-! ### C127: what the constant seed shows -/

/-- For every query the first server knows for which item and which hash function it is, the region of the slot, and
the answer of the two servers together: the stored value for the slot, counted from the first occupied slot of the
region, or zero. -/
theorem C127_answers_shown (c : Params) (aes : Bool → Block → Block) (old0 old1 : Bgi.Multi) (slot : Block → Nat → Nat)
    (seeds : Nat → Nat → Block × Block) (xs : List Block) (tbl : List (Nat × Block)) (w : Rand)
    (bits0 bits1 : Nat → Nat → Nat → Bool) (hS : 0 < c.S) (hL : 0 < c.L) (hb : c.bb = 1)
    (hslot : ∀ x ∈ xs, ∀ j : Nat, j < c.h → slot x j < c.N)
    (hfit : ∀ b : Nat, b < c.S → (bin c slot xs b).length ≤ c.L) (hs : (tbl.map (·.1)).Pairwise (· < ·))
    (hw : w.pi1.Perm (List.range c.permSize))
    (h0 : serverBits c aes old0 tbl (keyMsg c aes slot xs seeds false) = .ok bits0)
    (h1 : serverBits c aes old1 tbl (keyMsg c aes slot xs seeds true) = .ok bits1)
    (i j : Nat) (hi : i < xs.length) (hj : j < c.h) :
    ∃ m : Nat, m < c.permSize ∧ placeOf w (view0 c aes slot seeds xs tbl w bits1) m = i * c.h + j ∧
      (∀ m' : Nat, m' < c.permSize → placeOf w (view0 c aes slot seeds xs tbl w bits1) m' = i * c.h + j → m' = m) ∧
      m / c.L = c.region (slot (xs.getD i 0) j) ∧
      (∀ v, Shifted tbl (c.binOff (m / c.L)) (c.binOff (m / c.L + 1)) (slot (xs.getD i 0) j) v →
        answerOf c tbl w bits0 (view0 c aes slot seeds xs tbl w bits1) m = v) ∧
      ((∀ v, ¬ Shifted tbl (c.binOff (m / c.L)) (c.binOff (m / c.L + 1)) (slot (xs.getD i 0) j) v) →
        answerOf c tbl w bits0 (view0 c aes slot seeds xs tbl w bits1) m = 0) := by
  have hbp : 0 < c.bb := by omega
  have hx : xs.getD i 0 ∈ xs := by rw [Kkrt.getD_eq hi]; exact List.getElem_mem _
  obtain ⟨q, hq, ha, hpi⟩ := query_values (tbl := tbl) hS hb hslot hfit (idealBits_ok hS hbp aes slot xs seeds hslot) hs i j hi hj
  have hbS := region_lt hS (hslot _ hx j hj)
  have hm := pos_lt hb hbS hq
  obtain ⟨r0, e0, g0⟩ := serverBits_ok hS hbp hL aes old0 slot xs seeds false tbl hfit
  obtain ⟨r1, e1, g1⟩ := serverBits_ok hS hbp hL aes old1 slot xs seeds true tbl hfit
  rw [e0] at h0
  rw [e1] at h1
  simp only [Out.ok.injEq] at h0 h1
  subst h0 h1
  have hdiv : (c.region (slot (xs.getD i 0) j) * c.L + q) / c.L = c.region (slot (xs.getD i 0) j) := by
    rw [Nat.mul_comm, Nat.mul_add_div (by omega), Nat.div_eq_of_lt hq, Nat.add_zero]
  have hans : answerOf c tbl w r0 (view0 c aes slot seeds xs tbl w r1) (c.region (slot (xs.getD i 0) j) * c.L + q) =
      answer c tbl (slot (xs.getD i 0) j) := by
    rw [answerOf_eq hm, shares_congr c tbl r0 _ g0, shares_congr c tbl r1 _ g1, ha]
  refine ⟨c.region (slot (xs.getD i 0) j) * c.L + q, hm, ?_, ?_, hdiv, ?_, ?_⟩
  · rw [placeOf_eq hw hm (pi_lt hS hb hslot hfit hm), hpi]
  · intro m' hm' he
    rw [placeOf_eq hw hm' (pi_lt hS hb hslot hfit hm'), ← hpi] at he
    exact pi_inj hS hb hslot hfit hm' hm he
  · intro v hv
    rw [hdiv] at hv
    rw [hans]
    exact answer_shifted hb hs hv
  · intro hv
    rw [hdiv] at hv
    rw [hans]
    exact answer_empty hb hs hv

/-- A common item (in a region whose first slot is occupied) is one of the `h` answers that the first server finds for
it: it knows at most `h` candidates for every item of the intersection, which only the client should learn. -/
theorem C127_common_shown (c : Params) (aes : Bool → Block → Block) (old0 old1 : Bgi.Multi) (slot : Block → Nat → Nat)
    (seeds : Nat → Nat → Block × Block) (xs : List Block) (tbl : List (Nat × Block)) (w : Rand)
    (bits0 bits1 : Nat → Nat → Nat → Bool) (hS : 0 < c.S) (hL : 0 < c.L) (hb : c.bb = 1)
    (hslot : ∀ x ∈ xs, ∀ j : Nat, j < c.h → slot x j < c.N)
    (hfit : ∀ b : Nat, b < c.S → (bin c slot xs b).length ≤ c.L) (ht : TableOk c slot tbl)
    (hw : w.pi1.Perm (List.range c.permSize))
    (h0 : serverBits c aes old0 tbl (keyMsg c aes slot xs seeds false) = .ok bits0)
    (h1 : serverBits c aes old1 tbl (keyMsg c aes slot xs seeds true) = .ok bits1)
    (i p : Nat) (hi : i < xs.length) (hp : (p, xs.getD i 0) ∈ tbl)
    (hfirst : ∃ v, (c.binOff (c.region p), v) ∈ tbl) :
    ∃ j m : Nat, j < c.h ∧ m < c.permSize ∧ placeOf w (view0 c aes slot seeds xs tbl w bits1) m = i * c.h + j ∧
      answerOf c tbl w bits0 (view0 c aes slot seeds xs tbl w bits1) m = xs.getD i 0 := by
  obtain ⟨j, hj, hpj⟩ := ht.placed _ hp
  simp only at hpj
  have hN := ht.range _ hp
  simp only at hN
  obtain ⟨m, hm, h2, _, h3, h4, _⟩ := C127_answers_shown c aes old0 old1 slot seeds xs tbl w bits0 bits1 hS hL hb hslot
    hfit ht.ordered hw h0 h1 i j hi hj
  refine ⟨j, m, hj, hm, h2, h4 _ ?_⟩
  rw [h3, ← hpj]
  have hreg := (region_iff (by omega) hS p _).mp rfl
  obtain ⟨v, hv⟩ := hfirst
  refine ⟨c.binOff (c.region p), ⟨Nat.le_refl _, by omega, ⟨v, hv⟩, fun x _ h _ => h⟩, by omega, ?_⟩
  rw [show c.binOff (c.region p) + (p - c.binOff (c.region p)) = p by omega]
  exact hp

/-- Sets that are not told apart by the first server ask the same regions and get the same answers, item by item. -/
theorem C127_told_apart (c : Params) (aes : Bool → Block → Block) (old0 old1 old0' old1' : Bgi.Multi)
    (slot : Block → Nat → Nat) (seeds seeds' : Nat → Nat → Block × Block) (xs xs' : List Block) (tbl : List (Nat × Block))
    (w : Rand) (bits0 bits1 bits0' bits1' : Nat → Nat → Nat → Bool) (hS : 0 < c.S) (hL : 0 < c.L) (hb : c.bb = 1)
    (hslot : ∀ x ∈ xs, ∀ j : Nat, j < c.h → slot x j < c.N)
    (hslot' : ∀ x ∈ xs', ∀ j : Nat, j < c.h → slot x j < c.N)
    (hfit : ∀ b : Nat, b < c.S → (bin c slot xs b).length ≤ c.L)
    (hfit' : ∀ b : Nat, b < c.S → (bin c slot xs' b).length ≤ c.L) (hs : (tbl.map (·.1)).Pairwise (· < ·))
    (hw : w.pi1.Perm (List.range c.permSize))
    (h0 : serverBits c aes old0 tbl (keyMsg c aes slot xs seeds false) = .ok bits0)
    (h1 : serverBits c aes old1 tbl (keyMsg c aes slot xs seeds true) = .ok bits1)
    (h0' : serverBits c aes old0' tbl (keyMsg c aes slot xs' seeds' false) = .ok bits0')
    (h1' : serverBits c aes old1' tbl (keyMsg c aes slot xs' seeds' true) = .ok bits1')
    (hsame : view0 c aes slot seeds xs tbl w bits1 = view0 c aes slot seeds' xs' tbl w bits1')
    (i j : Nat) (hi : i < xs.length) (hi' : i < xs'.length) (hj : j < c.h) (b : Nat)
    (hreg : c.binOff b ≤ slot (xs.getD i 0) j ∧ slot (xs.getD i 0) j < c.binOff (b + 1)) :
    (c.binOff b ≤ slot (xs'.getD i 0) j ∧ slot (xs'.getD i 0) j < c.binOff (b + 1)) ∧
    ∀ v, v ≠ 0 → (Shifted tbl (c.binOff b) (c.binOff (b + 1)) (slot (xs.getD i 0) j) v ↔
      Shifted tbl (c.binOff b) (c.binOff (b + 1)) (slot (xs'.getD i 0) j) v) := by
  have hbp : 0 < c.bb := by omega
  have hx : xs.getD i 0 ∈ xs := by rw [Kkrt.getD_eq hi]; exact List.getElem_mem _
  have hx' : xs'.getD i 0 ∈ xs' := by rw [Kkrt.getD_eq hi']; exact List.getElem_mem _
  have hN : 0 < c.N := by have := hslot _ hx j hj; omega
  obtain ⟨m, hm, h2, h3, h4, h5, h6⟩ := C127_answers_shown c aes old0 old1 slot seeds xs tbl w bits0 bits1 hS hL hb hslot
    hfit hs hw h0 h1 i j hi hj
  obtain ⟨m', hm', h2', h3', h4', h5', h6'⟩ := C127_answers_shown c aes old0' old1' slot seeds' xs' tbl w bits0' bits1' hS hL
    hb hslot' hfit' hs hw h0' h1' i j hi' hj
  rw [← hsame] at h2' h3' h5' h6'
  have hmm := h3 m' hm' h2'
  subst hmm
  have hr := (region_iff hN hS _ b).mpr hreg
  rw [hr] at h4
  rw [h4] at h4' h5 h6 h5' h6'
  refine ⟨(region_iff hN hS _ b).mp h4'.symm, ?_⟩
  -- the own shares are the same, since the keys are
  have hk : ∀ k, k < c.S → keyMsg c aes slot xs seeds false k = keyMsg c aes slot xs' seeds' false k := by
    intro k hk
    exact List.map_inj_left.mp (congrArg View0.keys hsame) k (List.mem_range.mpr hk)
  have hsh : shares c tbl bits0 = shares c tbl bits0' := by
    obtain ⟨r0, e0, g0⟩ := serverBits_ok hS hbp hL aes old0 slot xs seeds false tbl hfit
    obtain ⟨r0', e0', g0'⟩ := serverBits_ok hS hbp hL aes old0' slot xs' seeds' false tbl hfit'
    rw [e0] at h0
    rw [e0'] at h0'
    simp only [Out.ok.injEq] at h0 h0'
    subst h0 h0'
    apply shares_congr
    intro k q n hkS hne hq hn
    rw [g0 k q n hkS hne hq hn, g0' k q n hkS hne hq hn]
    unfold idealBits
    rw [← srvKey_at c aes slot xs seeds false k q (hfit k hkS) hq, hk k hkS,
      srvKey_at c aes slot xs' seeds' false k q (hfit' k hkS) hq]
  have hans : answerOf c tbl w bits0 (view0 c aes slot seeds xs tbl w bits1) m' =
      answerOf c tbl w bits0' (view0 c aes slot seeds xs tbl w bits1) m' := by
    unfold answerOf; rw [hsh]
  intro v hv
  constructor
  · intro hv1
    have ha := h5 v hv1
    rw [hans] at ha
    by_cases hex : ∃ u, Shifted tbl (c.binOff b) (c.binOff (b + 1)) (slot (xs'.getD i 0) j) u
    · obtain ⟨u, hu⟩ := hex
      have := h5' u hu
      rw [ha] at this
      rw [this]; exact hu
    · have := h6' fun u hu => hex ⟨u, hu⟩
      rw [ha] at this
      exact absurd this hv
  · intro hv1
    have ha := h5' v hv1
    rw [← hans] at ha
    by_cases hex : ∃ u, Shifted tbl (c.binOff b) (c.binOff (b + 1)) (slot (xs.getD i 0) j) u
    · obtain ⟨u, hu⟩ := hex
      have := h5 u hu
      rw [ha] at this
      rw [this]; exact hu
    · have := h6 fun u hu => hex ⟨u, hu⟩
      rw [ha] at this
      exact absurd this hv

/-! ### C127: random masks -/

/-- If masks and shuffle were drawn by client and second server, all that the first server receives except its DPF
keys would have the same distribution for all sets of the same size (big blocks of one slot), whatever the bits of the
second server.
Missing: the code draws nothing (theorems above); the DPF keys, whose secrecy rests on the PRG (C116); big blocks of
other sizes, for which the permutation shows more (next theorem). -/
theorem C127_hidden_partial (c : Params) (slot : Block → Nat → Nat) (xs xs' : List Block) (tbl : List (Nat × Block))
    (bits bits' : Nat → Nat → Nat → Bool) (sigma : Nat → List Nat) (hS : 0 < c.S) (hb : c.bb = 1) (hh : 0 < c.h)
    (hlen : xs.length = xs'.length)
    (hslot : ∀ x ∈ xs, ∀ j : Nat, j < c.h → slot x j < c.N) (hslot' : ∀ x ∈ xs', ∀ j : Nat, j < c.h → slot x j < c.N)
    (hfit : ∀ b : Nat, b < c.S → (bin c slot xs b).length ≤ c.L)
    (hfit' : ∀ b : Nat, b < c.S → (bin c slot xs' b).length ≤ c.L)
    (hsig : ∀ i : Nat, i < xs.length → ∀ v ∈ sigma i, v < c.h) :
    ((PMF.uniformOfFintype (Equiv.Perm (Fin c.permSize) × (Fin c.permSize → Block) × (Fin c.permSize → Block) ×
      (Fin c.permSize → Block))).map fun z =>
      (pi1SigmaRS c xs.length (mkRand _ sigma z), pi0 c slot xs (mkRand _ sigma z), piS0 c slot xs (mkRand _ sigma z),
        otherShares c tbl (mkRand _ sigma z) bits)) =
    (PMF.uniformOfFintype (Equiv.Perm (Fin c.permSize) × (Fin c.permSize → Block) × (Fin c.permSize → Block) ×
      (Fin c.permSize → Block))).map fun z =>
      (pi1SigmaRS c xs'.length (mkRand _ sigma z), pi0 c slot xs' (mkRand _ sigma z), piS0 c slot xs' (mkRand _ sigma z),
        otherShares c tbl (mkRand _ sigma z) bits') :=
  hidden hS hb hh hlen hslot hslot' hfit hfit' hsig

/-- Whatever the masks: `pi0` has equal entries exactly where the client uses the same mask. -/
theorem C127_repeats (c : Params) (slot : Block → Nat → Nat) (xs : List Block) (w : Rand)
    (hw : w.pi1.Perm (List.range c.permSize)) (m m' : Nat) (hm : m < c.permSize) (hm' : m' < c.permSize)
    (hlt : (pi c slot xs).getD m 0 < c.permSize) (hlt' : (pi c slot xs).getD m' 0 < c.permSize) :
    (pi0 c slot xs w).getD m 0 = (pi0 c slot xs w).getD m' 0 ↔ (pi c slot xs).getD m 0 = (pi c slot xs).getD m' 0 := by
  unfold pi0
  rw [getD_map_range _ _ _ _ hm, getD_map_range _ _ _ _ hm']
  constructor
  · intro h
    have h1 := (pi1Inv_spec hw hlt).2
    rw [h, (pi1Inv_spec hw hlt').2] at h1
    exact h1.symm
  · intro h; rw [h]

/-- With the default size of the big blocks the first server tells two sets of one item apart, whatever masks and
shuffle. -/
theorem C127_big_blocks : ∃ (c : Params) (slot : Block → Nat → Nat) (xs xs' : List Block), c.bb = 8 ∧ 0 < c.S ∧
    xs.length = xs'.length ∧ (∀ x ∈ xs, ∀ j : Nat, j < c.h → slot x j < c.N) ∧
    (∀ x ∈ xs', ∀ j : Nat, j < c.h → slot x j < c.N) ∧ (∀ b : Nat, b < c.S → (bin c slot xs b).length ≤ c.L) ∧
    (∀ b : Nat, b < c.S → (bin c slot xs' b).length ≤ c.L) ∧
    ∀ w w' : Rand, w.pi1.Perm (List.range c.permSize) → w'.pi1.Perm (List.range c.permSize) →
      pi0 c slot xs w ≠ pi0 c slot xs' w' := by
  refine ⟨⟨64, 1, 4, 8, 2⟩, fun x j => x.toNat + j, [2, 0], [1, 3], rfl, by decide, rfl, ?_, ?_, ?_, ?_, ?_⟩
  · intro x hx j hj
    have hj' : j < 2 := hj
    simp only [List.mem_cons, List.not_mem_nil, or_false] at hx
    rcases hx with rfl | rfl
    · show 2 + j < 64; omega
    · show 0 + j < 64; omega
  · intro x hx j hj
    have hj' : j < 2 := hj
    simp only [List.mem_cons, List.not_mem_nil, or_false] at hx
    rcases hx with rfl | rfl
    · show 1 + j < 64; omega
    · show 3 + j < 64; omega
  · intro b hb
    have h : b < 1 := hb
    have : b = 0 := by omega
    subst this; decide +kernel
  · intro b hb
    have h : b < 1 := hb
    have : b = 0 := by omega
    subst this; decide +kernel
  · intro w w' hw hw' he
    have h1 := (C127_repeats ⟨64, 1, 4, 8, 2⟩ (fun x j => x.toNat + j) [2, 0] w hw 0 2 (by decide) (by decide)
      (by decide +kernel) (by decide +kernel)).mpr (by decide +kernel)
    rw [he] at h1
    have h2 := (C127_repeats ⟨64, 1, 4, 8, 2⟩ (fun x j => x.toNat + j) [1, 3] w' hw' 0 2 (by decide) (by decide)
      (by decide +kernel) (by decide +kernel)).mp h1
    exact absurd h2 (by decide +kernel)

/-! ### C127: examples -/

/-- The bits that the hypotheses of the theorems name exist (sets as in the example of C126). -/
example : ∃ bits0 bits1,
    serverBits ⟨4, 1, 6, 1, 3⟩ exAes exMulti [(0, 4), (2, 6)] (keyMsg ⟨4, 1, 6, 1, 3⟩ exAes (slotOf (fun _ => 0) 4) [4, 9]
      (fun b k => (BitVec.ofNat 128 b, BitVec.ofNat 128 k)) false) = .ok bits0 ∧
    serverBits ⟨4, 1, 6, 1, 3⟩ exAes exMulti [(0, 4), (2, 6)] (keyMsg ⟨4, 1, 6, 1, 3⟩ exAes (slotOf (fun _ => 0) 4) [4, 9]
      (fun b k => (BitVec.ofNat 128 b, BitVec.ofNat 128 k)) true) = .ok bits1 := by
  obtain ⟨b0, b1, h0, h1, _⟩ := C126_bits ⟨4, 1, 6, 1, 3⟩ (by decide) (by decide) (by decide) exAes exMulti exMulti
    (slotOf (fun _ => 0) 4) [4, 9] (fun b k => (BitVec.ofNat 128 b, BitVec.ofNat 128 k)) [(0, 4), (2, 6)]
    (fun x _ j _ => slotOf_lt _ (by decide) x j) (by
      intro b hb
      have h : b < 1 := hb
      have : b = 0 := by omega
      subst this; decide +kernel)
  exact ⟨b0, b1, h0, h1⟩

/-- The table is as required and 4 is in slot 0, the first of the region. -/
example : TableOk ⟨4, 1, 6, 1, 3⟩ (slotOf (fun _ => 0) 4) [(0, 4), (2, 6)] ∧
    ((exRand 6).pi1.Perm (List.range (Params.permSize ⟨4, 1, 6, 1, 3⟩))) ∧
    (pi ⟨4, 1, 6, 1, 3⟩ (slotOf (fun _ => 0) 4) [4, 9]) = [0, 1, 2, 3, 4, 5] := by
  refine ⟨⟨by decide, by decide, ?_⟩, List.Perm.refl _, by decide +kernel⟩
  intro x hx
  simp only [List.mem_cons, List.not_mem_nil, or_false] at hx
  rcases hx with rfl | rfl
  · exact ⟨0, by decide, by decide +kernel⟩
  · exact ⟨0, by decide, by decide +kernel⟩

/-- Two sets that `C127_told_apart` tells apart: item 4 hits slot 0, which holds 4; item 5 asks slot 1, which is empty. -/
example : Shifted [(0, 4), (2, 6)] 0 4 (slotOf (fun _ => 0) 4 4 0) 4 ∧
    ¬ Shifted [(0, 4), (2, 6)] 0 4 (slotOf (fun _ => 0) 4 5 0) 4 := by
  have h0 : slotOf (fun _ => 0) 4 4 0 = 0 := by decide +kernel
  have h1 : slotOf (fun _ => 0) 4 5 0 = 1 := by decide +kernel
  rw [h0, h1]
  refine ⟨⟨0, ⟨by decide, by decide, ⟨4, by decide⟩, by intro x _ _ _; exact Nat.zero_le _⟩, by decide, by decide⟩, ?_⟩
  rintro ⟨f, ⟨_, _, ⟨v, hv⟩, hf⟩, _, h3⟩
  have hf0 := hf (0, 4) (by decide) (by decide) (by decide)
  have : f = 0 := by simpa using hf0
  subst this
  have h4 : ((0 + (1 - 0), 4) : Nat × Block) ∉ ([(0, 4), (2, 6)] : List (Nat × Block)) := by decide
  exact h4 h3

end Verif.Drrn
