import Verif.Rr16Lemmas
/-
Properties C33 - C35, C63 of the RR16 protocol.
-/
namespace Verif.Rr16
open Verif Part

/-! ### vocabulary of the statements -/

/-- `p` is a position of some item of `R`. -/
def IsSet (hash : Block → List Nat) (bf : Nat) (R : List Block) (p : Nat) : Prop :=
  p < bf ∧ ∃ x ∈ R, ∃ v ∈ hash x, v % bf = p

/-- The receiver's OT lists: different numbers below `total`, at most `2^32` OTs. -/
structure OtLists (zeros ones : List Nat) (total : Nat) : Prop where
  distinct : (zeros ++ ones).Nodup
  below : ∀ p ∈ zeros ++ ones, p < total
  fits : total ≤ 2 ^ 32

/-- Number of set positions. -/
def setCount (hash : Block → List Nat) (bf : Nat) (R : List Block) : Nat :=
  ((List.range bf).filter fun p => R.any fun x => (hash x).any fun v => v % bf == p).length

/-- The mask of an item under a map to OTs. -/
def itemMask (hash : Block → List Nat) (bf : Nat) (perm : List Nat) (msgs : Nat → Bool → Block)
    (x : Block) : Block :=
  (hash x).foldl (fun acc v => acc ^^^ msgs (perm.getD (v % bf) 0) true) 0

theorem bloom_length (hash : Block → List Nat) (bf : Nat) (R : List Block) :
    (bloom hash bf R).length = bf := by simp [bloom]

theorem bloom_get (hash : Block → List Nat) (bf : Nat) (R : List Block) (p : Nat) :
    (bloom hash bf R)[p]? = some true ↔ IsSet hash bf R p := by
  unfold bloom IsSet positions
  by_cases h : p < bf
  · simp only [List.getElem?_map, List.getElem?_range h, Option.map_some, Option.some_inj, h, true_and]
    simp
  · rw [List.getElem?_eq_none (by simp; omega)]
    simp [h]

theorem bloom_count (hash : Block → List Nat) (bf : Nat) (R : List Block) :
    (bloom hash bf R).count true = setCount hash bf R := by
  unfold bloom setCount positions
  rw [List.count, List.countP_map, List.countP_eq_length_filter]
  congr 1
  apply List.filter_congr
  intro p _
  simp only [Function.comp]
  rw [Bool.eq_iff_iff]
  simp

/-! ### C33 -/

/-- C33. If there are enough OTs, the map that the receiver sends has an entry for every position, maps every
set position to an OT in which the receiver chose 1, and uses no OT twice. -/
theorem C33_permutation (hash : Block → List Nat) (bf total : Nat) (zeros ones : List Nat) (R : List Block)
    (hot : OtLists zeros ones total) (h1 : setCount hash bf R ≤ ones.length)
    (h2 : bf ≤ zeros.length + ones.length) :
    ∃ perm, permute hash bf total zeros ones R = .ok perm ∧ perm.length = bf ∧ perm.Nodup ∧
      (∀ i ∈ perm, i ∈ zeros ++ ones) ∧
      (∀ p, IsSet hash bf R p → ∃ o ∈ ones, perm[p]? = some o) := by
  obtain ⟨r, e, h⟩ := build_ok (bloom hash bf R) zeros ones (by rw [bloom_count]; exact h1)
    (by rw [bloom_length]; exact h2)
  obtain ⟨rest, hp⟩ := h.once
  have hmem : ∀ i ∈ r, i ∈ zeros ++ ones := fun i hi =>
    hp.mem_iff.mp (List.mem_append.mpr (.inl hi))
  have hcast : r.map (· % 2 ^ 32) = r := by
    conv => rhs; rw [← List.map_id r]
    apply List.map_congr_left
    intro i hi
    have := hot.below i (hmem i hi)
    have := hot.fits
    exact Nat.mod_eq_of_lt (by omega)
  refine ⟨r, ?_, ?_, ?_, hmem, ?_⟩
  · unfold permute
    rw [if_neg (by have := hot.fits; omega), e]
    show Out.ok _ = _
    rw [hcast]
  · rw [h.length, bloom_length]
  · exact (List.nodup_append.mp (hp.nodup_iff.mpr hot.distinct)).1
  · intro p hs
    exact h.ones p ((bloom_get hash bf R p).mpr hs)

/-- C33. With too few OTs the receiver reads past the end of its list. -/
theorem C33_too_few (hash : Block → List Nat) (bf total : Nat) (zeros ones : List Nat) (R : List Block)
    (ht : total ≤ 2 ^ 32)
    (h : ones.length < setCount hash bf R ∨ zeros.length + ones.length < bf) :
    permute hash bf total zeros ones R = .ub := by
  unfold permute
  rw [if_neg (by omega), build_ub]
  · rfl
  · rw [bloom_count, bloom_length]; omega

/-- Three hash values per item. -/
def demoHash (x : Block) : List Nat := [x.toNat, x.toNat * 3 + 1, x.toNat * 5 + 2]

example : permute demoHash 8 20 [1, 3, 5, 7, 9] [2, 4, 6, 8, 10] [1#128, 2] = .ok [1, 2, 4, 3, 6, 5, 7, 8] ∧
    OtLists [1, 3, 5, 7, 9] [2, 4, 6, 8, 10] 20 ∧ setCount demoHash 8 [1#128, 2] = 4 := by
  refine ⟨by decide +kernel, ⟨by decide, by decide, by decide⟩, by decide +kernel⟩

/-! ### C34 -/

/-- Assumptions on an honest run. -/
structure Honest (zeros ones : List Nat) (total n T : Nat) (sampled : Nat → Bool) (msgs : Nat → Bool → Block)
    (recvd : Nat → Block) (ord tord : List Nat) (S R : List Block) : Prop where
  lists : OtLists zeros ones total
  unopened : ∀ p ∈ zeros ++ ones, sampled p = false
  received : ∀ p ∈ ones, recvd p = msgs p true
  sizeS : S.length = n
  sizeR : R.length = n
  threads : 0 < T
  noWrap : n * T < 2 ^ 64
  order : ord.Perm (List.range n)
  order' : tord.Perm (List.range T)

/-- C34. With enough OTs the run succeeds with some map to OTs. For this map: an index is reported only if its
mask agrees in the first eight bytes with the mask of a sender's item; if no two items of the receiver have
masks that agree in these bytes, every common item is reported. -/
theorem C34_correct (checked : Bool) (hash : Block → List Nat) (bf total n T : Nat) (sampled : Nat → Bool)
    (msgs : Nat → Bool → Block) (recvd : Nat → Block) (zeros ones ord tord : List Nat) (S R : List Block)
    (hh : Honest zeros ones total n T sampled msgs recvd ord tord S R) (hbf : 0 < bf)
    (h1 : setCount hash bf R ≤ ones.length) (h2 : bf ≤ zeros.length + ones.length) :
    ∃ perm out, permute hash bf total zeros ones R = .ok perm ∧
      run checked hash bf total n T sampled msgs recvd zeros ones ord tord S R = .ok out ∧
      (∀ i ∈ out, ∃ y, R[i]? = some y ∧ ∃ x ∈ S,
        (itemMask hash bf perm msgs x).toNat % 2 ^ 64 = (itemMask hash bf perm msgs y).toNat % 2 ^ 64) ∧
      ((∀ (i j : Nat) x y, R[i]? = some x → R[j]? = some y →
          (itemMask hash bf perm msgs x).toNat % 2 ^ 64 = (itemMask hash bf perm msgs y).toNat % 2 ^ 64 → i = j) →
        ∀ (i : Nat) x, R[i]? = some x → x ∈ S → i ∈ out) := by
  obtain ⟨perm, ep, hlen, hnd, hmem, hset⟩ := C33_permutation hash bf total zeros ones R hh.lists h1 h2
  have hlt : ∀ i ∈ perm, i < total := fun i hi => hh.lists.below i (hmem i hi)
  -- the sender
  have hsend : send checked hash bf total n sampled msgs perm S =
      .sends (S.map (itemMask hash bf perm msgs)) := by
    unfold send
    rw [if_neg (by have := hh.sizeS; omega), if_neg (by omega), if_neg (by omega), if_neg, check_spec total perm _ hlt]
    · have : decide (perm.Nodup ∧ ∀ i ∈ perm, sampled i = false) = true := by
        rw [decide_eq_true_eq]
        exact ⟨hnd, fun i hi => hh.unopened i (hmem i hi)⟩
      rw [this]
      show Verdict.sends _ = _
      congr 1
      apply List.map_congr_left
      intro x _
      unfold sendMask itemMask positions
      rw [List.foldl_map]
    · rw [List.any_eq_true]
      intro ⟨x, _, hx⟩
      rw [List.any_eq_true] at hx
      obtain ⟨p, hp, hx⟩ := hx
      unfold positions at hp
      obtain ⟨v, _, rfl⟩ := List.mem_map.mp hp
      have hp' : v % bf < perm.length := by rw [hlen]; exact Nat.mod_lt _ hbf
      have : perm.getD (v % bf) 0 < total := by
        simp only [List.getD, List.getElem?_eq_getElem hp', Option.getD_some]
        exact hlt _ (List.getElem_mem hp')
      simp at hx
      simp only [List.getD] at this
      omega
  -- the receiver's masks
  have hrm : ∀ x ∈ R, recvMask hash bf perm recvd x = itemMask hash bf perm msgs x := by
    intro x hx
    unfold recvMask itemMask positions
    rw [maskLoop_eq, List.foldl_map]
    have key : ∀ (l : List Nat) (a : Block), (∀ v ∈ l, v ∈ hash x) →
        l.foldl (fun a v => a ^^^ recvd (perm.getD (v % bf) 0)) a =
        l.foldl (fun a v => a ^^^ msgs (perm.getD (v % bf) 0) true) a := by
      intro l
      induction l with
      | nil => intro a _; rfl
      | cons v l ih =>
        intro a hv
        obtain ⟨o, ho, eo⟩ := hset (v % bf)
          ⟨Nat.mod_lt _ hbf, x, hx, v, hv v (List.mem_cons_self ..), rfl⟩
        have hg : perm.getD (v % bf) 0 = o := by simp only [List.getD, eo, Option.getD_some]
        rw [List.foldl_cons, List.foldl_cons, hg, hh.received o ho]
        exact ih _ fun w hw => hv w (List.mem_cons_of_mem _ hw)
    exact key _ _ fun v hv => hv
  let masks := R.map (recvMask hash bf perm recvd)
  have hget : ∀ (i : Nat) y, R[i]? = some y → masks.getD i 0 = itemMask hash bf perm msgs y := by
    intro i y h
    simp only [masks, List.getD, List.getElem?_map, h, Option.map_some, Option.getD_some]
    exact hrm y (List.mem_of_getElem? h)
  refine ⟨perm, tord.flatMap fun t => matches_ (table masks ord)
    (chunk (S.map (itemMask hash bf perm msgs)) T t), ep, ?_, ?_, ?_⟩
  · unfold run
    rw [if_neg (by have := hh.sizeR; omega), if_neg (by omega), ep]
    show (match send checked hash bf total n sampled msgs perm S with
      | .ub => _
      | .throws => _
      | .terminates => _
      | .sends masks => _) = _
    rw [hsend]
  · intro i hi
    rw [List.mem_flatMap] at hi
    obtain ⟨t, ht, hi⟩ := hi
    unfold matches_ at hi
    rw [List.mem_filterMap] at hi
    obtain ⟨b, hb, hi⟩ := hi
    have hb' : b ∈ S.map (itemMask hash bf perm msgs) :=
      (mem_parts _ T hh.threads (by rw [List.length_map, hh.sizeS]; exact hh.noWrap) tord hh.order' b).mp
        ⟨t, ht, hb⟩
    obtain ⟨x, hx, ex⟩ := List.mem_map.mp hb'
    cases (table_spec (fun i => low (masks.getD i 0)) ord []).1 _ (find_mem hi) with
    | inl h => cases h
    | inr h =>
      have hin : i < R.length := by
        have := List.mem_range.mp (hh.order.mem_iff.mp h.1)
        have := hh.sizeR
        omega
      refine ⟨R[i], List.getElem?_eq_getElem hin, x, hx, ?_⟩
      have := h.2
      simp only at this
      rw [hget i _ (List.getElem?_eq_getElem hin), ← ex] at this
      exact this
  · intro hcoll i x hi hx
    have hin : i < n := by
      apply Classical.byContradiction
      intro hc
      rw [List.getElem?_eq_none (by have := hh.sizeR; omega)] at hi
      cases hi
    rw [List.mem_flatMap]
    obtain ⟨t, ht, hb⟩ := (mem_parts (S.map (itemMask hash bf perm msgs)) T hh.threads
      (by rw [List.length_map, hh.sizeS]; exact hh.noWrap) tord hh.order' (itemMask hash bf perm msgs x)).mpr
        (List.mem_map.mpr ⟨x, hx, rfl⟩)
    refine ⟨t, ht, ?_⟩
    unfold matches_
    rw [List.mem_filterMap]
    refine ⟨_, hb, ?_⟩
    have hne := (table_spec (fun i => low (masks.getD i 0)) ord []).2.2 i
      (hh.order.mem_iff.mpr (List.mem_range.mpr hin))
    rw [hget i x hi] at hne
    show find (table masks ord) _ = _
    cases e : find (table masks ord) (low (itemMask hash bf perm msgs x)) with
    | none => exact absurd e hne
    | some j =>
      cases (table_spec (fun i => low (masks.getD i 0)) ord []).1 _ (find_mem e) with
      | inl h => cases h
      | inr h =>
        have hjn : j < R.length := by
          have := List.mem_range.mp (hh.order.mem_iff.mp h.1)
          have := hh.sizeR
          omega
        have h2 := h.2
        simp only at h2
        rw [hget j _ (List.getElem?_eq_getElem hjn)] at h2
        rw [hcoll i j x R[j] hi (List.getElem?_eq_getElem hjn) h2]

/-- OT strings for the examples. -/
def demoMsgs (p : Nat) (b : Bool) : Block := BitVec.ofNat 128 (2 ^ p + if b then 2 ^ (70 + p) else 0)

def demoRecvd (p : Nat) : Block := demoMsgs p (p % 2 == 0)

example : run true demoHash 8 20 2 2 (fun p => p == 0) demoMsgs demoRecvd [1, 3, 5, 7, 9] [2, 4, 6, 8, 10]
    [1, 0] [0, 1] [2#128, 7] [1#128, 2] = .ok [1] := by decide +kernel

example : Honest [1, 3, 5, 7, 9] [2, 4, 6, 8, 10] 20 2 2 (fun p => p == 0) demoMsgs demoRecvd [1, 0] [0, 1]
    [2#128, 7] [1#128, 2] :=
  ⟨⟨by decide, by decide, by decide⟩, by decide, by decide +kernel, rfl, rfl, by decide, by decide,
    List.Perm.swap _ _ _, List.Perm.refl _⟩

/-- Only eight bytes are compared: different masks that agree in them give a wrong index (here the OT strings
differ only in the second half). -/
theorem C34_half_compared :
    run true demoHash 8 20 1 1 (fun _ => false) (fun p _ => BitVec.ofNat 128 (2 ^ (70 + p)))
      (fun p => BitVec.ofNat 128 (2 ^ (70 + p))) [1, 3, 5, 7, 9] [2, 4, 6, 8, 10]
      [0] [0] [7#128] [1#128] = .ok [0] := by decide +kernel

/-! ### C35 -/

/-- C35 for received maps without indices outside the range (the rest is in `C35_out_of_range`; rejection is
not an ordinary error but ends the process): the sender sends masks exactly if no OT is used twice and none
that was opened. -/
theorem C35_rejects_partial (checked : Bool) (hash : Block → List Nat) (bf total n : Nat)
    (sampled : Nat → Bool) (msgs : Nat → Bool → Block) (perm : List Nat) (S : List Block)
    (hbf : 0 < bf) (hS : S.length = n) (hp : perm.length = bf) (hr : ∀ i ∈ perm, i < total) :
    (perm.Nodup ∧ (∀ i ∈ perm, sampled i = false) →
      send checked hash bf total n sampled msgs perm S = .sends (S.map (itemMask hash bf perm msgs))) ∧
    (¬(perm.Nodup ∧ ∀ i ∈ perm, sampled i = false) →
      send checked hash bf total n sampled msgs perm S = .terminates) := by
  have hno : ¬ (S.any fun x => (positions hash bf x).any fun p => total ≤ perm.getD p 0) = true := by
    rw [List.any_eq_true]
    intro ⟨x, _, hx⟩
    rw [List.any_eq_true] at hx
    obtain ⟨p, hp', hx⟩ := hx
    unfold positions at hp'
    obtain ⟨v, _, rfl⟩ := List.mem_map.mp hp'
    have hp' : v % bf < perm.length := by rw [hp]; exact Nat.mod_lt _ hbf
    have : perm.getD (v % bf) 0 < total := by
      simp only [List.getD, List.getElem?_eq_getElem hp', Option.getD_some]
      exact hr _ (List.getElem_mem hp')
    simp at hx
    simp only [List.getD] at this
    omega
  refine ⟨fun h => ?_, fun h => ?_⟩
  · unfold send
    rw [if_neg (by omega), if_neg (by omega), if_neg (by omega), if_neg hno, check_spec total perm _ hr,
      decide_eq_true h]
    show Verdict.sends _ = _
    congr 1
    apply List.map_congr_left
    intro x _
    unfold sendMask itemMask positions
    rw [List.foldl_map]
  · unfold send
    rw [if_neg (by omega), if_neg (by omega), if_neg (by omega), if_neg hno, check_spec total perm _ hr,
      decide_eq_false h]

/-- C35 fails for indices outside the range: the sender's threads read `mMessages` there. Witness: the second
entry of the map is used by the sender's only item. -/
theorem C35_out_of_range :
    send true (fun _ => [1]) 2 10 1 (fun _ => false) demoMsgs [0, 4000000000] [1#128] = .ub := by
  decide +kernel

example : send true demoHash 4 10 1 (fun p => p == 3) demoMsgs [0, 1, 2, 4] [1#128] ≠ .terminates ∧
    send true demoHash 4 10 1 (fun p => p == 3) demoMsgs [0, 1, 2, 3] [1#128] = .terminates ∧
    send true demoHash 4 10 1 (fun p => p == 3) demoMsgs [0, 1, 1, 4] [1#128] = .terminates := by
  decide +kernel

/-! ### C63 -/

/-- C63, one thread: every item is hashed with its own values. (With more threads the property fails, see
`C63_race`.) -/
theorem C63_single_partial (items : List Block) (k : Nat) (hn : items.length < 2 ^ 64)
    (hk : 2 * items.length ≤ k) : hashPhase items 1 (List.replicate k 0) = some items := by
  have hp : part items 1 0 = items := by
    have := flatMap_part items 1 (by omega) (by omega)
    simpa using this
  have := hash_single items k (HSt.mk 0 (part items 1) (fun _ => false) (fun _ => [])) hp rfl hk
  simp only at this
  have h1 := this.1
  have h2 := this.2
  unfold hashPhase
  generalize (List.replicate k 0).foldl hashStep _ = st at h1 h2 ⊢
  simp only at h2 ⊢
  rw [if_pos (by simp [h1])]
  simp [h2]

/-- C63, several threads whose writes and reads of the buffer do not interleave. -/
theorem C63_atomic_partial (items : List Block) (T : Nat) (hT : 0 < T) (hov : items.length * T < 2 ^ 64)
    (ts : List Nat) (src : List Block)
    (h : hashPhase items T (ts.flatMap fun t => [t, t]) = some src) : src = items := by
  have hc : Calm items T (HSt.mk 0 (part items T) (fun _ => false) (fun _ => [])) := fun t => ⟨rfl, rfl⟩
  have := calm_sched ts hc
  unfold hashPhase at h
  simp only at h
  split at h
  · rename_i ha
    injection h with h
    rw [← h]
    rw [List.all_eq_true] at ha
    conv => rhs; rw [← flatMap_part items T hT hov]
    have key : ∀ l : List Nat, (∀ t ∈ l, t ∈ List.range T) →
        l.flatMap ((ts.flatMap fun t => [t, t]).foldl hashStep
          (HSt.mk 0 (part items T) (fun _ => false) (fun _ => []))).got = l.flatMap (part items T) := by
      intro l
      induction l with
      | nil => intro _; rfl
      | cons t l ih =>
        intro hl
        rw [List.flatMap_cons, List.flatMap_cons, ih fun u hu => hl u (List.mem_cons_of_mem _ hu)]
        have e := ha t (hl t (List.mem_cons_self ..))
        have e2 := (this t).2
        rw [List.isEmpty_iff.mp e, List.append_nil] at e2
        rw [e2]
    exact key _ fun t ht => ht
  · cases h

/-- C63 fails: with two threads and this schedule the receiver uses the values of its second item for both
items, and the common first item is not reported. -/
theorem C63_race :
    hashPhase [1#128, 2] 2 [0, 1, 0, 1] = some [2, 2] ∧
    hashPhase [1#128, 7] 2 [0, 0, 1, 1] = some [1, 7] ∧
    run true demoHash 8 20 2 2 (fun _ => false) demoMsgs demoRecvd [1, 3, 5, 7, 9] [2, 4, 6, 8, 10]
      [0, 1] [0, 1] [1#128, 7] [2#128, 2] = .ok [] ∧
    run true demoHash 8 20 2 2 (fun _ => false) demoMsgs demoRecvd [1, 3, 5, 7, 9] [2, 4, 6, 8, 10]
      [0, 1] [0, 1] [1#128, 7] [1#128, 2] = .ok [0] := by
  decide +kernel

end Verif.Rr16
