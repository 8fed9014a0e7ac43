import Verif.PrtyDeltaRounds
import Verif.PartProps
/-!
# Properties C80, C81 and C82: PRTY's masks sent as differences

Full statement C80: for every set of masks and every message, the receiver reports the index of a
local mask exactly if the mask is among the masks sent (up to the bytes compared).  It is false of
the code in three ways that are shown here: the last mask is dropped if the message is exactly
full, local masks with equal first four bytes shadow each other, and equal consecutive masks
are taken for the escape sign.  The theorems ending in `_partial` exclude these cases.

Full statement C81: sender and receiver access their buffers inside.  False for every message.

Full statement C82: every mask is in exactly one message.  False.
-/
namespace Verif.PrtyDelta
open Verif Prty

/-- **C80, soundness.**  For a message that is not exactly full: every reported index belongs to a
local mask that agrees on at least `h` bytes with a mask sent, or that is zero on the `n` bytes
compared. -/
theorem C80_sound (h n cap : Nat) (hh : 0 < h) (hhn : h ≤ n) (hn : n ≤ 16) (g : Block)
    (rest : List Block) (buf : List Byte) (hbuf : sendMsg h n cap g rest = .ok buf)
    (hd : NeighboursDiffer h (g :: rest)) (mem : Nat → Byte) (hmem : Holds mem buf)
    (u0 u1 : Block) (ms : List (Block × Nat)) (idx : Nat)
    (hidx : idx ∈ matchMsg h n (localMasks ms) mem buf.length u0 u1) :
    ∃ m : Block, (m, idx) ∈ ms ∧
      ((∃ x ∈ g :: rest, SameBytes h x m) ∨ SameBytes n m 0) := by
  obtain ⟨L, extra, hr, hex, hlt, heq⟩ := rounds_shape h n cap hh hhn hn g rest buf hbuf hd mem
    hmem u0 u1
  unfold matchMsg at hidx
  rw [List.mem_filterMap] at hidx
  obtain ⟨s, hs, hm⟩ := hidx
  obtain ⟨m, hmm, hag⟩ := matchRound_sound h n ms s idx hm
  refine ⟨m, hmm, ?_⟩
  rw [hr, List.mem_append] at hs
  have hfrom : ∀ l : List Block, (∀ x ∈ l, x ∈ g :: rest) → List.Forall₂ (Shows h n) L l →
      s ∈ L → ∃ x ∈ g :: rest, SameBytes h x m := by
    intro l hl hL hsL
    obtain ⟨x, hx, hsx⟩ := forall₂_mem_left hL s hsL
    refine ⟨x, hl x hx, ?_⟩
    have : Agree h x m :=
      (Agree.mono (maskLength_ge h n hhn s) hsx).symm.trans
        (Agree.mono (maskLength_ge h n hhn s) hag)
    exact (agree_iff_bytes h x m).1 this
  rcases hs with hs | hs
  · left
    have hle : used h n g rest ≤ cap := by
      unfold sendMsg at hbuf
      simp only at hbuf
      split at hbuf
      case isFalse => cases hbuf
      case isTrue hle => simpa [used, bytes_length] using hle
    rcases Nat.lt_or_eq_of_le hle with h1 | h1
    · exact hfrom _ (fun x hx => hx) (hlt h1) hs
    · exact hfrom _ (fun x hx => (List.dropLast_sublist _).subset hx) (heq h1).1 hs
  · right
    obtain ⟨ho, hz⟩ := hex s hs
    have : maskLength h n s = n := by simp [maskLength, ho]
    rw [this] at hag
    exact (agree_iff_bytes n m 0).1 (hag.symm.trans hz)

/-- **C80, completeness (partial).**  If the message has room behind the last difference,
neighbouring masks differ in the first `h` bytes, and the local masks differ in the first four
bytes, every local mask that is sent is reported. -/
theorem C80_complete_partial (h n cap : Nat) (hh : 4 ≤ h) (hhn : h ≤ n) (hn : n ≤ 16) (g : Block)
    (rest : List Block) (buf : List Byte) (hbuf : sendMsg h n cap g rest = .ok buf)
    (hroom : used h n g rest < cap)
    (hd : NeighboursDiffer h (g :: rest)) (mem : Nat → Byte) (hmem : Holds mem buf)
    (u0 u1 : Block) (ms : List (Block × Nat))
    (hkeys : (ms.map fun p => p.1.setWidth 32).Nodup) (x : Block) (idx : Nat)
    (hx : x ∈ g :: rest) (hxm : (x, idx) ∈ ms) :
    idx ∈ matchMsg h n (localMasks ms) mem buf.length u0 u1 := by
  obtain ⟨L, extra, hr, _, hlt, _⟩ := rounds_shape h n cap (by omega) hhn hn g rest buf hbuf hd mem
    hmem u0 u1
  obtain ⟨s, hs, hsx⟩ := forall₂_mem_right (hlt hroom) x hx
  unfold matchMsg
  rw [List.mem_filterMap]
  refine ⟨s, by rw [hr]; exact List.mem_append_left _ hs, ?_⟩
  have hsx' : Agree (maskLength h n s) s.mask x := hsx
  have hkey : s.mask.setWidth 32 = x.setWidth 32 :=
    setWidth_eq_of_agree 32 (by have := maskLength_ge h n hhn s; omega) hsx'
  unfold matchRound
  rw [localMasks_all ms hkeys, hkey]
  have hfind : (ms.map fun p => (⟨p.1.setWidth 32, p.1, p.2⟩ : Entry)).find?
      (fun e => decide (e.key = x.setWidth 32)) = some ⟨x.setWidth 32, x, idx⟩ := by
    clear hr hs hsx hsx' hkey
    induction ms with
    | nil => simp at hxm
    | cons p ms ih =>
      rw [List.map_cons, List.nodup_cons] at hkeys
      rw [List.map_cons, List.find?_cons]
      rw [List.mem_cons] at hxm
      rcases hxm with rfl | hxm
      · simp
      · have hne : p.1.setWidth 32 ≠ x.setWidth 32 := by
          intro he
          apply hkeys.1
          rw [he]
          exact List.mem_map_of_mem (f := fun p : Block × Nat => p.1.setWidth 32) hxm
        simp only [hne, decide_false]
        exact ih hkeys.2 hxm
  rw [hfind]
  simp only
  rw [if_pos ((bytesEq_iff _ _ _).2 hsx')]

/-- **C80, failure 1.**  A message that is exactly full: only local masks that agree with one of
the masks before the last are reported. -/
theorem C80_last_missed (h n cap : Nat) (hh : 0 < h) (hhn : h ≤ n) (hn : n ≤ 16) (g : Block)
    (rest : List Block) (buf : List Byte) (hbuf : sendMsg h n cap g rest = .ok buf)
    (hfull : used h n g rest = cap)
    (hd : NeighboursDiffer h (g :: rest)) (mem : Nat → Byte) (hmem : Holds mem buf)
    (u0 u1 : Block) (ms : List (Block × Nat)) (idx : Nat)
    (hidx : idx ∈ matchMsg h n (localMasks ms) mem buf.length u0 u1) :
    ∃ m : Block, (m, idx) ∈ ms ∧ ∃ x ∈ (g :: rest).dropLast, SameBytes h x m := by
  obtain ⟨L, extra, hr, _, _, heq⟩ := rounds_shape h n cap hh hhn hn g rest buf hbuf hd mem
    hmem u0 u1
  obtain ⟨hL, rfl⟩ := heq hfull
  unfold matchMsg at hidx
  rw [List.mem_filterMap, hr, List.append_nil] at hidx
  obtain ⟨s, hs, hm⟩ := hidx
  obtain ⟨m, hmm, hag⟩ := matchRound_sound h n ms s idx hm
  obtain ⟨x, hx, hsx⟩ := forall₂_mem_left hL s hs
  refine ⟨m, hmm, x, hx, ?_⟩
  have hsx' : Agree (maskLength h n s) s.mask x := hsx
  exact (agree_iff_bytes h x m).1
    ((Agree.mono (maskLength_ge h n hhn s) hsx').symm.trans
      (Agree.mono (maskLength_ge h n hhn s) hag))

/-- **C80, failure 2.**  Of two local masks with the same first four bytes, only the first one
inserted can be reported, whatever the sender sends. -/
theorem C80_shadowed (h n : Nat) (a b : Block) (hab : a.setWidth 32 = b.setWidth 32)
    (mem : Nat → Byte) (size : Nat) (u0 u1 : Block) :
    1 ∉ matchMsg h n (localMasks [(a, 0), (b, 1)]) mem size u0 u1 := by
  intro hidx
  unfold matchMsg at hidx
  rw [List.mem_filterMap] at hidx
  obtain ⟨s, _, hm⟩ := hidx
  have hl : localMasks [(a, 0), (b, 1)] = [⟨a.setWidth 32, a, 0⟩] := by
    simp [localMasks, emplace, hab]
  rw [hl] at hm
  unfold matchRound at hm
  split at hm
  case h_2 => cases hm
  case h_1 e he =>
    have := List.mem_of_find?_eq_some he
    rw [List.mem_singleton] at this
    split at hm
    · injection hm with hm
      rw [this] at hm
      simp at hm
    · cases hm

/-- **C80, failure 3.**  Masks 5, 5, 9 (the first two equal, as for an input given twice): mask 9
is sent, has a local mask, and is not reported. -/
theorem C80_equal_masks : ∃ buf : List Byte, sendMsg 6 7 100 5 [5, 9] = .ok buf ∧
    0 ∉ matchMsg 6 7 (localMasks [(9, 0)]) (memOf buf) buf.length 0 0 := by
  refine ⟨_, rfl, ?_⟩
  decide +kernel

/-- The theorems apply: masks 5 and 9 in a message of 100 bytes. -/
example : ∃ buf : List Byte, sendMsg 6 7 100 5 [9] = .ok buf ∧
    matchMsg 6 7 (localMasks [(9, 0), (6, 1), (5, 2)]) (memOf buf) buf.length 77 78 = [2, 0] := by
  refine ⟨_, rfl, ?_⟩
  decide +kernel

/-- A message that is exactly full: mask 9 is missed. -/
example : ∃ buf : List Byte, sendMsg 6 7 13 5 [9] = .ok buf ∧
    matchMsg 6 7 (localMasks [(9, 0), (6, 1), (5, 2)]) (memOf buf) buf.length 77 78 = [2] := by
  refine ⟨_, rfl, ?_⟩
  decide +kernel

/-! ### C81: buffers -/

/-- **C81, sender (partial).**  The sender stays inside its buffer exactly if first mask,
differences and masks sent in full fit. -/
theorem C81_sender_iff_partial (h n cap : Nat) (hh : h ≤ 16) (g : Block) (rest : List Block) :
    sendMsg h n cap g rest ≠ .ub ↔ n + rest.length * h + escapes h g rest * n ≤ cap := by
  rw [← used_eq h n hh]
  unfold sendMsg used
  simp only [List.length_append, bytes_length]
  split <;> simp_all

/-- **C81, sender.**  With the capacity of the code (`outputBigPoly`): fewer than `50 n / h`
differences are always written behind the buffer.  (For `h = 7`, `n = 8`: up to 57 differences.) -/
theorem C81_sender_outside (h n : Nat) (hh : h ≤ 16) (g : Block) (rest : List Block)
    (hsmall : rest.length * h < 50 * n) :
    sendMsg h n (capacity h rest.length) g rest = .ub := by
  by_contra hc
  have h1 := (C81_sender_iff_partial h n (capacity h rest.length) hh g rest).1 hc
  unfold capacity at h1
  generalize rest.length * h = k at h1 hsmall
  omega

/-- **C81, sender.**  The same for `outputBestComm`, where the capacity is computed from the number
of masks. -/
theorem C81_sender_outside_bestComm (h n : Nat) (hh : h ≤ 16) (g : Block) (rest : List Block)
    (hsmall : (rest.length + 1) * h + 50 * h < 50 * n) :
    sendMsg h n (capacity h (rest.length + 1)) g rest = .ub := by
  by_contra hc
  have h1 := (C81_sender_iff_partial h n (capacity h (rest.length + 1)) hh g rest).1 hc
  unfold capacity at h1
  rw [Nat.add_mul, Nat.one_mul] at h1 hsmall
  generalize rest.length * h = k at h1 hsmall
  omega

/-- **C81, receiver.**  For every message whatsoever the receiver reads behind the received
buffer: the next difference is read before the loop condition is tested. -/
theorem C81_receiver_outside (h n : Nat) (hh : 0 < h) (hhn : h ≤ n) (mem : Nat → Byte)
    (size : Nat) (u0 u1 : Block) :
    ∃ r ∈ reads h n mem size u0 u1, size < r.1 + r.2 := by
  have key : ∀ (f : Nat) (s : RSt), size < f + s.it → s.it < size →
      ∃ r ∈ (states h n mem size f s).flatMap (stepReads h n), size < r.1 + r.2 := by
    intro f
    induction f with
    | zero => intro s h1 h2; omega
    | succ f ih =>
      intro s h1 h2
      have hi := step_it h n mem s
      rw [states, if_pos h2, List.flatMap_cons]
      by_cases h3 : (step h n mem s).it < size
      · obtain ⟨r, hr, hr'⟩ := ih (step h n mem s) (by omega) h3
        exact ⟨r, List.mem_append_right _ hr, hr'⟩
      · unfold stepReads
        unfold step at h3
        by_cases he : isEscape h s
        · rw [if_pos he] at h3 ⊢
          simp only at h3
          exact ⟨(s.it + h + n, n), by simp, by simp only; omega⟩
        · rw [if_neg he] at h3 ⊢
          simp only at h3
          exact ⟨(s.it + h, h), by simp, by simp only; omega⟩
  unfold reads rounds
  by_cases h1 : n < size
  · obtain ⟨r, hr, hr'⟩ := key (size + 1) (start n mem u0 u1) (by simp only [start]; omega)
      (by simpa [start] using h1)
    exact ⟨r, by simp only [List.mem_cons]; exact Or.inr (Or.inr hr), hr'⟩
  · exact ⟨(n, n), by simp, by simp only; omega⟩

/-- Both statements on a small message. -/
example : sendMsg 6 7 (capacity 6 1) 5 [9] = .ub := by decide +kernel
example : (61, 6) ∈ reads 6 7 (fun i => if i < 100 then 1 else 0) 61 0 0 := by decide +kernel

/-! ### C82: the masks of the messages -/

/-- **C82 (partial).**  With at least two masks per thread every mask is in some message, and no
other entry is read. -/
theorem C82_covered_partial (step N T : Nat) (hs : 0 < step) (hT : 0 < T) (hov : N * T < 2 ^ 64)
    (hN : 2 * T ≤ N) (i : Nat) : i ∈ sentMasks step N T ↔ i < N := by
  have hb := Part.C31_scaled_ranges N T hT hov
  unfold sentMasks
  rw [List.mem_flatMap]
  have hr : i < N ↔ ∃ t ∈ List.range T, i ∈ Part.interval (Part.bound N T t) (Part.bound N T (t + 1)) := by
    rw [← List.mem_flatMap, hb, List.mem_range]
  rw [hr]
  constructor
  · rintro ⟨t, ht, h⟩
    refine ⟨t, ht, ?_⟩
    rw [mem_chunks step N T t hs (two_masks N T t hT hov hN (by simpa using ht))
      (bound_le N T t hT hov (by simpa using ht)) (Nat.lt_of_le_of_lt (Nat.le_mul_of_pos_right N hT) hov)] at h
    rw [mem_interval]; exact h
  · rintro ⟨t, ht, h⟩
    refine ⟨t, ht, ?_⟩
    rw [mem_chunks step N T t hs (two_masks N T t hT hov hN (by simpa using ht))
      (bound_le N T t hT hov (by simpa using ht)) (Nat.lt_of_le_of_lt (Nat.le_mul_of_pos_right N hT) hov)]
    rw [mem_interval] at h; exact h

/-- **C82 (partial).**  If moreover one message per thread is enough, every mask is sent once, in
order. -/
theorem C82_once_partial (step N T : Nat) (hs : 0 < step) (hT : 0 < T) (hov : N * T < 2 ^ 64)
    (hN : 2 * T ≤ N) (hstep : N ≤ step * T) : sentMasks step N T = List.range N := by
  rw [← Part.C31_scaled_ranges N T hT hov]
  unfold sentMasks
  rw [List.flatMap_def, List.flatMap_def]
  congr 1
  apply List.map_congr_left
  intro t ht
  have ht' : t < T := by simpa using ht
  exact one_chunk step N T t hs (two_masks N T t hT hov hN ht') (bound_le N T t hT hov ht')
    (Nat.lt_of_le_of_lt (Nat.le_mul_of_pos_right N hT) hov) (range_le step N T t hT hov hstep ht')

/-- **C82, failure 1.**  A thread with a single mask sends nothing. -/
theorem C82_single (step N T t : Nat) (hT : 0 < T) (hov : N * T < 2 ^ 64) (ht : t < T)
    (h1 : Part.bound N T (t + 1) = Part.bound N T t + 1) : chunks step N T t = [] := by
  have h2 := bound_le N T t hT hov ht
  have h3 : N < 2 ^ 64 := Nat.lt_of_le_of_lt (Nat.le_mul_of_pos_right N hT) hov
  unfold chunks
  simp only
  rw [Nat.min_eq_left h2, h1, minusOne_succ _ (by omega), Nat.sub_self, Nat.zero_add]
  have : (step - 1) / step = 0 := by
    rcases Nat.eq_zero_or_pos step with rfl | h
    · simp
    · exact Nat.div_eq_of_lt (by omega)
  rw [this]
  rfl

/-- **C82, failure 1.**  With as many threads as masks no mask is sent at all. -/
theorem C82_nothing_sent (step N : Nat) (hN : 0 < N) (hov : N * N < 2 ^ 64) :
    sentMasks step N N = [] := by
  unfold sentMasks
  rw [List.flatMap_eq_nil_iff]
  intro t ht
  have ht' : t < N := by simpa using ht
  have hb : ∀ k : Nat, k ≤ N → Part.bound N N k = k := by
    intro k hk
    unfold Part.bound
    rw [Nat.mod_eq_of_lt (Nat.lt_of_le_of_lt (Nat.mul_le_mul_left N hk) hov)]
    exact Nat.mul_div_cancel_left k hN
  rw [C82_single step N N t hN hov ht' (by rw [hb _ (by omega), hb _ (by omega)])]
  rfl

/-- **C82, failure 2.**  A thread with more than one message sends the last mask of a message again
as first mask of the next. -/
theorem C82_twice (step N T t : Nat) (hs : 0 < step) (hT : 0 < T) (hov : N * T < 2 ^ 64)
    (ht : t < T) (h1 : Part.bound N T t + step + 1 < Part.bound N T (t + 1)) :
    ∃ c₀ c₁ : Nat × Nat, (chunks step N T t)[0]? = some c₀ ∧ (chunks step N T t)[1]? = some c₁ ∧
      Part.bound N T t + step ∈ chunkMasks c₀ ∧ Part.bound N T t + step ∈ chunkMasks c₁ := by
  have h2 := bound_le N T t hT hov ht
  have h3 : N < 2 ^ 64 := Nat.lt_of_le_of_lt (Nat.le_mul_of_pos_right N hT) hov
  have hm := minusOne_succ (Part.bound N T (t + 1) - 1) (by omega)
  rw [Nat.sub_add_cancel (by omega)] at hm
  have hcount : 1 < (Part.bound N T (t + 1) - 1 - Part.bound N T t + (step - 1)) / step := by
    rw [Nat.lt_iff_add_one_le, Nat.le_div_iff_mul_le hs]
    omega
  refine ⟨(Part.bound N T t + 0 * step, min step (Part.bound N T (t + 1) - 1 - (Part.bound N T t + 0 * step))),
    (Part.bound N T t + 1 * step, min step (Part.bound N T (t + 1) - 1 - (Part.bound N T t + 1 * step))), ?_, ?_, ?_, ?_⟩
  · unfold chunks
    simp only
    rw [Nat.min_eq_left h2, hm, List.getElem?_map, List.getElem?_range (by omega)]
    rfl
  · unfold chunks
    simp only
    rw [Nat.min_eq_left h2, hm, List.getElem?_map, List.getElem?_range hcount]
    rfl
  · unfold chunkMasks
    rw [List.mem_map]
    exact ⟨step, by rw [List.mem_range]; omega, by omega⟩
  · unfold chunkMasks
    rw [List.mem_map]
    exact ⟨0, by simp, by omega⟩

/-- **C82, failure 3.**  With fewer masks than threads the first thread has no masks; `endIdx - 1`
wraps around and the thread reads behind the masks. -/
theorem C82_outside (step N T : Nat) (hs : 0 < step) (hs' : step < 2 ^ 63) (hNT : N < T)
    (hN : N < 2 ^ 63) : ∃ i ∈ sentMasks step N T, N ≤ i := by
  have hb0 : Part.bound N T 0 = 0 := by simp [Part.bound]
  have hb1 : Part.bound N T 1 = 0 := by
    unfold Part.bound
    rw [Nat.mul_one, Nat.mod_eq_of_lt (by omega)]
    exact Nat.div_eq_of_lt hNT
  have he : minusOne (min (Part.bound N T (0 + 1)) N) = 2 ^ 64 - 1 := by
    rw [Nat.zero_add, hb1, Nat.zero_min]
    rfl
  refine ⟨(N / step) * step + step, ?_, ?_⟩
  · unfold sentMasks
    rw [List.mem_flatMap]
    refine ⟨0, by rw [List.mem_range]; omega, ?_⟩
    rw [List.mem_flatMap]
    have hq : (N / step) * step ≤ N := Nat.div_mul_le_self N step
    refine ⟨(0 + (N / step) * step, min step (2 ^ 64 - 1 - (0 + (N / step) * step))), ?_, ?_⟩
    · unfold chunks
      simp only
      rw [he, hb0, List.mem_map]
      refine ⟨N / step, ?_, rfl⟩
      rw [List.mem_range, Nat.lt_iff_add_one_le, Nat.le_div_iff_mul_le hs, Nat.add_mul]
      omega
    · unfold chunkMasks
      rw [List.mem_map]
      refine ⟨step, ?_, by simp⟩
      rw [List.mem_range]
      omega
  · have := Nat.lt_div_mul_add (a := N) hs
    omega

/-- Seven masks, two threads, messages of at most two differences. -/
example : sentMasks 2 7 2 = [0, 1, 2, 3, 4, 5, 5, 6] := by decide
example : sentMasks 4 7 2 = List.range 7 := by decide

end Verif.PrtyDelta
