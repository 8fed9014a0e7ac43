import Verif.PrtyDeltaSpec
import Verif.PrtyDeltaLemmas
import Verif.PartLemmas
/-!
Helper lemmas: the rounds of the receiver for a message, the length of a message, and the messages
of a thread.
-/
namespace Verif.PrtyDelta
open Verif Prty

theorem stepsDiffer_of (h : Nat) : ∀ (rest : List Block) (a : Block),
    NeighboursDiffer h (a :: rest) → StepsDiffer h a rest
  | [], _, _ => trivial
  | b :: rest, a, hn => by
    refine ⟨?_, stepsDiffer_of h rest b ?_⟩
    · rw [agree_iff_bytes]
      exact hn 0 a b (by simp) (by simp)
    · intro i x y h1 h2
      exact hn (i + 1) x y (by simpa using h1) (by simpa using h2)

/-- Structure of the rounds for a message that was written inside its buffer. -/
theorem rounds_shape (h n cap : Nat) (hh : 0 < h) (hhn : h ≤ n) (hn : n ≤ 16) (g : Block)
    (rest : List Block) (buf : List Byte) (hbuf : sendMsg h n cap g rest = .ok buf)
    (hd : NeighboursDiffer h (g :: rest)) (mem : Nat → Byte) (hmem : Holds mem buf)
    (u0 u1 : Block) :
    ∃ (L extra : List RSt), rounds h n mem buf.length u0 u1 = L ++ extra ∧
      (∀ s ∈ extra, s.over = true ∧ Agree n s.mask 0) ∧
      (used h n g rest < cap → List.Forall₂ (Shows h n) L (g :: rest)) ∧
      (used h n g rest = cap → List.Forall₂ (Shows h n) L ((g :: rest).dropLast) ∧ extra = []) := by
  unfold sendMsg at hbuf
  simp only at hbuf
  split at hbuf
  case isFalse => cases hbuf
  case isTrue hle =>
    have hb : buf = bytes g n ++ pieces h n g rest ++
        List.replicate (cap - (bytes g n ++ pieces h n g rest).length) 0 := by
      injection hbuf with hbuf; exact hbuf.symm
    have hlen : buf.length = cap := by
      rw [hb]; simp only [List.length_append, List.length_replicate] at hle ⊢; omega
    have hused : used h n g rest = (bytes g n ++ pieces h n g rest).length := by
      simp [used, bytes_length]
    have hle' : used h n g rest ≤ cap := by omega
    have hat0 : At mem 0 n g := by
      apply at_of_list mem 0 n g (pieces h n g rest ++
        List.replicate (cap - (bytes g n ++ pieces h n g rest).length) 0)
      intro i hi
      rw [← List.append_assoc, ← hb] at hi ⊢
      rw [Nat.zero_add]
      exact hmem i hi
    have hs0 : Shows h n (start n mem u0 u1) g := by
      unfold Shows maskLength start
      simp only [if_true]
      exact load_agree _ _ _ _ _ hn hat0
    obtain ⟨L, s', hL, hs', hd', hit, hst⟩ := states_show h n hh hhn hn mem buf.length
      (buf.length + 1) rest g (start n mem u0 u1)
      (List.replicate (cap - (bytes g n ++ pieces h n g rest).length) 0) hs0
      (start_diffAt h n hhn hn mem u0 u1) (stepsDiffer_of h rest g hd)
      (by simp only [start]; omega)
      (by simp only [start]; unfold used at hle'; omega)
      (by
        intro i hi
        have := hmem (n + i) (by
          rw [hb]; simp only [List.length_append, bytes_length] at hi ⊢; omega)
        rw [hb, List.append_assoc, List.getElem?_append_right (by simp [bytes_length])] at this
        simp only [bytes_length, Nat.add_sub_cancel_left] at this
        simp only [start]
        simpa [bytes_length] using this)
    have hit' : s'.it = used h n g rest := by rw [hit]; simp [start, used]
    by_cases hlt : used h n g rest < cap
    · refine ⟨L ++ [s'], states h n mem buf.length (buf.length + 1) (step h n mem s'), ?_, ?_, ?_,
        ?_⟩
      · unfold rounds
        rw [hst, states_succ h n hh mem buf.length (buf.length + 1) s' (by omega) (by omega)]
        simp
      · apply states_tail h n hh hhn hn mem buf.length (buf.length + 1) s' hd'
        intro i h1 h2
        have := hmem i h2
        rw [hb, List.getElem?_append_right (by omega),
          List.getElem?_replicate] at this
        rw [if_pos (by omega)] at this
        exact (Option.some.inj this).symm
      · intro _
        have := List.dropLast_append_getLast (l := g :: rest) (by simp)
        rw [← this]
        exact List.rel_append hL (List.Forall₂.cons hs' List.Forall₂.nil)
      · intro h'; omega
    · refine ⟨L, [], ?_, by simp, fun h' => absurd h' hlt, fun _ => ⟨hL, rfl⟩⟩
      unfold rounds
      rw [hst, states_end _ _ _ _ _ s' (by omega)]

theorem forall₂_mem_left {α β : Type} {R : α → β → Prop} {l : List α} {m : List β}
    (h : List.Forall₂ R l m) : ∀ a ∈ l, ∃ b ∈ m, R a b := by
  induction h with
  | nil => simp
  | cons hr _ ih =>
    intro a ha
    rw [List.mem_cons] at ha
    rcases ha with rfl | ha
    · exact ⟨_, by simp, hr⟩
    · obtain ⟨b, hb, hab⟩ := ih a ha
      exact ⟨b, by simp [hb], hab⟩

theorem forall₂_mem_right {α β : Type} {R : α → β → Prop} {l : List α} {m : List β}
    (h : List.Forall₂ R l m) : ∀ b ∈ m, ∃ a ∈ l, R a b := by
  induction h with
  | nil => simp
  | cons hr _ ih =>
    intro b hb
    rw [List.mem_cons] at hb
    rcases hb with rfl | hb
    · exact ⟨_, by simp, hr⟩
    · obtain ⟨a, ha, hab⟩ := ih b hb
      exact ⟨a, by simp [ha], hab⟩

/-- A round reports only an index whose mask agrees with what it shows. -/
theorem matchRound_sound (h n : Nat) (ms : List (Block × Nat)) (s : RSt) (idx : Nat)
    (hm : matchRound h n (localMasks ms) s = some idx) :
    ∃ m : Block, (m, idx) ∈ ms ∧ Agree (maskLength h n s) s.mask m := by
  unfold matchRound at hm
  split at hm
  case h_2 => cases hm
  case h_1 e he =>
    split at hm
    case isFalse => cases hm
    case isTrue hb =>
      have hmem := List.mem_of_find?_eq_some he
      obtain ⟨_, h2⟩ := find_localMasks_mem ms e hmem
      injection hm with hm
      exact ⟨e.mask, by rw [← hm]; exact h2, (bytesEq_iff _ _ _).1 hb⟩

theorem boundMaskDiff_bytes (h : Nat) (hh : h ≤ 16) (r : Nat) (hr : r < h) :
    byteOf (boundMaskDiff h) r = 255#8 := by
  have : ∀ h : Fin 17, ∀ r : Fin h.1, byteOf (boundMaskDiff h.1) r.1 = 255#8 := by decide +kernel
  exact this ⟨h, by omega⟩ ⟨r, hr⟩

theorem piece_length (h n : Nat) (hh : h ≤ 16) (a b : Block) [Decidable (Escaped h a b)] :
    (piece h n a b).length = if Escaped h a b then h + n else h := by
  have hiff : memcmpLt (bytes (laneSub b a) h) (bytes (boundMaskDiff h) h) = true ↔
      ¬ Escaped h a b := by
    rw [memcmpLt_ff _ _ (by simp [bytes_length]) (by
      intro x hx
      unfold bytes at hx
      rw [List.mem_map] at hx
      obtain ⟨r, hr, rfl⟩ := hx
      exact boundMaskDiff_bytes h hh r (by simpa using hr))]
    rw [not_iff_not, bytes_eq_iff, agree_iff_bytes]
    constructor
    · intro he r hr
      rw [he r hr, boundMaskDiff_bytes h hh r hr]
    · intro he r hr
      rw [he r hr, boundMaskDiff_bytes h hh r hr]
  unfold piece
  by_cases he : Escaped h a b
  · rw [if_pos he, if_neg (by rw [hiff]; exact fun h => h he)]
    simp [bytes_length]
  · rw [if_neg he, if_pos (hiff.2 he)]
    simp [bytes_length]

theorem used_eq (h n : Nat) (hh : h ≤ 16) : ∀ (rest : List Block) (g : Block),
    used h n g rest = n + rest.length * h + escapes h g rest * n
  | [], g => by simp [used, pieces, escapes]
  | b :: rest, g => by
    classical
    have ih := used_eq h n hh rest b
    unfold used at ih ⊢
    rw [pieces, List.length_append, piece_length h n hh g b, escapes]
    by_cases he : Escaped h g b
    · simp only [he, if_true, List.length_cons, Nat.add_mul, Nat.one_mul]
      omega
    · simp only [he, if_false, List.length_cons, Nat.add_mul, Nat.zero_mul, Nat.one_mul]
      omega

/-! ### messages of a thread -/

theorem minusOne_succ (e : Nat) (h : e < 2 ^ 64) : minusOne (e + 1) = e := by
  unfold minusOne
  have : e + 1 + (2 ^ 64 - 1) = e + 2 ^ 64 := by omega
  rw [this, Nat.add_mod_right, Nat.mod_eq_of_lt h]

theorem mem_interval (a b i : Nat) : i ∈ Part.interval a b ↔ a ≤ i ∧ i < b := by
  unfold Part.interval
  rw [List.mem_map]
  constructor
  · rintro ⟨k, hk, rfl⟩
    rw [List.mem_range] at hk
    omega
  · rintro ⟨h1, h2⟩
    exact ⟨i - a, by rw [List.mem_range]; omega, by omega⟩

theorem bound_eq (N T t : Nat) (hov : N * T < 2 ^ 64) (ht : t ≤ T) :
    Part.bound N T t = N * t / T := by
  unfold Part.bound
  rw [Nat.mod_eq_of_lt (Nat.lt_of_le_of_lt (Nat.mul_le_mul_left N ht) hov)]

theorem bound_le (N T t : Nat) (hT : 0 < T) (hov : N * T < 2 ^ 64) (ht : t < T) :
    Part.bound N T (t + 1) ≤ N := by
  rw [bound_eq N T (t + 1) hov ht]
  apply Nat.div_le_of_le_mul
  rw [Nat.mul_comm T N]
  exact Nat.mul_le_mul_left N ht

theorem two_masks (N T t : Nat) (hT : 0 < T) (hov : N * T < 2 ^ 64) (hN : 2 * T ≤ N)
    (ht : t < T) : Part.bound N T t + 2 ≤ Part.bound N T (t + 1) := by
  rw [bound_eq N T t hov (by omega), bound_eq N T (t + 1) hov ht, Nat.mul_add, Nat.mul_one]
  calc N * t / T + 2 = (N * t + T * 2) / T := by rw [Nat.add_mul_div_left _ _ hT]
    _ ≤ (N * t + N) / T := Nat.div_le_div_right (by omega)

theorem range_le (step N T t : Nat) (hT : 0 < T) (hov : N * T < 2 ^ 64) (hs : N ≤ step * T)
    (ht : t < T) : Part.bound N T (t + 1) ≤ Part.bound N T t + step + 1 := by
  rw [bound_eq N T t hov (by omega), bound_eq N T (t + 1) hov ht, Nat.mul_add, Nat.mul_one]
  calc (N * t + N) / T ≤ (N * t + T * step) / T :=
        Nat.div_le_div_right (by rw [Nat.mul_comm T step]; omega)
    _ = N * t / T + step := by rw [Nat.add_mul_div_left _ _ hT]
    _ ≤ N * t / T + step + 1 := by omega

/-- The masks in the messages of a thread with at least two masks. -/
theorem mem_chunks (step N T t : Nat) (hs : 0 < step)
    (h2 : Part.bound N T t + 2 ≤ Part.bound N T (t + 1)) (hle : Part.bound N T (t + 1) ≤ N)
    (hN : N < 2 ^ 64) (i : Nat) : i ∈ (chunks step N T t).flatMap chunkMasks ↔
      Part.bound N T t ≤ i ∧ i < Part.bound N T (t + 1) := by
  have hm := minusOne_succ (Part.bound N T (t + 1) - 1) (by omega)
  rw [Nat.sub_add_cancel (by omega)] at hm
  rw [List.mem_flatMap]
  unfold chunks
  simp only
  rw [Nat.min_eq_left hle, hm]
  generalize Part.bound N T t = a at *
  generalize Part.bound N T (t + 1) = e at *
  constructor
  · rintro ⟨c, hc, hi⟩
    rw [List.mem_map] at hc
    obtain ⟨k, hk, rfl⟩ := hc
    unfold chunkMasks at hi
    rw [List.mem_map] at hi
    obtain ⟨j, hj, rfl⟩ := hi
    rw [List.mem_range] at hj hk
    simp only at hj ⊢
    have hk' : k * step ≤ e - 1 - a := by
      have h1 := (Nat.le_div_iff_mul_le hs).1 (Nat.succ_le_of_lt hk)
      rw [Nat.succ_mul] at h1
      omega
    generalize k * step = q at *
    omega
  · rintro ⟨h3, h4⟩
    have hcase : ∃ k : Nat, k < (e - 1 - a + (step - 1)) / step ∧ k * step ≤ i - a ∧
        i - a ≤ k * step + step ∧ k * step < e - 1 - a := by
      by_cases hi : i = a
      · refine ⟨0, ?_, by omega, by omega, by omega⟩
        rw [Nat.lt_iff_add_one_le, Nat.le_div_iff_mul_le hs]
        omega
      · have hd := Nat.div_add_mod (i - a - 1) step
        have hmod := Nat.mod_lt (i - a - 1) hs
        rw [Nat.mul_comm] at hd
        refine ⟨(i - a - 1) / step, ?_, by omega, by omega, by omega⟩
        rw [Nat.lt_iff_add_one_le, Nat.le_div_iff_mul_le hs, Nat.add_mul]
        omega
    obtain ⟨k, hk, h5, h6, h7⟩ := hcase
    refine ⟨(a + k * step, min step (e - 1 - (a + k * step))), ?_, ?_⟩
    · rw [List.mem_map]
      exact ⟨k, by rw [List.mem_range]; exact hk, rfl⟩
    · unfold chunkMasks
      rw [List.mem_map]
      exact ⟨i - a - k * step, by rw [List.mem_range]; simp only; omega, by simp only; omega⟩

/-- One message is enough for at most `step + 1` masks. -/
theorem one_chunk (step N T t : Nat) (hs : 0 < step)
    (h2 : Part.bound N T t + 2 ≤ Part.bound N T (t + 1)) (hle : Part.bound N T (t + 1) ≤ N)
    (hN : N < 2 ^ 64) (h1 : Part.bound N T (t + 1) ≤ Part.bound N T t + step + 1) :
    (chunks step N T t).flatMap chunkMasks =
      Part.interval (Part.bound N T t) (Part.bound N T (t + 1)) := by
  have hm := minusOne_succ (Part.bound N T (t + 1) - 1) (by omega)
  rw [Nat.sub_add_cancel (by omega)] at hm
  unfold chunks
  simp only
  rw [Nat.min_eq_left hle, hm]
  generalize Part.bound N T t = a at *
  generalize Part.bound N T (t + 1) = e at *
  have hc : (e - 1 - a + (step - 1)) / step = 1 := by
    rw [Nat.div_eq_iff hs]
    omega
  rw [hc]
  have hmin : min step (e - 1 - (a + 0 * step)) = e - 1 - a := by omega
  simp only [List.range_one, List.map_cons, List.map_nil, List.flatMap_cons, List.flatMap_nil,
    List.append_nil, chunkMasks, Part.interval, hmin]
  have : e - 1 - a + 1 = e - a := by omega
  rw [this]
  simp

end Verif.PrtyDelta
