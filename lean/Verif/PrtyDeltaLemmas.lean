import Verif.PrtyDeltaModel
import Verif.PrtyLemmas
import Mathlib.Data.List.Forall2
/-!
Helper lemmas for the delta coding of PRTY's masks.
-/
namespace Verif.PrtyDelta
open Verif Prty

/-- The first `k` bytes of two blocks are the same. -/
def Agree (k : Nat) (x y : Block) : Prop := ∀ i : Nat, i < 8 * k → x.getLsbD i = y.getLsbD i

theorem bytesEq_iff (k : Nat) (x y : Block) : bytesEq k x y = true ↔ Agree k x y := by
  unfold bytesEq Agree
  rw [beq_iff_eq]
  constructor
  · intro h i hi
    have := congrArg (fun b => b.getLsbD i) h
    simpa [hi] using this
  · intro h
    apply BitVec.eq_of_getLsbD_eq
    intro i hi
    simp [hi, h i hi]

theorem Agree.symm {k : Nat} {x y : Block} (h : Agree k x y) : Agree k y x :=
  fun i hi => (h i hi).symm

theorem Agree.trans {k : Nat} {x y z : Block} (h : Agree k x y) (h' : Agree k y z) :
    Agree k x z := fun i hi => (h i hi).trans (h' i hi)

theorem Agree.mono {k l : Nat} {x y : Block} (hkl : l ≤ k) (h : Agree k x y) : Agree l x y :=
  fun i hi => h i (by omega)

theorem Agree.refl (k : Nat) (x : Block) : Agree k x x := fun _ _ => rfl

theorem setWidth_eq_of_agree {k : Nat} {x y : Block} (w : Nat) (hw : w ≤ 8 * k)
    (h : Agree k x y) : x.setWidth w = y.setWidth w := by
  apply BitVec.eq_of_getLsbD_eq
  intro i hi
  simp [hi, h i (by omega)]

theorem getLsbD_byteOf (x : Block) (r i : Nat) :
    (byteOf x r).getLsbD i = (decide (i < 8) && x.getLsbD (8 * r + i)) := by
  simp [byteOf]

/-- Agreement byte by byte. -/
theorem agree_iff_bytes (k : Nat) (x y : Block) :
    Agree k x y ↔ ∀ r : Nat, r < k → byteOf x r = byteOf y r := by
  constructor
  · intro h r hr
    apply BitVec.eq_of_getLsbD_eq
    intro i hi
    rw [getLsbD_byteOf, getLsbD_byteOf, h _ (by omega)]
  · intro h i hi
    have := congrArg (fun b => b.getLsbD (i % 8)) (h (i / 8) (by omega))
    simp only [getLsbD_byteOf] at this
    have h8 : i % 8 < 8 := Nat.mod_lt _ (by omega)
    rw [Nat.div_add_mod] at this
    simpa [h8] using this

theorem bytes_length (x : Block) (k : Nat) : (bytes x k).length = k := by simp [bytes]

theorem bytes_getElem? (x : Block) (k r : Nat) (hr : r < k) :
    (bytes x k)[r]? = some (byteOf x r) := by
  simp [bytes, hr]

theorem bytes_eq_iff (k : Nat) (x y : Block) : bytes x k = bytes y k ↔ Agree k x y := by
  rw [agree_iff_bytes]
  constructor
  · intro h r hr
    have := congrArg (fun l => l[r]?) h
    simpa [bytes, hr] using this
  · intro h
    unfold bytes
    apply List.map_congr_left
    intro r hr
    exact h r (by simpa using hr)

/-! ### lanes -/

theorem laneAdd_laneSub (a b : Block) : laneAdd (laneSub b a) a = b := by
  unfold laneAdd laneSub
  have h1 : (((b.extractLsb' 64 64 - a.extractLsb' 64 64) ++
      (b.extractLsb' 0 64 - a.extractLsb' 0 64) : BitVec 128)).extractLsb' 64 64 =
      b.extractLsb' 64 64 - a.extractLsb' 64 64 := by
    apply BitVec.eq_of_getLsbD_eq
    intro i hi
    simp only [BitVec.getLsbD_extractLsb', BitVec.getLsbD_append]
    have : ¬ 64 + i < 64 := by omega
    simp [hi]
  have h2 : (((b.extractLsb' 64 64 - a.extractLsb' 64 64) ++
      (b.extractLsb' 0 64 - a.extractLsb' 0 64) : BitVec 128)).extractLsb' 0 64 =
      b.extractLsb' 0 64 - a.extractLsb' 0 64 := by
    apply BitVec.eq_of_getLsbD_eq
    intro i hi
    simp only [BitVec.getLsbD_extractLsb', BitVec.getLsbD_append]
    simp [hi]
  rw [h1, h2, BitVec.sub_add_cancel, BitVec.sub_add_cancel]
  apply BitVec.eq_of_getLsbD_eq
  intro i hi
  rw [BitVec.getLsbD_append]
  by_cases h : i < 64
  · simp [h]
  · have h' : i - 64 < 64 := by omega
    have e : 64 + (i - 64) = i := by omega
    simp [h, h', e]

/-- Low bits of a sum of 64-bit numbers. -/
theorem add_low (w : Nat) (a b a' b' : BitVec 64) (ha : ∀ i : Nat, i < w → a.getLsbD i = a'.getLsbD i)
    (hb : ∀ i : Nat, i < w → b.getLsbD i = b'.getLsbD i) (i : Nat) (hi : i < w) :
    (a + b).getLsbD i = (a' + b').getLsbD i := by
  by_cases h64 : i < 64
  · have e1 : a.setWidth (i + 1) = a'.setWidth (i + 1) := by
      apply BitVec.eq_of_getLsbD_eq
      intro j hj
      simp [hj, ha j (by omega)]
    have e2 : b.setWidth (i + 1) = b'.setWidth (i + 1) := by
      apply BitVec.eq_of_getLsbD_eq
      intro j hj
      simp [hj, hb j (by omega)]
    have e : (a + b).setWidth (i + 1) = (a' + b').setWidth (i + 1) := by
      rw [BitVec.setWidth_add _ _ (by omega), BitVec.setWidth_add _ _ (by omega), e1, e2]
    have := congrArg (fun x => x.getLsbD i) e
    simpa using this
  · simp [BitVec.getLsbD_of_ge _ i (by omega : 64 ≤ i)]

theorem laneAdd_agree (k : Nat) (a b a' b' : Block) (ha : Agree k a a') (hb : Agree k b b') :
    Agree k (laneAdd a b) (laneAdd a' b') := by
  intro i hi
  unfold laneAdd
  rw [BitVec.getLsbD_append, BitVec.getLsbD_append]
  by_cases h : i < 64
  · simp only [h, decide_true, cond_true]
    apply add_low (8 * k) _ _ _ _ _ _ i hi
    · intro j hj
      simp [ha j hj]
    · intro j hj
      simp [hb j hj]
  · simp only [h, decide_false, cond_false]
    apply add_low (8 * k - 64) _ _ _ _ _ _ (i - 64) (by omega)
    · intro j hj
      simp [ha (64 + j) (by omega)]
    · intro j hj
      simp [hb (64 + j) (by omega)]

/-- Equal low bytes of the difference to zero mean equal low bytes. -/
theorem laneSub_zero (k : Nat) (a b : Block) (h : Agree k (laneSub b a) 0) : Agree k a b := by
  have h1 := laneAdd_agree k (laneSub b a) a 0 a h (Agree.refl k a)
  rw [laneAdd_laneSub] at h1
  have h2 : laneAdd 0 a = a := by
    unfold laneAdd
    apply BitVec.eq_of_getLsbD_eq
    intro i hi
    rw [BitVec.getLsbD_append]
    by_cases h : i < 64
    · simp [h]
    · have h' : i - 64 < 64 := by omega
      have e : 64 + (i - 64) = i := by omega
      simp [h, h', e]
  rw [h2] at h1
  exact h1.symm

/-! ### load -/

theorem getLsbD_load (x : Block) (k : Nat) (mem : Nat → Byte) (p i : Nat) :
    (load x k mem p).getLsbD i = (decide (i < 128) &&
      if i < 8 * k then (mem (p + i / 8)).getLsbD (i % 8) else x.getLsbD i) := by
  rw [load, getLsbD_ofBits]

theorem byteOf_load (x : Block) (k : Nat) (mem : Nat → Byte) (p r : Nat) (hr : r < k)
    (hk : k ≤ 16) : byteOf (load x k mem p) r = mem (p + r) := by
  apply BitVec.eq_of_getLsbD_eq
  intro i hi
  rw [getLsbD_byteOf, getLsbD_load]
  have h1 : 8 * r + i < 128 := by omega
  have h2 : 8 * r + i < 8 * k := by omega
  have h3 : (8 * r + i) / 8 = r := by omega
  have h4 : (8 * r + i) % 8 = i := by omega
  simp [hi, h1, h2, h3, h4]

/-- A block whose first `k` bytes lie at address `p`. -/
def At (mem : Nat → Byte) (p k : Nat) (x : Block) : Prop :=
  ∀ r : Nat, r < k → mem (p + r) = byteOf x r

theorem load_agree (x y : Block) (k : Nat) (mem : Nat → Byte) (p : Nat) (hk : k ≤ 16)
    (h : At mem p k y) : Agree k (load x k mem p) y := by
  rw [agree_iff_bytes]
  intro r hr
  rw [byteOf_load x k mem p r hr hk, h r hr]

theorem At.mono {mem : Nat → Byte} {p k l : Nat} {x : Block} (h : At mem p k x) (hl : l ≤ k) :
    At mem p l x := fun r hr => h r (by omega)

theorem at_of_list (mem : Nat → Byte) (p k : Nat) (x : Block) (l : List Byte)
    (h : ∀ i : Nat, i < (bytes x k ++ l).length → (bytes x k ++ l)[i]? = some (mem (p + i))) :
    At mem p k x := by
  intro r hr
  have := h r (by simp [bytes_length]; omega)
  rw [List.getElem?_append_left (by simpa [bytes_length] using hr), bytes_getElem? x k r hr] at this
  exact (Option.some.inj this).symm

/-! ### the escape test of the sender -/

theorem memcmpLt_ff : ∀ l m : List Byte, l.length = m.length → (∀ x ∈ m, x = 255#8) →
    (memcmpLt l m = true ↔ l ≠ m)
  | [], [], _, _ => by simp [memcmpLt]
  | [], _ :: _, h, _ => by simp at h
  | _ :: _, [], h, _ => by simp at h
  | a :: l, b :: m, h, hm => by
    have hb : b = 255#8 := hm b (by simp)
    have ih := memcmpLt_ff l m (by simpa using h) (fun x hx => hm x (by simp [hx]))
    unfold memcmpLt
    by_cases hab : a = b
    · simp [hab, ih]
    · simp only [hab, if_false]
      have : a.toNat < b.toNat := by
        have h1 := a.isLt
        have h2 : a.toNat ≠ 255 := by
          intro h3
          apply hab
          rw [hb]
          apply BitVec.eq_of_toNat_eq
          simpa using h3
        rw [hb]
        simp
        omega
      simp [this, hab]

theorem piece_cases (h n : Nat) (a b : Block) :
    piece h n a b = bytes (laneSub b a) h ∨ piece h n a b = bytes 0 h ++ bytes b n := by
  unfold piece
  split
  · exact Or.inl rfl
  · exact Or.inr rfl

theorem piece_length_ge (h n : Nat) (a b : Block) : h ≤ (piece h n a b).length := by
  rcases piece_cases h n a b with e | e <;> rw [e] <;> simp [bytes_length]

/-! ### the receiver's loop -/

theorem step_it (h n : Nat) (mem : Nat → Byte) (s : RSt) : s.it + h ≤ (step h n mem s).it := by
  unfold step; split
  · simp only; omega
  · simp only; omega

theorem states_fuel (h n : Nat) (hh : 0 < h) (mem : Nat → Byte) (size : Nat) :
    ∀ (f f' : Nat) (s : RSt), size < f + s.it → size < f' + s.it →
      states h n mem size f s = states h n mem size f' s
  | 0, 0, _, _, _ => rfl
  | 0, f' + 1, s, h1, _ => by
    have : ¬ s.it < size := by omega
    simp [states, this]
  | f + 1, 0, s, _, h2 => by
    have : ¬ s.it < size := by omega
    simp [states, this]
  | f + 1, f' + 1, s, h1, h2 => by
    unfold states
    by_cases hs : s.it < size
    · have hi : s.it + h ≤ (step h n mem s).it := step_it h n mem s
      rw [states_fuel h n hh mem size f f' _ (by omega) (by omega)]
    · simp [hs]

/-- Unfolding of the loop with enough fuel. -/
theorem states_succ (h n : Nat) (hh : 0 < h) (mem : Nat → Byte) (size : Nat) (f : Nat) (s : RSt)
    (hf : size < f + s.it) (hs : s.it < size) :
    states h n mem size f s = s :: states h n mem size f (step h n mem s) := by
  have hi : s.it + h ≤ (step h n mem s).it := step_it h n mem s
  cases f with
  | zero => omega
  | succ f =>
    rw [states, if_pos hs, states_fuel h n hh mem size f (f + 1) _ (by omega) (by omega)]

theorem states_end (h n : Nat) (mem : Nat → Byte) (size : Nat) (f : Nat) (s : RSt)
    (hs : ¬ s.it < size) : states h n mem size f s = [] := by
  cases f <;> simp [states, hs]

/-- Invariant: the difference that is in the register is the one at `it`. -/
def DiffAt (h : Nat) (mem : Nat → Byte) (s : RSt) : Prop := At mem s.it h s.diff

theorem step_diffAt (h n : Nat) (hhn : h ≤ n) (hn : n ≤ 16) (mem : Nat → Byte) (s : RSt) :
    DiffAt h mem (step h n mem s) := by
  unfold DiffAt step
  split
  · intro r hr
    simp only
    rw [byteOf_load _ _ _ _ _ (by omega) hn]
  · intro r hr
    simp only
    rw [byteOf_load _ _ _ _ _ hr (by omega)]

theorem start_diffAt (h n : Nat) (hhn : h ≤ n) (hn : n ≤ 16) (mem : Nat → Byte) (u0 u1 : Block) :
    DiffAt h mem (start n mem u0 u1) := by
  intro r hr
  simp only [start]
  rw [byteOf_load _ _ _ _ _ (by omega) hn]

/-- What a round has in its register for mask `g`. -/
def Shows (h n : Nat) (s : RSt) (g : Block) : Prop := Agree (maskLength h n s) s.mask g

theorem maskLength_ge (h n : Nat) (hhn : h ≤ n) (s : RSt) : h ≤ maskLength h n s := by
  unfold maskLength; split <;> omega

/-- One round goes from mask `a` to mask `b`. -/
theorem step_shows (h n : Nat) (hhn : h ≤ n) (hn : n ≤ 16) (mem : Nat → Byte) (s : RSt)
    (a b : Block) (l : List Byte) (hs : Shows h n s a) (hd : DiffAt h mem s)
    (hab : ¬ Agree h a b)
    (hm : ∀ i : Nat, i < (piece h n a b ++ l).length →
      (piece h n a b ++ l)[i]? = some (mem (s.it + i))) :
    Shows h n (step h n mem s) b ∧ (step h n mem s).it = s.it + (piece h n a b).length := by
  rcases piece_cases h n a b with e | e
  · rw [e] at hm ⊢
    have hat : At mem s.it h (laneSub b a) := at_of_list mem s.it h _ l hm
    have hdiff : Agree h s.diff (laneSub b a) := by
      rw [agree_iff_bytes]
      intro r hr
      rw [← hd r hr, hat r hr]
    have hesc : isEscape h s = false := by
      cases hc : isEscape h s with
      | false => rfl
      | true =>
        have := (bytesEq_iff h _ _).1 hc
        exact absurd (laneSub_zero h a b (hdiff.symm.trans this)) hab
    unfold step
    rw [hesc]
    refine ⟨?_, by simp [bytes_length]⟩
    unfold Shows maskLength
    simp only [Bool.false_eq_true, if_false]
    have h1 := laneAdd_agree h s.diff s.mask (laneSub b a) a hdiff
      (Agree.mono (maskLength_ge h n hhn s) hs)
    rwa [laneAdd_laneSub] at h1
  · rw [e] at hm ⊢
    rw [List.append_assoc] at hm
    have hat : At mem s.it h 0 := at_of_list mem s.it h 0 _ hm
    have hesc : isEscape h s = true := by
      apply (bytesEq_iff h _ _).2
      rw [agree_iff_bytes]
      intro r hr
      rw [← hd r hr, hat r hr]
    unfold step
    rw [hesc]
    refine ⟨?_, by simp [bytes_length]; omega⟩
    unfold Shows maskLength
    simp only [if_true]
    apply load_agree _ _ _ _ _ hn
    apply at_of_list mem (s.it + h) n b l
    intro i hi
    have := hm (h + i) (by simp only [List.length_append, bytes_length] at hi ⊢; omega)
    rw [List.getElem?_append_right (by simp [bytes_length])] at this
    simp only [bytes_length, Nat.add_sub_cancel_left] at this
    rw [this, Nat.add_assoc]

/-- No two consecutive masks agree on the first `h` bytes. -/
def StepsDiffer (h : Nat) : Block → List Block → Prop
  | _, [] => True
  | a, b :: rest => ¬ Agree h a b ∧ StepsDiffer h b rest

/-- The rounds for the masks of a message: they show the masks one after the other. If the message
has bytes behind the differences, there is a state for the last mask, and the loop goes on from
it. -/
theorem states_show (h n : Nat) (hh : 0 < h) (hhn : h ≤ n) (hn : n ≤ 16) (mem : Nat → Byte)
    (size f : Nat) :
    ∀ (rest : List Block) (a : Block) (s : RSt) (l : List Byte),
      Shows h n s a → DiffAt h mem s → StepsDiffer h a rest → size < f + s.it →
      s.it + (pieces h n a rest).length ≤ size →
      (∀ i : Nat, i < (pieces h n a rest ++ l).length →
        (pieces h n a rest ++ l)[i]? = some (mem (s.it + i))) →
      ∃ (L : List RSt) (s' : RSt), List.Forall₂ (Shows h n) L ((a :: rest).dropLast) ∧
        Shows h n s' ((a :: rest).getLast (by simp)) ∧ DiffAt h mem s' ∧
        s'.it = s.it + (pieces h n a rest).length ∧
        states h n mem size f s = L ++ states h n mem size f s'
  | [], a, s, l, hs, hd, _, _, _, _ => by
    refine ⟨[], s, ?_, ?_, hd, ?_, ?_⟩
    · simp
    · simpa using hs
    · simp [pieces]
    · simp
  | b :: rest, a, s, l, hs, hd, hdf, hf, hsz, hm => by
    obtain ⟨hab, hdf⟩ := hdf
    have hp := piece_length_ge h n a b
    have hlen : (pieces h n a (b :: rest)).length =
      (piece h n a b).length + (pieces h n b rest).length := by simp [pieces]
    rw [pieces, List.append_assoc] at hm
    obtain ⟨h1, h2⟩ := step_shows h n hhn hn mem s a b _ hs hd hab hm
    have hd' := step_diffAt h n hhn hn mem s
    obtain ⟨L, s', hL, hs', hd'', hit, hst⟩ := states_show h n hh hhn hn mem size f rest b
      (step h n mem s) l h1 hd' hdf (by omega) (by omega) (by
        intro i hi
        have := hm ((piece h n a b).length + i) (by simp only [List.length_append] at hi ⊢; omega)
        rw [List.getElem?_append_right (by omega), Nat.add_sub_cancel_left] at this
        rw [this, h2, Nat.add_assoc])
    refine ⟨s :: L, s', ?_, ?_, hd'', by omega, ?_⟩
    · rw [List.dropLast_cons_of_ne_nil (by simp)]
      exact List.Forall₂.cons hs hL
    · rw [List.getLast_cons (by simp)]
      exact hs'
    · rw [states_succ h n hh mem size f s hf (by omega), hst]
      rfl

/-- The rounds in the zero bytes at the end of the message show zero masks. -/
theorem states_tail (h n : Nat) (hh : 0 < h) (hhn : h ≤ n) (hn : n ≤ 16) (mem : Nat → Byte)
    (size : Nat) : ∀ (f : Nat) (s : RSt), DiffAt h mem s →
      (∀ i : Nat, s.it ≤ i → i < size → mem i = 0) →
      ∀ s' ∈ states h n mem size f (step h n mem s), s'.over = true ∧ Agree n s'.mask 0
  | 0, _, _, _, s', hs' => by simp [states] at hs'
  | f + 1, s, hd, hz, s', hs' => by
    have hi : s.it + h ≤ (step h n mem s).it := step_it h n mem s
    by_cases hend : (step h n mem s).it < size
    · have hesc : isEscape h s = true := by
        apply (bytesEq_iff h _ _).2
        rw [agree_iff_bytes]
        intro r hr
        rw [← hd r hr, hz _ (by omega) (by omega)]
        simp [byteOf]
      have hit : (step h n mem s).it = s.it + h + n := by simp [step, hesc]
      rw [states, if_pos hend, List.mem_cons] at hs'
      rcases hs' with rfl | hs'
      · refine ⟨by simp [step, hesc], ?_⟩
        simp only [step, hesc, if_true]
        apply load_agree _ _ _ _ _ hn
        intro r hr
        rw [hz _ (by omega) (by omega)]
        simp [byteOf]
      · exact states_tail h n hh hhn hn mem size f (step h n mem s)
          (step_diffAt h n hhn hn mem s) (fun i h1 h2 => hz i (by omega) h2) s' hs'
    · rw [states_end _ _ _ _ _ _ hend] at hs'
      simp at hs'

/-! ### the table -/

theorem find_localMasks_mem (ms : List (Block × Nat)) (e : Entry) (he : e ∈ localMasks ms) :
    e.key = e.mask.setWidth 32 ∧ (e.mask, e.idx) ∈ ms := by
  have key : ∀ (ms : List (Block × Nat)) (acc : List Entry),
      (∀ e ∈ acc, e.key = e.mask.setWidth 32) → ∀ e ∈ ms.foldl emplace acc,
      e.key = e.mask.setWidth 32 ∧ (e ∈ acc ∨ (e.mask, e.idx) ∈ ms) := by
    intro ms
    induction ms with
    | nil => intro acc hacc e he; exact ⟨hacc e he, Or.inl he⟩
    | cons p ms ih =>
      intro acc hacc e he
      rw [List.foldl_cons] at he
      have hacc' : ∀ e ∈ emplace acc p, e.key = e.mask.setWidth 32 := by
        intro e he
        unfold emplace at he
        split at he
        · exact hacc e he
        · rw [List.mem_append, List.mem_singleton] at he
          rcases he with he | rfl
          · exact hacc e he
          · rfl
      obtain ⟨h1, h2⟩ := ih _ hacc' e he
      refine ⟨h1, ?_⟩
      rcases h2 with h2 | h2
      · unfold emplace at h2
        split at h2
        · exact Or.inl h2
        · rw [List.mem_append, List.mem_singleton] at h2
          rcases h2 with h2 | rfl
          · exact Or.inl h2
          · exact Or.inr (by simp)
      · exact Or.inr (by simp [h2])
  obtain ⟨h1, h2⟩ := key ms [] (by simp) e he
  exact ⟨h1, by simpa using h2⟩

/-- With different keys every mask is in the table. -/
theorem localMasks_all (ms : List (Block × Nat))
    (hk : (ms.map fun p => p.1.setWidth 32).Nodup) :
    localMasks ms = ms.map fun p => (⟨p.1.setWidth 32, p.1, p.2⟩ : Entry) := by
  have key : ∀ (ms : List (Block × Nat)) (acc : List Entry),
      (ms.map fun p => p.1.setWidth 32).Nodup →
      (∀ e ∈ acc, ∀ p ∈ ms, e.key ≠ p.1.setWidth 32) →
      ms.foldl emplace acc = acc ++ ms.map fun p => (⟨p.1.setWidth 32, p.1, p.2⟩ : Entry) := by
    intro ms
    induction ms with
    | nil => intro acc _ _; simp
    | cons p ms ih =>
      intro acc hnd hacc
      rw [List.map_cons, List.nodup_cons] at hnd
      have h1 : emplace acc p = acc ++ [⟨p.1.setWidth 32, p.1, p.2⟩] := by
        unfold emplace
        rw [if_neg]
        intro hany
        rw [List.any_eq_true] at hany
        obtain ⟨e, he, hke⟩ := hany
        exact hacc e he p (by simp) (by simpa using hke)
      rw [List.foldl_cons, h1, ih _ hnd.2]
      · simp
      · intro e he q hq
        rw [List.mem_append, List.mem_singleton] at he
        rcases he with he | rfl
        · exact hacc e he q (by simp [hq])
        · intro heq
          apply hnd.1
          rw [List.mem_map]
          exact ⟨q, hq, heq.symm⟩
  have := key ms [] hk (by simp)
  simpa [localMasks] using this

end Verif.PrtyDelta
