import Verif.DcwLemmas
/-
Property C32 of the DCW protocol.
-/
namespace Verif.Dcw
open Verif

/-! ### vocabulary of the statements -/

/-- The receiver's encoding of an item: xor of its OT strings at the item's Bloom filter positions. -/
def encoding (hashes : List (Block → Block)) (bf : Nat) (recvd : Nat → Block) (x : Block) : Block :=
  (positions hashes bf x).foldr (fun p acc => recvd p ^^^ acc) 0

/-- OT correctness: the receiver has the string it chose. -/
def OtCorrect (msgs : Nat → Bool → Block) (recvd : Nat → Block) (choice : Nat → Bool) : Prop :=
  ∀ p, recvd p = msgs p (choice p)

/-- The mask the sender computes for `x` when the receiver's set is `R`: at positions set in the receiver's
Bloom filter the string the receiver has, elsewhere the other one. -/
def senderMask (hashes : List (Block → Block)) (bf : Nat) (msgs : Nat → Bool → Block)
    (choice : Nat → Bool) (R : List Block) (x : Block) : Block :=
  (positions hashes bf x).foldr
    (fun p acc => msgs p (if R.any (fun y => (positions hashes bf y).contains p) then choice p
      else !choice p) ^^^ acc) 0

theorem foldl_xor_eq (f : Nat → Block) (ps : List Nat) (a : Block) :
    ps.foldl (fun acc p => acc ^^^ f p) a = a ^^^ ps.foldr (fun p acc => f p ^^^ acc) 0 := by
  induction ps generalizing a with
  | nil => simp
  | cons p ps ih => rw [List.foldl_cons, ih, List.foldr_cons, BitVec.xor_assoc]

theorem xorAt_eq (f : Nat → Block) (ps : List Nat) :
    xorAt f ps = ps.foldr (fun p acc => f p ^^^ acc) 0 := by
  unfold xorAt
  rw [foldl_xor_eq]
  simp

theorem guard_false {bf n : Nat} {l : List Block} (hbf : 0 < bf ∨ n = 0) (hl : l.length = n) :
    ¬(bf = 0 ∧ l ≠ []) := by
  intro ⟨h1, h2⟩
  have := List.length_pos_iff.mpr h2
  omega

/-- C32. If the low halves of the receiver's encodings are different and not zero, the run succeeds; for every
item of the sender, in order, the receiver reports the index of the item with that mask, if there is one; a
common item has the same mask on both sides. -/
theorem C32_correct (hashes : List (Block → Block)) (bf : Nat) (msgs : Nat → Bool → Block)
    (recvd : Nat → Block) (choice : Nat → Bool) (n : Nat) (S R : List Block)
    (hot : OtCorrect msgs recvd choice) (hbf : 0 < bf ∨ n = 0) (hS : S.length = n) (hR : R.length = n)
    (hz : ∀ x ∈ R, (encoding hashes bf recvd x).setWidth 64 ≠ 0#64)
    (hd : R.Pairwise fun x y =>
      (encoding hashes bf recvd x).setWidth 64 ≠ (encoding hashes bf recvd y).setWidth 64) :
    ∃ out, run hashes bf msgs recvd choice n S R = .ok out ∧
      (∀ i x, R[i]? = some x → x ∈ S → i ∈ out) ∧
      (∀ i ∈ out, ∃ y, R[i]? = some y ∧ ∃ x ∈ S,
        senderMask hashes bf msgs choice R x = encoding hashes bf recvd y) ∧
      ((S.map (senderMask hashes bf msgs choice R)).Nodup → out.Nodup) := by
  have hlow : ∀ b : Block, (b.setWidth 64).toNat = low b := by
    intro b
    unfold low
    rw [BitVec.toNat_setWidth]
  have henc : ∀ x, encoding hashes bf recvd x = xorAt recvd (positions hashes bf x) := fun x =>
    (xorAt_eq _ _).symm
  have hg : Good hashes bf recvd R := by
    refine ⟨fun x hx h => hz x hx ?_, hd.imp fun {x y} h e => h ?_⟩
    · apply BitVec.eq_of_toNat_eq
      rw [hlow, henc]; simpa using h
    · apply BitVec.eq_of_toNat_eq
      rw [hlow, hlow, henc, henc]; exact e
  obtain ⟨st, e1, hst⟩ := encodeAll_ok R (enc_init hashes bf recvd) (by simpa using hg)
  rw [List.nil_append] at hst
  have hcorr : ∀ p, (correction st choice p ^^ true) =
      if R.any (fun y => (positions hashes bf y).contains p) then choice p else !choice p := by
    intro p
    unfold correction
    have : st.bf p = R.any (fun y => (positions hashes bf y).contains p) := by
      rw [Bool.eq_iff_iff, hst.bits]
      simp
    rw [this]
    cases R.any (fun y => (positions hashes bf y).contains p) <;> cases choice p <;> rfl
  have hmask : ∀ x, xorAt (fun p => msgs p (correction st choice p ^^ true)) (positions hashes bf x) =
      senderMask hashes bf msgs choice R x := by
    intro x
    unfold senderMask
    rw [← xorAt_eq (fun p => msgs p (if R.any (fun y => (positions hashes bf y).contains p) then choice p
      else !choice p))]
    apply xorAt_congr
    intro p _
    rw [hcorr]
  have hget : ∀ i, (hi : i < R.length) → st.masks.getD i 0 = encoding hashes bf recvd R[i] := by
    intro i hi
    rw [hst.masks, henc]
    simp [List.getD, hi]
  have hf : ∀ m j, find st.map (low m) = some j → st.masks.getD j 0 = m →
      ∃ h : j < R.length, encoding hashes bf recvd R[j] = m := by
    intro m j h1 h2
    have := find_mem h1
    rw [hst.map, List.mem_map] at this
    obtain ⟨k, hk, ek⟩ := this
    injection ek with _ ek
    rw [ek] at hk
    have hj := List.mem_range.mp hk
    exact ⟨hj, by rw [← hget j hj]; exact h2⟩
  have hrun : run hashes bf msgs recvd choice n S R =
      .ok ((S.map (senderMask hashes bf msgs choice R)).filterMap fun m =>
        match find st.map (low m) with
        | some j => if st.masks.getD j 0 = m then some j else none
        | none => none) := by
    unfold run encode
    rw [if_neg (by omega), if_neg (guard_false hbf hR), e1]
    show Out.bind (send ..) _ = _
    unfold send
    rw [if_neg (by omega), if_neg (guard_false hbf hS)]
    show finish .. = _
    unfold finish
    rw [if_neg (by simp [hS]), List.map_congr_left fun x _ => hmask x]
    rfl
  refine ⟨_, hrun, ?_, ?_, ?_⟩
  · intro i x hi hx
    have hlt : i < R.length := by
      apply Classical.byContradiction
      intro h
      rw [List.getElem?_eq_none (by omega)] at hi
      cases hi
    have hxi : R[i] = x := by rw [List.getElem?_eq_getElem hlt] at hi; injection hi
    have hsame : senderMask hashes bf msgs choice R x = encoding hashes bf recvd x := by
      rw [henc, ← hmask]
      apply xorAt_congr
      intro p hp
      rw [hcorr, if_pos, hot p]
      rw [List.any_eq_true]
      exact ⟨x, by rw [← hxi]; exact List.getElem_mem hlt, by simpa using hp⟩
    rw [List.mem_filterMap]
    refine ⟨_, List.mem_map.mpr ⟨x, hx, rfl⟩, ?_⟩
    have := find_own hst hg i hlt
    rw [← henc, hxi, ← hsame] at this
    rw [this]
    simp only
    rw [if_pos (by rw [hget i hlt, hxi, hsame])]
  · intro i hi
    rw [List.mem_filterMap] at hi
    obtain ⟨m, hm, e⟩ := hi
    obtain ⟨x, hx, ex⟩ := List.mem_map.mp hm
    split at e
    · rename_i j ej
      split at e
      · rename_i hj
        injection e with e
        obtain ⟨hlt, h⟩ := hf m j ej hj
        rw [← e]
        exact ⟨R[j], List.getElem?_eq_getElem hlt, x, hx, by rw [ex, h]⟩
      · cases e
    · cases e
  · intro hnd
    unfold List.Nodup
    rw [List.pairwise_filterMap]
    refine hnd.imp ?_
    intro a b hab i hi j hj hij
    apply hab
    have key : ∀ m i, (match find st.map (low m) with
        | some j => if st.masks.getD j 0 = m then some j else none
        | none => none) = some i → st.masks.getD i 0 = m := by
      intro m i h
      split at h
      · split at h
        · rename_i hh; injection h with h; rw [← h]; exact hh
        · cases h
      · cases h
    rw [← key a i hi, ← key b j hj, hij]

/-- C32. Two encodings of the receiver with equal low halves (none of them zero) are detected. -/
theorem C32_collision_detected (hashes : List (Block → Block)) (bf : Nat) (msgs : Nat → Bool → Block)
    (recvd : Nat → Block) (choice : Nat → Bool) (n : Nat) (S R : List Block)
    (hbf : 0 < bf ∨ n = 0) (hR : R.length = n)
    (hz : ∀ x ∈ R, (encoding hashes bf recvd x).setWidth 64 ≠ 0#64)
    (hd : ¬ R.Pairwise fun x y =>
      (encoding hashes bf recvd x).setWidth 64 ≠ (encoding hashes bf recvd y).setWidth 64) :
    run hashes bf msgs recvd choice n S R = .throw := by
  have hlow : ∀ b : Block, (b.setWidth 64).toNat = low b := by
    intro b
    unfold low
    rw [BitVec.toNat_setWidth]
  have henc : ∀ x, encoding hashes bf recvd x = xorAt recvd (positions hashes bf x) := fun x =>
    (xorAt_eq _ _).symm
  unfold run encode
  rw [if_neg (by omega), if_neg (guard_false hbf hR),
    encodeAll_throw R (enc_init hashes bf recvd) _ List.Pairwise.nil]
  · rfl
  · rw [List.nil_append]
    intro h
    apply hd
    refine h.imp fun {x y} h e => h ?_
    have := congrArg BitVec.toNat e
    rw [hlow, hlow, henc, henc] at this
    exact this
  · intro x hx h
    apply hz x hx
    apply BitVec.eq_of_toNat_eq
    rw [hlow, henc]; simpa using h

/-- C32, the Bloom filter positions: each hash function gives two, the low and the high 64 bits of its output. -/
theorem C32_positions (hashes : List (Block → Block)) (bf : Nat) (x : Block) :
    (positions hashes bf x).length = 2 * hashes.length ∧
      ∀ i (h : i < hashes.length),
        (positions hashes bf x)[2 * i]? = some (((hashes[i] x ^^^ x).setWidth 64).toNat % bf) ∧
        (positions hashes bf x)[2 * i + 1]? = some ((((hashes[i] x ^^^ x) >>> 64).setWidth 64).toNat % bf) := by
  induction hashes with
  | nil => exact ⟨rfl, fun i h => by cases h⟩
  | cons f r ih =>
    obtain ⟨h1, h2⟩ := ih
    have e : positions (f :: r) bf x =
        (f x ^^^ x).toNat % 2 ^ 64 % bf :: (f x ^^^ x).toNat / 2 ^ 64 % bf :: positions r bf x := rfl
    refine ⟨by rw [e]; simp only [List.length_cons, h1]; omega, ?_⟩
    intro i hi
    rw [e]
    cases i with
    | zero =>
      have : (f x ^^^ x).toNat / 2 ^ 64 < 2 ^ 64 := by
        have := (f x ^^^ x).isLt
        exact (Nat.div_lt_iff_lt_mul (by decide)).2 (by omega)
      constructor
      · simp only [Nat.mul_zero, List.getElem?_cons_zero, List.getElem_cons_zero]
        rw [BitVec.toNat_setWidth]
      · simp only [Nat.mul_zero, Nat.zero_add, List.getElem?_cons_succ, List.getElem?_cons_zero, List.getElem_cons_zero]
        rw [BitVec.toNat_setWidth, BitVec.toNat_ushiftRight, Nat.shiftRight_eq_div_pow, Nat.mod_eq_of_lt this]
    | succ i =>
      simp only [List.length_cons] at hi
      have := h2 i (by omega)
      rw [show 2 * (i + 1) = 2 * i + 1 + 1 by omega]
      simpa using this

/-- C32, the two positions of a hash function are not tied to each other: every pair occurs. -/
theorem C32_positions_free (bf : Nat) (x : Block) (p q : Nat) (hp : p < bf) (hq : q < bf) (hbf : bf ≤ 2 ^ 64) :
    ∃ v, positions [fun _ => v] bf x = [p, q] := by
  refine ⟨BitVec.ofNat 128 (p + 2 ^ 64 * q) ^^^ x, ?_⟩
  have hlt : p + 2 ^ 64 * q < 2 ^ 128 := by omega
  have e : positions [fun _ => BitVec.ofNat 128 (p + 2 ^ 64 * q) ^^^ x] bf x =
      [(BitVec.ofNat 128 (p + 2 ^ 64 * q) ^^^ x ^^^ x).toNat % 2 ^ 64 % bf,
        (BitVec.ofNat 128 (p + 2 ^ 64 * q) ^^^ x ^^^ x).toNat / 2 ^ 64 % bf] := rfl
  have h3 : (BitVec.ofNat 128 (p + 2 ^ 64 * q) ^^^ x ^^^ x).toNat = p + 2 ^ 64 * q := by
    rw [BitVec.xor_assoc, BitVec.xor_self, BitVec.xor_zero, BitVec.toNat_ofNat, Nat.mod_eq_of_lt hlt]
  rw [e, h3]
  have h1 : (p + 2 ^ 64 * q) % 2 ^ 64 = p := by omega
  have h2 : (p + 2 ^ 64 * q) / 2 ^ 64 = q := by omega
  rw [h1, h2, Nat.mod_eq_of_lt hp, Nat.mod_eq_of_lt hq]

example : positions [fun x => x * 3] 24 5#128 = [10, 0] := by decide +kernel

/-- Hash functions and OT strings for the examples. -/
def demoHashes : List (Block → Block) := [fun x => x * 3, fun x => x * 7 + 2]

def demoMsgs (p : Nat) (b : Bool) : Block := BitVec.ofNat 128 (2 ^ p + if b then 2 ^ (70 + p) else 0)

def demoChoice (p : Nat) : Bool := p % 3 == 0

example : run demoHashes 24 demoMsgs (fun p => demoMsgs p (demoChoice p)) demoChoice 3
    [1#128, 2, 5] [5#128, 9, 2] = .ok [2, 0] := by decide +kernel

/-- Two items of the receiver with the same positions. -/
example : run demoHashes 24 demoMsgs (fun p => demoMsgs p (demoChoice p)) demoChoice 2
    [1#128, 2] [5#128, 5] = .throw := by decide +kernel

end Verif.Dcw
