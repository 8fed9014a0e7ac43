import Verif.BgiLemmas
/-
Lemmas about the full-domain evaluation and the depth-first walker.
-/
namespace Verif.Bgi
open Verif

/-- XOR of `f 0, …, f (n-1)`. -/
def xsum (n : Nat) (f : Nat → Block) : Block := (List.range n).foldl (fun a i => a ^^^ f i) 0

theorem xsum_zero (f : Nat → Block) : xsum 0 f = 0#128 := rfl

theorem xsum_succ (n : Nat) (f : Nat → Block) : xsum (n + 1) f = xsum n f ^^^ f n := by
  unfold xsum; rw [List.range_succ, List.foldl_append]; rfl

theorem xsum_add (n m : Nat) (f : Nat → Block) :
    xsum (n + m) f = xsum n f ^^^ xsum m (fun i => f (n + i)) := by
  induction m with
  | zero => simp [xsum_zero]
  | succ m ih => rw [← Nat.add_assoc, xsum_succ, ih, xsum_succ, BitVec.xor_assoc]

theorem xsum_mul (a b : Nat) (f : Nat → Block) :
    xsum (a * b) f = xsum a (fun i => xsum b (fun j => f (i * b + j))) := by
  induction a with
  | zero => simp [xsum_zero]
  | succ a ih => rw [Nat.succ_mul, xsum_add, ih, xsum_succ]

theorem xsum_congr {n : Nat} {f g : Nat → Block} (h : ∀ i, i < n → f i = g i) :
    xsum n f = xsum n g := by
  unfold xsum
  apply foldl_range_congr
  intro x i hi; rw [h i hi]

theorem xsum_xor (n : Nat) (f g : Nat → Block) :
    xsum n f ^^^ xsum n g = xsum n (fun i => f i ^^^ g i) := by
  induction n with
  | zero => simp [xsum_zero]
  | succ n ih =>
    rw [xsum_succ, xsum_succ, xsum_succ, ← ih]
    ac_rfl

theorem xsum_single (n k : Nat) (hk : k < n) (v : Block) :
    xsum n (fun i => if i = k then v else 0#128) = v := by
  induction n with
  | zero => omega
  | succ n ih =>
    rw [xsum_succ]
    by_cases h : k = n
    · subst h
      have : xsum k (fun i => if i = k then v else 0#128) = xsum k (fun _ => 0#128) := by
        apply xsum_congr; intro i hi; rw [if_neg (by omega)]
      rw [this, if_pos rfl]
      have hz : ∀ m, xsum m (fun _ => 0#128) = 0#128 := by
        intro m
        induction m with
        | zero => rfl
        | succ m ih => rw [xsum_succ, ih]; rfl
      rw [hz]; simp
    · rw [ih (by omega), if_neg (by omega)]; simp

theorem range_mul (a b : Nat) :
    List.range (a * b) = (List.range a).flatMap fun i => (List.range b).map fun j => i * b + j := by
  induction a with
  | zero => simp
  | succ a ih =>
    rw [Nat.succ_mul, List.range_add, ih, List.range_succ, List.flatMap_append]
    simp

theorem leafBytes_eq (aes : Bool → Block → Block) (s : Block) (g : List Block) :
    leafBytes aes s g = (List.range (g.length * 128)).map fun i => bitByte (leafBit aes s g i) := by
  unfold leafBytes leafBlocks
  rw [range_mul, List.map_flatMap, List.flatMap_map]
  apply flatMap_congr'
  intro i hi
  rw [expandBytes_eq, List.map_map]
  apply List.map_congr_left
  intro j hj
  rw [List.mem_range] at hi hj
  simp only [Function.comp, leafBit]
  have h1 : (i * 128 + j) / 128 = i := by omega
  have h2 : bitPos (i * 128 + j) = bitPos j := by unfold bitPos; omega
  rw [h1, h2]

theorem zip_map_range (data : List Block) (n : Nat) (f : Nat → BitVec 8) (h : n ≤ data.length) :
    data.zip ((List.range n).map f) = (List.range n).map fun i => (data.getD i 0, f i) := by
  apply List.ext_getElem
  · simp [h]
  · intro i h1 h2
    simp at h1 h2
    have h3 : i < data.length := by omega
    simp [h3]

theorem accum_bit (s d : Block) (b : Bool) :
    accum (.ok s) (d, bitByte b) = .ok (s ^^^ (if b then d else 0#128)) := by
  cases b
  · simp [accum, bitByte, zeroAndAllOne]
  · simp only [accum, bitByte, if_true]
    rw [if_neg (by decide), and_zeroAndAllOne]; rfl

theorem foldl_accum (data : List Block) (n : Nat) (b : Nat → Bool) (s : Block)
    (h : n ≤ data.length) :
    (data.zip ((List.range n).map fun i => bitByte (b i))).foldl accum (.ok s) =
      .ok (s ^^^ xsum n (fun i => if b i then data.getD i 0 else 0#128)) := by
  rw [zip_map_range _ _ _ h, List.foldl_map]
  clear h
  induction n with
  | zero => simp [xsum_zero]
  | succ n ih =>
    rw [List.range_succ, List.foldl_append, ih, xsum_succ]
    simp only [List.foldl_cons, List.foldl_nil]
    rw [accum_bit, BitVec.xor_assoc]

theorem firstLevels_eq (aes : Bool → Block → Block) (k : List Block) (n : Nat) :
    firstLevels aes k n = (List.range (2 ^ n)).map fun p => traversePath aes n p k := by
  induction n with
  | zero => simp [firstLevels, traversePath_zero]
  | succ n ih =>
    have : firstLevels aes k (n + 1) = (firstLevels aes k n).flatMap fun s =>
        [traverseOne aes s (k.getD (n + 1) 0) false, traverseOne aes s (k.getD (n + 1) 0) true] := by
      unfold firstLevels; rw [List.range_succ, List.foldl_append]; rfl
    rw [this, ih, Nat.pow_succ, range_mul, List.map_flatMap, List.flatMap_map]
    apply flatMap_congr'
    intro p _
    have hr : List.range 2 = [0, 1] := by decide
    rw [hr]
    simp only [List.map_cons, List.map_nil]
    rw [traversePath_succ, traversePath_succ]
    have h1 : (p * 2 + 0) / 2 = p := by omega
    have h2 : (p * 2 + 1) / 2 = p := by omega
    have h3 : ((p * 2 + 0) % 2 == 1) = false := by
      have : (p * 2 + 0) % 2 = 0 := by omega
      rw [this]; rfl
    have h4 : ((p * 2 + 1) % 2 == 1) = true := by
      have : (p * 2 + 1) % 2 = 1 := by omega
      rw [this]; rfl
    rw [h1, h2, h3, h4]

/-! ### the walker -/

theorem walkLevel_row (aes : Bool → Block → Block) (cw : Nat → Nat → Block) (leaf dEnd : Nat)
    (ss : SS) (d j : Nat) (hd : d < dEnd) :
    walkLevel aes cw leaf dEnd ss d (d + 1) j =
      traverseOne aes (ss d j) (cw d j) (leaf / 2 ^ (dEnd - (d + 1)) % 2 == 1) := by
  unfold walkLevel
  simp only [if_true]
  have h1 : dEnd - 1 - d = dEnd - (d + 1) := by omega
  rw [Nat.and_one_is_mod, Nat.shiftRight_eq_div_pow, h1]
  generalize (leaf / 2 ^ (dEnd - (d + 1)) % 2 == 1) = keep
  unfold traverseOne prg
  cases keep <;> simp [BitVec.xor_comm]

theorem walkLevel_other (aes : Bool → Block → Block) (cw : Nat → Nat → Block) (leaf dEnd : Nat)
    (ss : SS) (d l j : Nat) (hl : l ≠ d + 1) : walkLevel aes cw leaf dEnd ss d l j = ss l j := by
  unfold walkLevel; simp [hl]

theorem shift_agree (a b m : Nat) (h : Nat.log2 (a ^^^ b) < m) : a / 2 ^ m = b / 2 ^ m := by
  rw [← Nat.shiftRight_eq_div_pow, ← Nat.shiftRight_eq_div_pow]
  have h1 : (a ^^^ b) >>> m = 0 := by
    rw [Nat.shiftRight_eq_div_pow]
    apply Nat.div_eq_of_lt
    calc a ^^^ b < 2 ^ (Nat.log2 (a ^^^ b) + 1) := Nat.lt_log2_self
      _ ≤ 2 ^ m := Nat.pow_le_pow_right (by decide) h
  rw [Nat.shiftRight_xor_distrib] at h1
  have h2 := congrArg (· ^^^ (b >>> m)) h1
  simpa [Nat.xor_assoc] using h2

/-- `node j l q`: seed of lane `j` at level `l` for the prefix `q`. -/
structure WalkInv (dEnd : Nat) (node : Nat → Nat → Nat → Block) (w : Walk) : Prop where
  d_le : w.d ≤ dEnd
  rows : ∀ l, l ≤ w.d → ∀ j, w.ss l j = node j l (w.leaf / 2 ^ (dEnd - l))

theorem walkDown_rows (aes : Bool → Block → Block) (cw : Nat → Nat → Block) (dEnd leaf d : Nat)
    (ss : SS) (node : Nat → Nat → Nat → Block)
    (hnode : ∀ j l q, l < dEnd → node j (l + 1) q =
      traverseOne aes (node j l (q / 2)) (cw l j) (q % 2 == 1))
    (n : Nat) (hn : d + n ≤ dEnd)
    (hrows : ∀ l, l ≤ d → ∀ j, ss l j = node j l (leaf / 2 ^ (dEnd - l))) :
    ∀ l, l ≤ d + n → ∀ j,
      (List.range' d n).foldl (walkLevel aes cw leaf dEnd) ss l j =
        node j l (leaf / 2 ^ (dEnd - l)) := by
  induction n with
  | zero => simpa using hrows
  | succ n ih =>
    have ih := ih (by omega)
    rw [List.range'_concat, List.foldl_append]
    simp only [List.foldl_cons, List.foldl_nil, Nat.one_mul]
    intro l hl j
    by_cases h : l = d + n + 1
    · subst h
      rw [walkLevel_row _ _ _ _ _ _ _ (by omega), ih (d + n) (by omega) j, hnode _ _ _ (by omega)]
      congr 2
      rw [Nat.div_div_eq_div_mul, ← Nat.pow_succ]
      congr 2; omega
    · rw [walkLevel_other _ _ _ _ _ _ _ _ h, ih l (by omega) j]

theorem walkNext_out (aes : Bool → Block → Block) (cw : Nat → Nat → Block) (dEnd : Nat)
    (node : Nat → Nat → Nat → Block)
    (hnode : ∀ j l q, l < dEnd → node j (l + 1) q =
      traverseOne aes (node j l (q / 2)) (cw l j) (q % 2 == 1))
    (w : Walk) (h : WalkInv dEnd node w) (j : Nat) :
    (walkNext aes cw dEnd w).1 j = node j dEnd w.leaf := by
  unfold walkNext walkDown
  have := walkDown_rows aes cw dEnd w.leaf w.d w.ss node hnode (dEnd - w.d)
    (by have := h.d_le; omega) h.rows dEnd (by have := h.d_le; omega) j
  simp only []
  rw [this, Nat.sub_self, Nat.pow_zero, Nat.div_one]

theorem walkNext_inv (aes : Bool → Block → Block) (cw : Nat → Nat → Block) (dEnd : Nat)
    (node : Nat → Nat → Nat → Block)
    (hnode : ∀ j l q, l < dEnd → node j (l + 1) q =
      traverseOne aes (node j l (q / 2)) (cw l j) (q % 2 == 1))
    (w : Walk) (h : WalkInv dEnd node w) (hleaf : w.leaf + 1 < 2 ^ dEnd) :
    WalkInv dEnd node (walkNext aes cw dEnd w).2 := by
  have hup : walkUp w.leaf dEnd = dEnd - (Nat.log2 ((w.leaf + 1) ^^^ w.leaf) + 1) := rfl
  have hlog : Nat.log2 ((w.leaf + 1) ^^^ w.leaf) < dEnd := by
    have hx : (w.leaf + 1) ^^^ w.leaf < 2 ^ dEnd := Nat.xor_lt_two_pow hleaf (by omega)
    have hne : (w.leaf + 1) ^^^ w.leaf ≠ 0 := by
      intro h0
      have h1 := congrArg (· ^^^ w.leaf) h0
      simp [Nat.xor_assoc] at h1
    exact (Nat.log2_lt hne).mpr hx
  constructor
  · show walkUp w.leaf dEnd ≤ dEnd
    rw [hup]; omega
  · intro l hl j
    have hl' : l ≤ walkUp w.leaf dEnd := hl
    rw [hup] at hl'
    have := walkDown_rows aes cw dEnd w.leaf w.d w.ss node hnode (dEnd - w.d)
      (by have := h.d_le; omega) h.rows l (by have := h.d_le; omega) j
    show walkDown aes cw w.leaf dEnd w.d w.ss l j = node j l ((w.leaf + 1) / 2 ^ (dEnd - l))
    unfold walkDown
    rw [this, shift_agree (w.leaf + 1) w.leaf (dEnd - l) (by omega)]

/-! ### fullDomain -/

/-- XOR of the records selected by the bits of a key (the share the server must return). -/
def shareOf (aes : Bool → Block → Block) (data : List Block) (key : Key) : Block :=
  xsum data.length (fun i => if evalOne aes i key then data.getD i 0 else 0#128)

/-- Contribution of the leaf number `n`. -/
def nodeShare (aes : Bool → Block → Block) (data : List Block) (key : Key) (n : Nat) : Block :=
  xsum (key.g.length * 128) (fun i =>
    if leafBit aes (traversePath aes (key.k.length - 1) n key.k) key.g i then
      data.getD (n * (key.g.length * 128) + i) 0 else 0#128)

theorem shareOf_eq (aes : Bool → Block → Block) (data : List Block) (key : Key)
    (hg : 0 < key.g.length) (n : Nat) (hn : data.length = n * (key.g.length * 128)) :
    shareOf aes data key = xsum n (nodeShare aes data key) := by
  unfold shareOf
  rw [hn, xsum_mul]
  apply xsum_congr
  intro i _
  unfold nodeShare
  apply xsum_congr
  intro j hj
  rw [evalOne_eq _ _ _ hg]
  have h1 : (i * (key.g.length * 128) + j) / (key.g.length * 128) = i := by
    rw [Nat.mul_comm, Nat.mul_add_div (by omega), Nat.div_eq_of_lt hj, Nat.add_zero]
  have h2 : (i * (key.g.length * 128) + j) % (key.g.length * 128) = j := by
    rw [Nat.mul_comm, Nat.mul_add_mod, Nat.mod_eq_of_lt hj]
  rw [h1, h2]

theorem small_bytes (aes : Bool → Block → Block) (key : Key) (m : Nat) (node : Nat → Block) :
    (((List.range m).map node).flatMap fun s => leafBytes aes s key.g) =
      (List.range (m * (key.g.length * 128))).map fun i =>
        bitByte (leafBit aes (node (i / (key.g.length * 128))) key.g (i % (key.g.length * 128))) := by
  rw [range_mul, List.map_flatMap, List.flatMap_map]
  apply flatMap_congr'
  intro i _
  rw [leafBytes_eq, List.map_map]
  apply List.map_congr_left
  intro j hj
  rw [List.mem_range] at hj
  simp only [Function.comp]
  have h1 : (i * (key.g.length * 128) + j) / (key.g.length * 128) = i := by
    rw [Nat.mul_comm, Nat.mul_add_div (by omega), Nat.div_eq_of_lt hj, Nat.add_zero]
  have h2 : (i * (key.g.length * 128) + j) % (key.g.length * 128) = j := by
    rw [Nat.mul_comm, Nat.mul_add_mod, Nat.mod_eq_of_lt hj]
  rw [h1, h2]

theorem fullDomainSmall_eq (aes : Bool → Block → Block) (data : List Block) (key : Key)
    (hg : 0 < key.g.length) (hd : key.k.length - 1 < 3)
    (hlen : data.length = 2 ^ (key.k.length - 1) * (key.g.length * 128)) :
    fullDomainSmall aes data key = .ok (shareOf aes data key) := by
  unfold fullDomainSmall
  have hmin : min 3 (key.k.length - 1) = key.k.length - 1 := by omega
  simp only []
  rw [hmin, firstLevels_eq, small_bytes, foldl_accum _ _ _ _ (by omega)]
  unfold shareOf
  rw [hlen]
  congr 1
  rw [show (0 : Block) = 0#128 from rfl, BitVec.zero_xor]
  apply xsum_congr
  intro i hi
  rw [evalOne_eq _ _ _ hg]

theorem xorOut_fold (f : Nat → Block) (r : Nat → Out Block) (n : Nat) (h : ∀ j, j < n → r j = .ok (f j))
    (a : Block) :
    (List.range n).foldl (fun acc j => xorOut acc (r j)) (.ok a) = .ok (a ^^^ xsum n f) := by
  induction n with
  | zero => simp [xsum_zero]
  | succ n ih =>
    rw [List.range_succ, List.foldl_append, ih (fun j hj => h j (by omega)), xsum_succ]
    simp only [List.foldl_cons, List.foldl_nil]
    rw [h n (by omega)]
    simp [xorOut, BitVec.xor_assoc]

theorem getD_drop (l : List Block) (n i : Nat) : (l.drop n).getD i 0 = l.getD (n + i) 0 := by
  simp [List.getD]

/-- Lane `j` of the eight-lane walker: the nodes below the `j`-th node of level 3. -/
def lane8 (aes : Bool → Block → Block) (k : List Block) (j l q : Nat) : Block :=
  traversePath aes (3 + l) (j * 2 ^ l + q) k

theorem lane8_succ (aes : Bool → Block → Block) (k : List Block) (j l q : Nat) :
    lane8 aes k j (l + 1) q =
      traverseOne aes (lane8 aes k j l (q / 2)) (k.getD (l + 4) 0) (q % 2 == 1) := by
  unfold lane8
  rw [← Nat.add_assoc, traversePath_succ]
  have h0 : j * 2 ^ (l + 1) = 2 * (j * 2 ^ l) := by rw [Nat.pow_succ]; ac_rfl
  have h1 : (j * 2 ^ (l + 1) + q) / 2 = j * 2 ^ l + q / 2 := by omega
  have h2 : (j * 2 ^ (l + 1) + q) % 2 = q % 2 := by omega
  have h3 : 3 + l + 1 = l + 4 := by omega
  rw [h1, h2, h3]

theorem walk0_inv (dEnd : Nat) (ss0 : SS)
    (node : Nat → Nat → Nat → Block) (h0 : ∀ j, ss0 0 j = node j 0 0) :
    WalkInv dEnd node { leaf := 0, d := 0, ss := ss0 } := by
  constructor
  · exact Nat.zero_le _
  · intro l hl j
    have : l = 0 := Nat.le_zero.mp hl
    subst this
    simp [h0]

/-- The partial sums of the eight-lane loop after `m` leaves. -/
theorem fdLoop (aes : Bool → Block → Block) (data : List Block) (key : Key) (dEnd : Nat)
    (hdE : key.k.length - 1 = dEnd + 3)
    (hlen : data.length = 2 ^ (dEnd + 3) * (key.g.length * 128))
    (node : Nat → Nat → Nat → Block)
    (hstep : ∀ j l q, l < dEnd → node j (l + 1) q =
      traverseOne aes (node j l (q / 2)) (key.k.getD (l + 4) 0) (q % 2 == 1))
    (hnode : ∀ j, j < 8 → ∀ q, node j dEnd q = lane8 aes key.k j dEnd q) (w0 : Walk) (h0 : w0.leaf = 0)
    (hinv : WalkInv dEnd node w0) (m : Nat) (hm : m ≤ 2 ^ dEnd) :
    let r := (List.range m).foldl (fdStep aes data key dEnd) (w0, fun _ => .ok 0)
    r.1.leaf = m ∧ (m < 2 ^ dEnd → WalkInv dEnd node r.1) ∧
      ∀ j, j < 8 → r.2 j = .ok (xsum m (fun q => nodeShare aes data key (j * 2 ^ dEnd + q))) := by
  induction m with
  | zero => exact ⟨h0, fun _ => hinv, fun j _ => rfl⟩
  | succ m ih =>
    obtain ⟨ih1, ih2, ih3⟩ := ih (by omega)
    replace ih2 := ih2 (by omega)
    intro r
    have hr : r = fdStep aes data key dEnd
        ((List.range m).foldl (fdStep aes data key dEnd) (w0, fun _ => .ok 0)) m := by
      simp only [r]; rw [List.range_succ, List.foldl_append]; rfl
    clear_value r
    revert ih1 ih2 ih3 hr
    generalize (List.range m).foldl (fdStep aes data key dEnd) (w0, fun _ => .ok 0) = p
    intro ih1 ih3 ih2 hr
    rw [hr]
    refine ⟨?_, ?_, ?_⟩
    · show p.1.leaf + 1 = m + 1
      rw [ih1]
    · intro hlt
      exact walkNext_inv aes _ dEnd node hstep p.1 ih2 (by rw [ih1]; exact hlt)
    · intro j hj
      unfold fdStep
      simp only []
      rw [walkNext_out aes _ dEnd node hstep p.1 ih2 j, ih3 j hj, hnode j hj, leafBytes_eq, ih1]
      have hpow : 2 ^ (dEnd + 3) = 8 * 2 ^ dEnd := by rw [Nat.pow_add]; omega
      have hbound : (j * 2 ^ dEnd + m) * (key.g.length * 128) + key.g.length * 128 ≤ data.length := by
        rw [hlen, hpow]
        have : j * 2 ^ dEnd + m + 1 ≤ 8 * 2 ^ dEnd := by
          have : j * 2 ^ dEnd ≤ 7 * 2 ^ dEnd := Nat.mul_le_mul_right _ (by omega)
          omega
        calc (j * 2 ^ dEnd + m) * (key.g.length * 128) + key.g.length * 128
            = (j * 2 ^ dEnd + m + 1) * (key.g.length * 128) := by rw [Nat.add_mul _ 1, Nat.one_mul]
          _ ≤ _ := Nat.mul_le_mul_right _ this
      rw [Nat.shiftLeft_eq, Nat.mul_assoc (j * 2 ^ dEnd + m)]
      rw [foldl_accum _ _ _ _ (by rw [List.length_drop]; omega), xsum_succ]
      congr 2
      unfold nodeShare lane8
      rw [hdE, Nat.add_comm dEnd 3]
      apply xsum_congr
      intro i _
      rw [getD_drop]

theorem fullDomainLarge_eq (aes : Bool → Block → Block) (data : List Block) (key : Key)
    (hg : 0 < key.g.length) (hd : ¬ key.k.length - 1 < 3)
    (hlen : data.length = 2 ^ (key.k.length - 1) * (key.g.length * 128)) :
    fullDomainLarge aes data key = .ok (shareOf aes data key) := by
  have hdE : key.k.length - 1 = (max (key.k.length - 1) 3 - 3) + 3 := by omega
  unfold fullDomainLarge
  simp only []
  revert hdE
  generalize max (key.k.length - 1) 3 - 3 = dEnd
  intro hdE
  have hlen' : data.length = 2 ^ (dEnd + 3) * (key.g.length * 128) := by rw [← hdE]; exact hlen
  have key2 := fdLoop aes data key dEnd hdE hlen' (fun j l q =>
    if j < 8 then lane8 aes key.k j l q
    else traversePath aes l q (0 :: key.k.drop 4))
    (by
      intro j l q _
      by_cases hj : j < 8
      · simp only [hj, if_true]; exact lane8_succ aes key.k j l q
      · simp only [hj, if_false]; rw [traversePath_succ]
        congr 1
        simp [List.getD]
        congr 2; omega)
    (by intro j hj q; simp [hj])
    { leaf := 0, d := 0, ss := fun d j => if d = 0 then (firstLevels aes key.k 3).getD j 0 else 0 }
    rfl
    (by
      apply walk0_inv
      intro j
      simp only [if_true]
      rw [firstLevels_eq]
      by_cases hj : j < 8
      · simp only [hj, if_true]
        rw [getD_map_range _ _ _ hj]
        simp [lane8]
      · simp only [hj, if_false]
        simp [List.getD, traversePath_zero, hj])
    (2 ^ dEnd) (Nat.le_refl _)
  obtain ⟨_, _, hs⟩ := key2
  rw [xorOut_fold (fun j => xsum (2 ^ dEnd) (fun q => nodeShare aes data key (j * 2 ^ dEnd + q)))
    _ 8 hs]
  rw [shareOf_eq aes data key hg (8 * 2 ^ dEnd) (by rw [hlen', Nat.pow_add]; congr 1; omega),
    xsum_mul, show (0 : Block) = 0#128 from rfl, BitVec.zero_xor]

theorem fullDomain_eq (aes : Bool → Block → Block) (data : List Block) (key : Key)
    (hg : 0 < key.g.length)
    (hlen : data.length = 2 ^ (key.k.length - 1) * key.g.length * 128) :
    fullDomain aes data key = .ok (shareOf aes data key) := by
  unfold fullDomain
  rw [if_neg (by omega)]
  rw [Nat.mul_assoc] at hlen
  split
  · exact fullDomainSmall_eq aes data key hg ‹_› hlen
  · exact fullDomainLarge_eq aes data key hg ‹_› hlen

end Verif.Bgi
