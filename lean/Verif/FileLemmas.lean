import Verif.FileModel
/- Lemmas for the file front end. -/
namespace Verif.File
open Verif

/-- Value of a little-endian list of bytes. -/
def leVal (l : List Nat) : Nat := l.foldr (fun b acc => b + 256 * acc) 0

theorem leVal_lt {l : List Nat} (h : ∀ b ∈ l, b < 256) : leVal l < 256 ^ l.length := by
  induction l with
  | nil => simp [leVal]
  | cons b l ih =>
    have h1 := ih fun x hx => h x (List.mem_cons_of_mem _ hx)
    have h2 := h b (List.mem_cons_self ..)
    show b + 256 * leVal l < _
    rw [List.length_cons, Nat.pow_succ]
    omega

theorem leVal_digit {l : List Nat} (h : ∀ b ∈ l, b < 256) {j : Nat} (hj : j < l.length) :
    leVal l / 256 ^ j % 256 = l[j] := by
  induction l generalizing j with
  | nil => simp at hj
  | cons b l ih =>
    have h2 := h b (List.mem_cons_self ..)
    show (b + 256 * leVal l) / 256 ^ j % 256 = _
    cases j with
    | zero => simp; omega
    | succ j =>
      rw [Nat.pow_succ, Nat.mul_comm (256 ^ j), ← Nat.div_div_eq_div_mul]
      have : (b + 256 * leVal l) / 256 = leVal l := by omega
      rw [this, ih (fun x hx => h x (List.mem_cons_of_mem _ hx)) (by simpa using hj)]
      simp

/-- The value is determined by its base-256 digits. -/
theorem leVal_digits (n k : Nat) : leVal ((List.range k).map fun j => n / 256 ^ j % 256) = n % 256 ^ k := by
  induction k generalizing n with
  | zero => simp [leVal, Nat.mod_one]
  | succ k ih =>
    rw [List.range_succ_eq_map, List.map_cons, List.map_map]
    have e : ((List.range k).map ((fun j => n / 256 ^ j % 256) ∘ Nat.succ)) =
        (List.range k).map fun j => n / 256 / 256 ^ j % 256 := by
      apply List.map_congr_left
      intro j _
      simp only [Function.comp]
      rw [Nat.div_div_eq_div_mul, Nat.pow_succ, Nat.mul_comm (256 ^ j)]
    rw [e]
    show n / 256 ^ 0 % 256 + 256 * leVal _ = _
    rw [ih (n / 256), Nat.pow_succ, Nat.mul_comm (256 ^ k), Nat.mod_mul]
    simp

theorem toBlockBytes_toNat {l : List Nat} (h : ∀ b ∈ l, b < 256) (hl : l.length ≤ 16) :
    (toBlockBytes l).toNat = leVal l := by
  unfold toBlockBytes
  rw [BitVec.toNat_ofNat]
  apply Nat.mod_eq_of_lt
  have h1 := leVal_lt h
  have h2 : 256 ^ l.length ≤ 256 ^ 16 := Nat.pow_le_pow_right (by decide) hl
  have h3 : (256 : Nat) ^ 16 = 2 ^ 128 := by decide
  exact Nat.lt_of_lt_of_le h1 (by omega)

theorem foldl_and_range (n : Nat) (f : Nat → Bool) :
    (List.range n).foldl (fun ret i => ret && f i) true = true ↔ ∀ i, i < n → f i = true := by
  induction n with
  | zero => simp
  | succ n ih =>
    rw [List.range_succ, List.foldl_append]
    simp only [List.foldl_cons, List.foldl_nil, Bool.and_eq_true, ih]
    constructor
    · rintro ⟨h1, h2⟩ i hi
      by_cases e : i = n
      · rw [e]; exact h2
      · exact h1 i (by omega)
    · intro h
      exact ⟨fun i hi => h i (by omega), h n (by omega)⟩

theorem isHexBlock_iff (s : List Nat) :
    isHexBlock s = true ↔ s.length = 32 ∧ ∀ c ∈ s, isxdigit c = true := by
  unfold isHexBlock
  split
  · rename_i h; simp; intro h'; exact absurd h' h
  · rename_i h
    have hl : s.length = 32 := by omega
    rw [foldl_and_range]
    constructor
    · intro h1
      refine ⟨hl, fun c hc => ?_⟩
      obtain ⟨i, hi, rfl⟩ := List.mem_iff_getElem.mp hc
      have := h1 i (by omega)
      simpa only [List.getD, List.getElem?_eq_getElem hi, Option.getD_some] using this
    · rintro ⟨_, h2⟩ i hi
      have hi' : i < s.length := by omega
      simp only [List.getD, List.getElem?_eq_getElem hi', Option.getD_some]
      exact h2 _ (List.getElem_mem _)

theorem hexVal_lt {c : Nat} (h : isxdigit c = true) : hexVal c < 16 := by
  simp only [isxdigit, Bool.or_eq_true, Bool.and_eq_true, decide_eq_true_eq] at h
  unfold hexVal
  split
  · omega
  · split <;> omega

theorem getlines_line (line : List Nat) (h : ∀ c ∈ line, c ≠ 10) (cur rest : List Nat) :
    getlines cur (line ++ 10 :: rest) = (cur ++ line) :: getlines [] rest := by
  induction line generalizing cur with
  | nil => simp [getlines]
  | cons c line ih =>
    rw [List.cons_append, getlines, if_neg (h c (List.mem_cons_self ..)),
      ih (fun x hx => h x (List.mem_cons_of_mem _ hx))]
    simp

theorem getlines_last (line : List Nat) (h : ∀ c ∈ line, c ≠ 10) (cur : List Nat) :
    getlines cur line = if cur ++ line = [] then [] else [cur ++ line] := by
  induction line generalizing cur with
  | nil => simp [getlines]
  | cons c line ih =>
    rw [getlines, if_neg (h c (List.mem_cons_self ..)), ih (fun x hx => h x (List.mem_cons_of_mem _ hx))]
    simp

theorem getlines_all (lines : List (List Nat)) (h : ∀ l ∈ lines, ∀ c ∈ l, c ≠ 10) (tail : List Nat)
    (ht : ∀ c ∈ tail, c ≠ 10) :
    getlines [] (lines.flatMap (fun l => l ++ [10]) ++ tail) =
      lines ++ if tail = [] then [] else [tail] := by
  induction lines with
  | nil => simpa using getlines_last tail ht []
  | cons l lines ih =>
    rw [List.flatMap_cons, List.append_assoc, List.append_assoc]
    simp only [List.cons_append, List.nil_append]
    rw [getlines_line l (h l (List.mem_cons_self ..)), ih (fun x hx => h x (List.mem_cons_of_mem _ hx))]
    simp

theorem debugLoop_le (seen : List Block) (left : Nat) (l : List Block) :
    debugLoop seen left l ≤ left := by
  induction l generalizing seen left with
  | nil => simp [debugLoop]
  | cons x l ih =>
    unfold debugLoop
    split
    · split
      · omega
      · have := ih seen (left - 1); omega
    · exact ih _ _

theorem debugLoop_iff (seen : List Block) {left : Nat} (hl : 0 < left) (l : List Block) :
    debugLoop seen left l = left ↔ (∀ x ∈ l, x ∉ seen) ∧ l.Nodup := by
  induction l generalizing seen with
  | nil => simp [debugLoop]
  | cons x l ih =>
    unfold debugLoop
    by_cases hx : x ∈ seen
    · rw [if_pos hx]
      have : ∀ n, n ≤ left - 1 → n ≠ left := by intro n hn; omega
      constructor
      · intro h
        exfalso
        split at h
        · exact this _ (Nat.le_refl _) h
        · exact this _ (debugLoop_le _ _ _) h
      · rintro ⟨h, _⟩
        exact absurd hx (h x (List.mem_cons_self ..))
    · rw [if_neg hx, ih]
      simp only [List.mem_cons, not_or, List.nodup_cons, forall_eq_or_imp]
      constructor
      · rintro ⟨h1, h2⟩
        refine ⟨⟨hx, fun y hy => (h1 y hy).2⟩, fun hm => (h1 x hm).1 rfl, h2⟩
      · rintro ⟨⟨_, h1⟩, h2, h3⟩
        exact ⟨fun y hy => ⟨fun e => h2 (e ▸ hy), h1 y hy⟩, h3⟩

theorem readBlocks_length (bytes : List Nat) (k : Nat) : (readBlocks bytes k).length = k := by
  induction k generalizing bytes with
  | zero => rfl
  | succ k ih => simp [readBlocks, ih]

theorem readBlocks_get (bytes : List Nat) (k i : Nat) (h : i < k) :
    (readBlocks bytes k)[i]'(by rw [readBlocks_length]; exact h) =
      toBlockBytes ((bytes.drop (16 * i)).take 16) := by
  induction k generalizing bytes i with
  | zero => omega
  | succ k ih =>
    cases i with
    | zero => simp [readBlocks]
    | succ i =>
      simp only [readBlocks, List.getElem_cons_succ]
      rw [ih (bytes.drop 16) i (by omega), List.drop_drop]
      congr 3
      omega

theorem decimal_ne_newline (fuel n : Nat) : ∀ c ∈ decimal fuel n, 48 ≤ c ∧ c ≤ 57 := by
  induction fuel generalizing n with
  | zero => simp [decimal]
  | succ fuel ih =>
    intro c hc
    unfold decimal at hc
    split at hc
    · simp at hc; omega
    · rcases List.mem_append.mp hc with hc | hc
      · exact ih _ c hc
      · simp at hc; omega

theorem decimal_ne_nil (fuel n : Nat) : decimal (fuel + 1) n ≠ [] := by
  unfold decimal
  split <;> simp

/-- Horner evaluation of decimal digits. -/
theorem decimal_value (fuel n : Nat) (h : n < 10 ^ fuel) :
    (decimal fuel n).foldl (fun a c => 10 * a + (c - 48)) 0 = n := by
  induction fuel generalizing n with
  | zero => simp at h; simp [decimal, h]
  | succ fuel ih =>
    unfold decimal
    split
    · simp
    · rw [List.foldl_append, ih (n / 10) (by rw [Nat.pow_succ] at h; omega)]
      simp
      omega

end Verif.File
