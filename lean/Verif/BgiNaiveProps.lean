import Verif.BgiProps
import Mathlib.Data.Nat.Init
import Mathlib.Tactic.Positivity
/-
Property C06, what `fullDomainNaive` computes; property C03, `size` of the generator.
-/
namespace Verif.Bgi
open Verif

/-! ### specification -/

/-- The branch that `fullDomainNaive` takes at level `dep` for leaf number `idx`, for keys of depth `d`: bit `dep` of the number (and not bit
`d - 1 - dep`), and always left in the upper half of the tree. -/
def naiveTurn (d idx dep : Nat) : Bool := decide (d ≤ 2 * dep + 1) && (idx / 2 ^ dep % 2 == 1)

/-- The seed reached in `l` levels with the given branches. -/
def seedAt (aes : Bool → Block → Block) (k : List Block) (turn : Nat → Bool) : Nat → Block
  | 0 => k.getD 0 0
  | l + 1 => traverseOne aes (seedAt aes k turn l) (k.getD (l + 1) 0) (turn l)

/-- The records that `fullDomainNaive` selects: bits of the leaf block in their plain order, without the words `g`. -/
def naivePicks (aes : Bool → Block → Block) (depth groupSize : Nat) (key : Key) (p : Nat) : Bool :=
  (leafBlock aes (seedAt aes key.k (naiveTurn depth (p / (groupSize * 128))) depth) (p / 128 % groupSize)).getLsbD (p % 128)

/-! ### lemmas -/

theorem seedAt_congr (aes : Bool → Block → Block) (k : List Block) {turn turn' : Nat → Bool} (l : Nat) (h : ∀ i, i < l → turn i = turn' i) :
    seedAt aes k turn l = seedAt aes k turn' l := by
  induction l with
  | zero => rfl
  | succ l ih => rw [seedAt, seedAt, ih fun i hi => h i (by omega), h l (by omega)]

theorem testBit_mod (n d : Nat) : n.testBit d = (n / 2 ^ d % 2 == 1) := by
  rw [Nat.testBit_eq_decide_div_mod_eq]
  rfl

/-- Bits of the next number below the last bit that changes are 0. -/
theorem low_zero (n d : Nat) (h : d < Nat.log2 ((n + 1) ^^^ n)) : (n + 1) / 2 ^ d % 2 = 0 := by
  have hdvd : 2 ^ (d + 1) ∣ n + 1 := by
    by_contra hno
    have h1 : (n + 1) / 2 ^ (d + 1) = n / 2 ^ (d + 1) := by rw [Nat.succ_div, if_neg hno]; rfl
    rw [← Nat.shiftRight_eq_div_pow, ← Nat.shiftRight_eq_div_pow] at h1
    have h2 : ((n + 1) ^^^ n) >>> (d + 1) = 0 := by rw [Nat.shiftRight_xor_distrib, h1, Nat.xor_self]
    rw [Nat.shiftRight_eq_div_pow] at h2
    have h3 : (n + 1) ^^^ n < 2 ^ (d + 1) := by
      rcases Nat.div_eq_zero_iff.mp h2 with h | h
      · exact absurd h (by positivity)
      · exact h
    have h4 : (n + 1) ^^^ n ≠ 0 := by
      intro h0
      rw [h0] at h
      simp at h
    have := (Nat.log2_lt h4).mpr h3
    omega
  obtain ⟨q, hq⟩ := hdvd
  rw [hq, Nat.pow_succ, Nat.mul_assoc, Nat.mul_div_cancel_left _ (by positivity)]
  omega

/-- The state before leaf number `n`. -/
structure NaiveInv (aes : Bool → Block → Block) (data : List Block) (key : Key) (kDepth n : Nat) (st : NaiveState) : Prop where
  le : st.depth ≤ kDepth
  words : ∀ l, l ≤ st.depth → st.words l = seedAt aes key.k (naiveTurn kDepth n) l
  fresh : ∀ dep, st.depth ≤ dep → dep < kDepth → 2 * dep + 1 < kDepth → n / 2 ^ dep % 2 = 0
  sum : st.sum = xsum (n * (key.g.length * 128)) fun p => if naivePicks aes kDepth key.g.length key p then data.getD p 0 else 0#128

theorem naiveDown (aes : Bool → Block → Block) (key : Key) (kDepth n d : Nat) (w : Nat → Block) (m : Nat) (hm : d + m ≤ kDepth)
    (hw : ∀ l, l ≤ d → w l = seedAt aes key.k (naiveTurn kDepth n) l)
    (hf : ∀ dep, d ≤ dep → dep < kDepth → 2 * dep + 1 < kDepth → n / 2 ^ dep % 2 = 0) :
    ∀ l, l ≤ d + m → (List.range' d m).foldl
      (fun w dep => fun l => if l = dep + 1 then traverseOne aes (w dep) (key.k.getD (dep + 1) 0) (n.testBit dep) else w l) w l =
        seedAt aes key.k (naiveTurn kDepth n) l := by
  induction m with
  | zero => simpa using hw
  | succ m ih =>
    have ih := ih (by omega)
    intro l hl
    rw [List.range'_concat, List.foldl_append]
    simp only [List.foldl_cons, List.foldl_nil, Nat.one_mul]
    by_cases h : l = d + m + 1
    · subst h
      rw [if_pos rfl, ih (d + m) (by omega), seedAt]
      congr 1
      rw [testBit_mod]
      unfold naiveTurn
      by_cases h2 : kDepth ≤ 2 * (d + m) + 1
      · simp [h2]
      · rw [hf (d + m) (by omega) (by omega) (by omega)]
        simp
    · rw [if_neg h, ih l (by omega)]

theorem naive_fold (data : List Block) (b : Nat → Bool) (base m : Nat) (s : Block) :
    (List.range m).foldl (fun s i => if b i then s ^^^ data.getD (base + i) 0 else s) s =
      s ^^^ xsum m fun i => if b i then data.getD (base + i) 0 else 0#128 := by
  induction m with
  | zero => simp [xsum_zero]
  | succ m ih =>
    rw [List.range_succ, List.foldl_append, ih, xsum_succ]
    simp only [List.foldl_cons, List.foldl_nil]
    cases b m <;> simp [BitVec.xor_assoc]

theorem naiveStep_inv (aes : Bool → Block → Block) (data : List Block) (key : Key) (kDepth n : Nat) (st : NaiveState)
    (h : NaiveInv aes data key kDepth n st) : NaiveInv aes data key kDepth (n + 1) (naiveStep aes data key kDepth st n) := by
  have hw := naiveDown aes key kDepth n st.depth st.words (kDepth - st.depth) (by have := h.le; omega) h.words h.fresh
  refine ⟨Nat.sub_le _ _, fun l hl => ?_, fun dep hd hk h2 => ?_, ?_⟩
  · have hl : l ≤ kDepth - (Nat.log2 ((n + 1) ^^^ n) + 1) := hl
    have := hw l (by have := h.le; omega)
    refine Eq.trans this (seedAt_congr aes key.k l fun i hi => ?_)
    unfold naiveTurn
    by_cases h2 : kDepth ≤ 2 * i + 1
    · rw [shift_agree (n + 1) n i (by omega)]
    · simp [h2]
  · have hd : kDepth - (Nat.log2 ((n + 1) ^^^ n) + 1) ≤ dep := hd
    exact low_zero n dep (by omega)
  · rw [Nat.succ_mul, xsum_add, ← h.sum]
    show (List.range (key.g.length * 128)).foldl _ st.sum = _
    rw [naive_fold data]
    congr 1
    apply xsum_congr
    intro i hi
    have e1 : (n * (key.g.length * 128) + i) / (key.g.length * 128) = n := by
      rw [Nat.mul_comm, Nat.mul_add_div (by omega), Nat.div_eq_of_lt hi, Nat.add_zero]
    have e2 : (n * (key.g.length * 128) + i) / 128 % key.g.length = i / 128 := by
      rw [show n * (key.g.length * 128) + i = 128 * (n * key.g.length) + i by rw [← Nat.mul_assoc]; omega, Nat.mul_add_div (by omega),
        Nat.mul_comm n, Nat.mul_add_mod, Nat.mod_eq_of_lt (by omega)]
    have e3 : (n * (key.g.length * 128) + i) % 128 = i % 128 := by
      rw [← Nat.mul_assoc]; omega
    have hi' : i / 128 < key.g.length := by omega
    unfold naivePicks
    rw [e1, e2, e3, ← hw kDepth (by have := h.le; omega), ← Nat.mul_assoc]
    rw [List.getD_eq_getElem?_getD, List.getElem?_map, List.getElem?_range hi']
    rfl

/-! ### properties -/

/-- C06, what the naive evaluation does return: the xor of the records that `naivePicks` selects. Compared to `evalOne` the levels are taken in the
wrong order, half of them always to the left, the bits of a leaf are in another order, and the words `g` are left out. -/
theorem C06_naive_value (aes : Bool → Block → Block) (depth groupSize : Nat) (key : Key) (hk : Shape depth groupSize key) (db : List Block)
    (hdb : db.length = domain depth groupSize) :
    fullDomainNaive aes db key =
      .ok ((List.range db.length).foldl (fun a p => a ^^^ if naivePicks aes depth groupSize key p then db.getD p 0 else 0#128) 0) := by
  obtain ⟨h1, h2⟩ := hk
  have hd : key.k.length - 1 = depth := by omega
  have hall : ∀ n, NaiveInv aes db key depth n ((List.range n).foldl (naiveStep aes db key depth)
      { words := fun _ => key.k.getD 0 0, depth := 0, sum := 0 }) := by
    intro n
    induction n with
    | zero =>
      refine ⟨Nat.zero_le _, fun l hl => ?_, fun dep _ _ _ => by simp, ?_⟩
      · have : l = 0 := Nat.le_zero.mp hl
        subst this
        rfl
      · rw [Nat.zero_mul]
        rfl
    | succ n ih =>
      rw [List.range_succ, List.foldl_append]
      exact naiveStep_inv aes db key depth n _ ih
  unfold fullDomainNaive
  simp only []
  rw [hd, h2, if_neg (by rw [hdb]; unfold domain; simp [Nat.mul_right_comm])]
  congr 1
  rw [(hall (2 ^ depth)).sum, h2, ← Nat.mul_assoc]
  rw [hdb]
  rfl

/-- C06: with keys of depth 2 or more no leaf of the right half of the tree is used, whatever the position. -/
theorem C06_naive_left (depth idx : Nat) (hd : 2 ≤ depth) : naiveTurn depth idx 0 = false := by
  unfold naiveTurn
  have : ¬ depth ≤ 2 * 0 + 1 := by omega
  simp [this]

example : Shape 2 1 ⟨List.replicate 3 9#128, [4#128]⟩ ∧ (List.replicate 512 (5 : Block)).length = domain 2 1 := by
  rw [List.length_replicate]; decide

/-- The two evaluations take different records also if the words `g` are zero. -/
example : naivePicks (fun _ x => x * 3#128) 0 1 ⟨[4#128], [0#128]⟩ 3 = true ∧ evalOne (fun _ x => x * 3#128) 3 ⟨[4#128], [0#128]⟩ = false := by
  decide +kernel

/-- C03, size: `size` of a generator, at any time after `init`, is the number of positions that it announces in total. -/
theorem C03_size (aes : Bool → Block → Block) (depth groupSize : Nat) (key : Key) (hk : Shape depth groupSize key) (old : Gen) (n : Nat) :
    genSize (genCalls aes n (genInit aes old key)).2 = domain depth groupSize := by
  have hkey : ∀ s : Gen, (genYield aes s).2.key = s.key := by
    intro s
    unfold genYield
    simp only []
    split
    · split <;> rfl
    · split <;> rfl
  have : (genCalls aes n (genInit aes old key)).2.key = key := by
    induction n with
    | zero => rfl
    | succ n ih =>
      unfold genCalls at ih ⊢
      rw [List.range_succ, List.foldl_append]
      simp only [List.foldl_cons, List.foldl_nil]
      rw [hkey, ih]
  unfold genSize
  rw [this, hk.1, hk.2]
  rfl

example : Shape 4 2 ⟨List.replicate 5 9#128, List.replicate 2 4#128⟩ := by decide

end Verif.Bgi
