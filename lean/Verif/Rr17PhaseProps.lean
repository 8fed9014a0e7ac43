import Verif.Rr17PhaseLemmas
import Verif.PartProps
/-
Properties C37, C40, C64: hashing of inputs to bins in RR17a and RR17b.
-/
namespace Verif.Rr17
open Verif Part

/-- `shiftRight` is the shift of the whole 128-bit register, for every count that can occur. -/
theorem C37_shift (v : Block) (n : Nat) (hn : n ≤ 64) : shiftRight v n = v >>> n := shiftRight_eq v hn

/-- C37, exact condition: bin address and shortened item determine the item if and only if the number of bins is
at least the power of two by which items are divided. -/
theorem C37_lossless_iff_partial (N B : Nat) (hN : N < 2 ^ 64) (hB : 0 < B) :
    (∀ x y : Block, phase N B x = phase N B y → x = y) ↔ 2 ^ log2ceil N ≤ B := by
  have hs := log2ceil_le N hN
  have hp : 2 ^ log2ceil N ≤ 2 ^ 64 := Nat.pow_le_pow_right (by omega) hs
  have hd : 2 ^ 64 = 2 ^ log2ceil N * 2 ^ (64 - log2ceil N) := by
    rw [← Nat.pow_add]; congr 1; omega
  constructor
  · intro h
    refine Classical.byContradiction fun hlt => ?_
    have hlt : B < 2 ^ log2ceil N := by omega
    have hB64 : B < 2 ^ 64 := by omega
    have hBn : (BitVec.ofNat 128 B).toNat = B := by
      rw [BitVec.toNat_ofNat]; apply Nat.mod_eq_of_lt; omega
    have := h 0#128 (BitVec.ofNat 128 B) (by
      apply Prod.ext
      · show addr B _ = addr B _
        unfold addr
        rw [low64, low64, hBn, Nat.mod_eq_of_lt hB64, Nat.mod_self]
        simp
      · show shiftRight _ _ = shiftRight _ _
        apply BitVec.eq_of_toNat_eq
        rw [shiftRight_toNat _ hs, shiftRight_toNat _ hs, hBn, Nat.div_eq_of_lt hlt]
        simp)
    have e := congrArg BitVec.toNat this
    rw [hBn] at e
    simp at e
    omega
  · intro hle x y hxy
    have h1 : x.toNat % 2 ^ 64 % B = y.toNat % 2 ^ 64 % B := by
      have := congrArg Prod.fst hxy
      simpa only [phase, addr, low64] using this
    have h2 : x.toNat / 2 ^ log2ceil N = y.toNat / 2 ^ log2ceil N := by
      have := congrArg (fun p => p.2.toNat) hxy
      simpa only [phase, shiftRight_toNat _ hs] using this
    have h3 : x.toNat / 2 ^ 64 = y.toNat / 2 ^ 64 := by
      rw [hd, ← Nat.div_div_eq_div_mul, ← Nat.div_div_eq_div_mul, h2]
    apply BitVec.eq_of_toNat_eq
    generalize hP : 2 ^ log2ceil N = P at *
    have hP0 : 0 < P := by rw [← hP]; exact Nat.pow_pos (by omega)
    have x1 := Nat.div_add_mod x.toNat (2 ^ 64)
    have y1 := Nat.div_add_mod y.toNat (2 ^ 64)
    have x2 := Nat.div_add_mod x.toNat P
    have y2 := Nat.div_add_mod y.toNat P
    have x3 := Nat.mod_lt x.toNat hP0
    have y3 := Nat.mod_lt y.toNat hP0
    rw [h3] at x1
    rw [h2] at x2
    have x4 := Nat.div_add_mod (x.toNat % 2 ^ 64) B
    have y4 := Nat.div_add_mod (y.toNat % 2 ^ 64) B
    rw [h1] at x4
    generalize x.toNat % 2 ^ 64 = a at *
    generalize y.toNat % 2 ^ 64 = b at *
    have hab : a < b + B ∧ b < a + B := by omega
    have hq : a / B = b / B := by
      have e1 : a / B < b / B + 1 ∨ b / B + 1 ≤ a / B := by omega
      have e2 : b / B < a / B + 1 ∨ a / B + 1 ≤ b / B := by omega
      rcases e1 with e1 | e1
      · rcases e2 with e2 | e2
        · omega
        · have := Nat.mul_le_mul_left B e2
          rw [Nat.mul_add] at this
          omega
      · have := Nat.mul_le_mul_left B e1
        rw [Nat.mul_add] at this
        omega
    rw [hq] at x4
    omega

/-- With as many bins as items (`binScaler = 1`, the default) the condition of C37 is that the number of items is
a power of two. -/
theorem C37_default_bins (N : Nat) (hN : N < 2 ^ 64) (h0 : 0 < N) :
    (∀ x y : Block, phase N N x = phase N N y → x = y) ↔ ∃ k, N = 2 ^ k := by
  rw [C37_lossless_iff_partial N N hN h0]
  constructor
  · intro h
    exact ⟨log2ceil N, Nat.le_antisymm (le_two_pow_log2ceil N) h⟩
  · rintro ⟨k, rfl⟩
    have := two_pow_log2ceil_lt (2 ^ k) h0
    rw [← Nat.pow_succ'] at this
    have := (Nat.pow_lt_pow_iff_right (a := 2) (by omega)).mp this
    exact Nat.pow_le_pow_right (by omega) (by omega)

/-- C37 is false of the code: five items, five bins, the items 0 and 5. -/
theorem C37_lossy : ¬ ∀ (N B : Nat), 0 < N → N ≤ B → ∀ x y : Block, phase N B x = phase N B y → x = y := by
  intro h
  have := h 5 5 (by omega) (by omega) 0#128 5#128 (by decide)
  simp at this

/-- The condition can hold and can fail. -/
example : 2 ^ log2ceil 4096 ≤ 4096 ∧ ¬ 2 ^ log2ceil 5000 ≤ 5000 := by decide

/-- C40: what the caller's vector contains after a call of `sendInput`, for every order in which the threads
process their items. -/
theorem C40_caller_input_partial (hash : Option (Block → Block)) (N B T : Nat) (inputs : List Block) (order : List Nat)
    (hT : 0 < T) (hov : N * T < 2 ^ 64) (hlen : inputs.length = N)
    (ho : order.Perm ((List.range T).flatMap (threadIdx N T))) :
    inputsAfter hash N B inputs order =
      if hash.isSome then inputs else inputs.map fun x : Block => BitVec.ushiftRight x (log2ceil N) := by
  have ho' : order.Perm (List.range N) := by
    rw [show (List.range T).flatMap (threadIdx N T) = List.range N from C31_scaled_ranges N T hT hov] at ho
    exact ho
  have hNT : N ≤ N * T := Nat.le_mul_of_pos_right N hT
  cases hash with
  | some h => rfl
  | none =>
    have hr : ∀ i ∈ order, i < inputs.length := fun i hi => by
      rw [hlen]; exact List.mem_range.mp (ho'.mem_iff.mp hi)
    obtain ⟨_, hl, hg⟩ := foldl_none N B inputs order ((ho'.nodup_iff).mpr List.nodup_range) inputs [] hr
    change (order.foldl (phaseStep none N B inputs) (inputs, [])).1 = _
    rw [if_neg (by simp)]
    apply List.ext_getElem
    · rw [hl, List.length_map]
    · intro k h1 h2
      rw [List.length_map] at h2
      have hm : k ∈ order := ho'.mem_iff.mpr (List.mem_range.mpr (by omega))
      have := hg k
      rw [Kkrt.getD_eq h1, if_pos hm, Kkrt.getD_eq h2] at this
      rw [this, List.getElem_map]
      exact shiftRight_eq _ (log2ceil_le N (by omega))

/-- C40 is false of the code: without hashing the vector is changed. -/
theorem C40_changed : ¬ ∀ (hash : Option (Block → Block)) (N B T : Nat) (inputs : List Block) (order : List Nat), 0 < T →
    inputs.length = N → order.Perm ((List.range T).flatMap (threadIdx N T)) →
    inputsAfter hash N B inputs order = inputs := by
  intro h
  have := h none 2 2 1 [6#128, 7#128] [0, 1] (by omega) rfl (by decide)
  revert this
  decide

example : inputsAfter none 2 2 [6#128, 7#128] [0, 1] = [3#128, 3#128] ∧
    (phaseRun none 2 2 [6#128, 7#128] [1, 0]).2 = [(1, 1), (0, 0)] := by decide

/-- The insertions and the OT inputs of RR17a for every order of the threads: item `i` goes to the bin of its own
(hashed) value and is shortened once. -/
theorem C40_ot_inputs (hash : Option (Block → Block)) (N B T : Nat) (inputs : List Block) (order : List Nat)
    (hT : 0 < T) (hov : N * T < 2 ^ 64) (hlen : inputs.length = N)
    (ho : order.Perm ((List.range T).flatMap (threadIdx N T))) :
    (phaseRun hash N B inputs order).1 = inputs.map (fun x => (phase N B (hash.elim x fun h => h x)).2) ∧
    (phaseRun hash N B inputs order).2.Perm ((List.range N).map fun i =>
      ((phase N B (hash.elim (inputs.getD i 0) fun h => h (inputs.getD i 0))).1, i)) := by
  have ho' : order.Perm (List.range N) := by
    rw [show (List.range T).flatMap (threadIdx N T) = List.range N from C31_scaled_ranges N T hT hov] at ho
    exact ho
  have hnd := (ho'.nodup_iff).mpr List.nodup_range
  cases hash with
  | none =>
    have hr : ∀ i ∈ order, i < inputs.length := fun i hi => by
      rw [hlen]; exact List.mem_range.mp (ho'.mem_iff.mp hi)
    obtain ⟨ha, hl, hg⟩ := foldl_none N B inputs order hnd inputs [] hr
    change (order.foldl (phaseStep none N B inputs) (inputs, [])).1 = _ ∧
      (order.foldl (phaseStep none N B inputs) (inputs, [])).2.Perm _
    rw [ha, List.nil_append]
    refine ⟨?_, ho'.map _⟩
    apply List.ext_getElem
    · rw [hl, List.length_map]
    · intro k h1 h2
      rw [List.length_map] at h2
      have hm : k ∈ order := ho'.mem_iff.mpr (List.mem_range.mpr (by omega))
      have := hg k
      rw [Kkrt.getD_eq h1, if_pos hm, Kkrt.getD_eq h2] at this
      rw [this, List.getElem_map]
      rfl
  | some h =>
    have hr : ∀ i ∈ order, i < (List.replicate N (0 : Block)).length := fun i hi => by
      rw [List.length_replicate]; exact List.mem_range.mp (ho'.mem_iff.mp hi)
    obtain ⟨ha, hl, hg⟩ := foldl_some h N B inputs order hnd (List.replicate N 0) [] hr
    change (order.foldl (phaseStep (some h) N B inputs) (List.replicate N 0, [])).1 = _ ∧
      (order.foldl (phaseStep (some h) N B inputs) (List.replicate N 0, [])).2.Perm _
    rw [ha, List.nil_append]
    refine ⟨?_, ho'.map _⟩
    apply List.ext_getElem
    · rw [hl, List.length_replicate, List.length_map, hlen]
    · intro k h1 h2
      rw [List.length_map] at h2
      have hm : k ∈ order := ho'.mem_iff.mpr (List.mem_range.mpr (by omega))
      have := hg k
      rw [Kkrt.getD_eq h1, if_pos hm, Kkrt.getD_eq h2] at this
      rw [this, List.getElem_map]
      rfl

/-- C64, RR17a: with an input length of `b` bits, the shortened items fit into the length for which the OTs are
configured. -/
theorem C64_ot_input_fits_partial (statSec N b : Nat) (hN : N < 2 ^ 64) (hb : log2ceil N ≤ b) (hb' : b < 2 ^ 64)
    (x : Block) (hx : x.toNat < 2 ^ b) :
    (phase N 1 x).2.toNat < 2 ^ (initBits statSec N (some b)).1 := by
  have hs := log2ceil_le N hN
  have e : (initBits statSec N (some b)).1 = b - log2ceil N := by
    change (b + (2 ^ 64 - log2ceil N)) % 2 ^ 64 = _
    rw [show b + (2 ^ 64 - log2ceil N) = (b - log2ceil N) + 2 ^ 64 by omega, Nat.add_mod_right,
      Nat.mod_eq_of_lt (by omega)]
  rw [e]
  change (shiftRight x (log2ceil N)).toNat < _
  rw [shiftRight_toNat _ hs]
  rw [Nat.div_lt_iff_lt_mul (Nat.pow_pos (by omega)), ← Nat.pow_add, Nat.sub_add_cancel hb]
  exact hx

/-- C64 is false of RR17b: its OT inputs are not shortened, so for every set of at least two items there are two
inputs of the announced length whose OT inputs agree in all bits that the OTs are configured for. -/
theorem C64_rr17b (statSec N b B : Nat) (hN : 2 ≤ N) (hN' : N < 2 ^ 64) (hb : log2ceil N ≤ b) (hb' : b ≤ 128)
    (aes : Block → Block) :
    ∃ x y : Block, x.toNat < 2 ^ b ∧ y.toNat < 2 ^ b ∧ x ≠ y ∧
      (phaseB aes B x).2.toNat % 2 ^ (initBits statSec N (some b)).1 =
        (phaseB aes B y).2.toNat % 2 ^ (initBits statSec N (some b)).1 := by
  have hs := log2ceil_le N hN'
  have e : (initBits statSec N (some b)).1 = b - log2ceil N := by
    change (b + (2 ^ 64 - log2ceil N)) % 2 ^ 64 = _
    rw [show b + (2 ^ 64 - log2ceil N) = (b - log2ceil N) + 2 ^ 64 by omega, Nat.add_mod_right,
      Nat.mod_eq_of_lt (by omega)]
  have h1 : 1 ≤ log2ceil N := by unfold log2ceil; split <;> omega
  have hlt : 2 ^ (b - log2ceil N) < 2 ^ b := Nat.pow_lt_pow_right (by omega) (by omega)
  have hlt' : 2 ^ (b - log2ceil N) < 2 ^ 128 :=
    Nat.lt_of_lt_of_le hlt (Nat.pow_le_pow_right (by omega) hb')
  have hy : (BitVec.ofNat 128 (2 ^ (b - log2ceil N))).toNat = 2 ^ (b - log2ceil N) := by
    rw [BitVec.toNat_ofNat]; exact Nat.mod_eq_of_lt hlt'
  have hpos : 0 < 2 ^ (b - log2ceil N) := Nat.pow_pos (by omega)
  refine ⟨0#128, BitVec.ofNat 128 (2 ^ (b - log2ceil N)), ?_, ?_, ?_, ?_⟩
  · simp; exact Nat.pow_pos (by omega)
  · rw [hy]; exact hlt
  · intro he
    have := congrArg BitVec.toNat he
    rw [hy] at this
    simp at this
    omega
  · change (0#128).toNat % _ = (BitVec.ofNat 128 (2 ^ (b - log2ceil N))).toNat % _
    rw [hy, e, Nat.mod_self]
    simp

example : (initBits 40 1024 (some 32)).1 = 22 ∧ (initBits 40 1024 none).1 = 49 := by decide

end Verif.Rr17
