import Verif.InitProps
import Verif.OnlineProps
import Verif.HasherProps
import Verif.PrtyOrderProps
/-
Property theorems that fix numbers which the theorems about matching messages leave open: base OTs (C90), bytes of the DKT masks
(C94), the end of a row of hashes (C15), and the order in which PRTY sorts (C143).
-/

namespace Verif.Init
open Verif Session

/-- C90: whenever base OTs are made, there are 128 of them, in every protocol and on both sides. -/
theorem C90_base_ots (E : Env) (A : Args) (ch : Nat) (sender : Bool) (k : Nat)
    (h : Act.ot .base sender k ∈ rr17aRecv E A ch ++ rr17aSend E A ch ++ rr17bRecv E A ch ++ rr17bSend E A ch ++
      grr18Recv E A ch ++ grr18Send E A ch ++ dcwRecv A ch ++ dcwSend A ch ++ kkrtRecv E A ++ kkrtSend E A) : k = 128 := by
  simp only [List.mem_append] at h
  rcases h with ((((((((h | h) | h) | h) | h) | h) | h) | h) | h) | h <;>
  simp only [rr17aRecv, rr17aSend, rr17bRecv, rr17bSend, grr18Recv, grr18Send, dcwRecv, dcwSend, kkrtRecv, kkrtSend,
    rr17aRecvMain, rr17aSendMain, rr17bRecvMain, rr17bSendMain, rr17aRecvThread, rr17aSendThread, rr17bRecvThread,
    rr17bSendThread, dcwRecvThread, dcwSendThread, otBase] at h <;>
  repeat' split at h
  all_goals simp at h
  all_goals first
    | exact h.2
    | (rcases h with h | h <;> (try split at h) <;> simp at h <;> first | exact h.2 | exact h.2.2)

/-- Base OTs are made. -/
example (E : Env) : Act.ot .base false 128 ∈ rr17aRecv E ⟨256, 40, 128, 1, false, false⟩ 0 := by
  simp [rr17aRecv, rr17aRecvMain, otBase]

end Verif.Init

namespace Verif.Online
open Verif

theorem share_prefix (n T k : Nat) (hT : 0 < T) (hov : n * T < 2 ^ 64) (hk : k ≤ T) :
    ((List.range k).map (share n T)).sum = Part.bound n T k := by
  induction k with
  | zero => simp [Part.bound]
  | succ k ih =>
    rw [List.range_succ, List.map_append, List.sum_append, ih (by omega)]
    have h1 : n * k ≤ n * T := Nat.mul_le_mul_left _ (by omega)
    have h2 : n * (k + 1) ≤ n * T := Nat.mul_le_mul_left _ hk
    have h3 : n * k / T ≤ n * (k + 1) / T := Nat.div_le_div_right (Nat.mul_le_mul_left _ (by omega))
    simp only [List.map_cons, List.map_nil, List.sum_cons, List.sum_nil, share, Part.bound]
    rw [Nat.mod_eq_of_lt (by omega), Nat.mod_eq_of_lt (by omega)]
    omega

/-- C94, DKT: the threads of the sender send 16 bytes for each of its items. -/
theorem C94_dkt_mask_bytes (n T : Nat) (hT : 0 < T) (hov : n * T < 2 ^ 64) :
    ((List.range T).map fun t => (dktMasks n T t).sum).sum = 16 * n := by
  have h : (fun t => (dktMasks n T t).sum) = fun t => 16 * share n T t := by
    funext t
    unfold dktMasks
    have : ∀ l : List Nat, (l.map (16 * ·)).sum = 16 * l.sum := by
      intro l
      induction l with
      | nil => rfl
      | cons a l ih => rw [List.map_cons, List.sum_cons, List.sum_cons, ih]; omega
    rw [this, chunks_sum (by decide)]
  have h2 : ∀ l : List Nat, (l.map fun t => 16 * share n T t).sum = 16 * (l.map (share n T)).sum := by
    intro l
    induction l with
    | nil => rfl
    | cons a l ih => rw [List.map_cons, List.map_cons, List.sum_cons, List.sum_cons, ih]; omega
  rw [h, h2, share_prefix n T T hT hov (Nat.le_refl _)]
  unfold Part.bound
  rw [Nat.mod_eq_of_lt hov, Nat.mul_div_cancel _ hT]

example : (List.range 3).map (fun t => dktMasks 2000 3 t) = [[8192, 2464], [8192, 2480], [8192, 2480]] := by decide +kernel

end Verif.Online

namespace Verif.Hasher
open Verif

/-- C15: a hash number outside of the row of an item is never used silently; such an access is undefined behaviour of the
model, in `insert` and in `insertBatch`. -/
theorem C15_row_end (c : Hasher) (idx h rem : Nat) (hh : (c.rows.getD idx []).length ≤ h) :
    insertHelper c idx h rem = .ub ∧ rounds (rem + 1) c [(idx, h)] = .ub := by
  have ha : addrOk c idx h = false := by
    unfold addrOk
    have : ¬ h < (c.rows.getD idx []).length := by omega
    simp only [this, decide_false, Bool.and_false, Bool.false_and]
  constructor
  · unfold insertHelper
    simp [ha]
  · unfold rounds
    simp [ha]

example : insertHelper (init 2 2 1 0) 0 2 100 = .ub ∧ insertHelper (init 2 2 1 0) 0 1 100 ≠ .ub := by decide +kernel

end Verif.Hasher

namespace Verif.PrtyOrder
open Verif PrtyDelta

theorem memcmpLt_iff : ∀ l m : List Byte, l.length = m.length → (memcmpLt l m = true ↔
    ∃ k, k < l.length ∧ (∀ j, j < k → l.getD j 0 = m.getD j 0) ∧ (l.getD k 0).toNat < (m.getD k 0).toNat)
  | [], [], _ => by simp [memcmpLt]
  | [], b :: m, h => by simp at h
  | a :: l, [], h => by simp at h
  | a :: l, b :: m, h => by
    have ih := memcmpLt_iff l m (by simpa using h)
    unfold memcmpLt
    by_cases e : a = b
    · rw [if_pos e, ih]
      subst e
      constructor
      · rintro ⟨k, h1, h2, h3⟩
        refine ⟨k + 1, by simpa using h1, ?_, by simpa using h3⟩
        intro j hj
        cases j with
        | zero => rfl
        | succ j => simpa using h2 j (by omega)
      · rintro ⟨k, h1, h2, h3⟩
        cases k with
        | zero => simp at h3
        | succ k =>
          refine ⟨k, by simpa using h1, ?_, by simpa using h3⟩
          intro j hj
          simpa using h2 (j + 1) (by omega)
    · rw [if_neg e, decide_eq_true_eq]
      constructor
      · intro hlt
        exact ⟨0, by simp, by intro j hj; omega, by simpa using hlt⟩
      · rintro ⟨k, h1, h2, h3⟩
        cases k with
        | zero => simpa using h3
        | succ k => exact absurd (by simpa using h2 0 (by omega)) e

/-- C143: the masks are sorted by their sixteen bytes, the first byte in memory first, bytes as unsigned numbers. -/
theorem C143_order (a b : Block) : before a b = true ↔
    ∃ k, k < 16 ∧ (∀ j, j < k → byteOf a j = byteOf b j) ∧ (byteOf a k).toNat < (byteOf b k).toNat := by
  unfold before
  rw [memcmpLt_iff _ _ (by simp [bytes])]
  have hg : ∀ (x : Block) j, j < 16 → (bytes x 16).getD j 0 = byteOf x j := by
    intro x j hj
    simp [bytes, List.getD, hj]
  constructor
  · rintro ⟨k, h1, h2, h3⟩
    have hk : k < 16 := by simpa [bytes] using h1
    refine ⟨k, hk, fun j hj => ?_, ?_⟩
    · have := h2 j hj
      rwa [hg a j (by omega), hg b j (by omega)] at this
    · rwa [hg a k hk, hg b k hk] at h3
  · rintro ⟨k, hk, h2, h3⟩
    refine ⟨k, by simpa [bytes] using hk, fun j hj => ?_, ?_⟩
    · rw [hg a j (by omega), hg b j (by omega)]; exact h2 j hj
    · rw [hg a k hk, hg b k hk]; exact h3

/-- The least significant byte decides first: 256 comes before 1. -/
example : before 256 1 = true ∧ before 1 256 = false ∧ before 1 2 = true := by decide +kernel

end Verif.PrtyOrder
