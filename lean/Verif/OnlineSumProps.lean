import Verif.OnlineProps
import Mathlib.Algebra.BigOperators.Group.Finset.Basic
import Mathlib.Algebra.Order.BigOperators.Group.Finset
import Mathlib.Algebra.BigOperators.Intervals
/-!
Property C94, what the messages carry: together the threads send every mask once and a correction for every OT.
-/
namespace Verif.Online
open Verif Finset

theorem list_sum_range (n : Nat) (f : Nat → Nat) : ((List.range n).map f).sum = ∑ i ∈ range n, f i := by
  induction n with
  | zero => rfl
  | succ n ih => rw [List.range_succ, List.map_append, List.sum_append, ih, sum_range_succ]; simp

/-- The indices `t, t + T, …` of all threads are all indices. -/
theorem stride_sum (T K : Nat) (hT : 0 < T) (f : Nat → Nat) :
    ((List.range T).map fun t => ((stride t T K).map f).sum).sum = ((List.range K).map f).sum := by
  rw [list_sum_range, list_sum_range]
  rw [← Finset.sum_fiberwise_of_maps_to (s := range K) (t := range T) (g := fun k => k % T)
    fun k _ => mem_range.mpr (Nat.mod_lt _ hT)]
  apply Finset.sum_congr rfl
  intro t ht
  rw [mem_range] at ht
  unfold stride
  rw [List.map_map, list_sum_range]
  have hi : Set.InjOn (fun i => t + i * T) (range ((K - t + T - 1) / T) : Set Nat) := by
    intro a _ b _ h
    simp only [Nat.add_left_cancel_iff] at h
    exact Nat.eq_of_mul_eq_mul_right hT h
  have e : (range K).filter (fun k => k % T = t) = (range ((K - t + T - 1) / T)).image fun i => t + i * T := by
    ext k
    rw [mem_filter, mem_image, mem_range]
    constructor
    · rintro ⟨hk, hm⟩
      refine ⟨k / T, ?_, ?_⟩
      · have := Nat.div_add_mod k T
        rw [mem_range, Nat.lt_iff_add_one_le, Nat.le_div_iff_mul_le hT, Nat.add_mul, Nat.mul_comm (k / T)]
        omega
      · have := Nat.div_add_mod k T
        rw [Nat.mul_comm (k / T)]
        omega
    · rintro ⟨i, hi, rfl⟩
      rw [mem_range, Nat.lt_iff_add_one_le, Nat.le_div_iff_mul_le hT, Nat.add_mul] at hi
      refine ⟨by omega, ?_⟩
      rw [Nat.add_mul_mod_self_right, Nat.mod_eq_of_lt ht]
  rw [e, sum_image hi]
  rfl

/-- Pieces of size `c` of `N` things. -/
theorem pieces_sum (c N : Nat) (hc : 0 < c) (w : Nat) :
    ((List.range ((N + (c - 1)) / c)).map fun k => min c (N - k * c) * w).sum = N * w := by
  have key : ∀ K, ((List.range K).map fun k => min c (N - k * c) * w).sum = min (K * c) N * w := by
    intro K
    induction K with
    | zero => simp
    | succ K ih =>
      rw [List.range_succ, List.map_append, List.sum_append, ih]
      simp only [List.map_cons, List.map_nil, List.sum_cons, List.sum_nil, Nat.add_zero]
      rw [← Nat.add_mul, Nat.add_mul K 1 c, Nat.one_mul]
      congr 1
      omega
  rw [key]
  congr 1
  apply Nat.min_eq_right
  have := Nat.div_add_mod (N + (c - 1)) c
  have h2 := Nat.mod_lt (N + (c - 1)) hc
  rw [Nat.mul_comm] at this
  omega

/-- C94, RR17a: the chunks of all threads of the sender together are the masks of `n` elements, `M` masks of `mask` bytes each,
and the receiver awaits the same. -/
theorem C94_rr17a_all_masks (n M mask T : Nat) (hT : 0 < T) (hn : 0 < n) (hM : 0 < M) :
    ((List.range T).map fun t => (rr17aSendChunks n M mask T t).sum).sum = n * M * mask ∧
    ((List.range T).map fun t => (rr17aRecvChunks n M mask T t).sum).sum = n * M * mask := by
  have hp : 0 < n * M := Nat.mul_pos hn hM
  have hc : 0 < min (2 ^ 20) ((n * M + T - 1) / T) := by
    apply Nat.lt_min.mpr
    exact ⟨by decide, Nat.div_pos (by omega) hT⟩
  unfold rr17aSendChunks rr17aRecvChunks
  simp only []
  rw [stride_sum T _ hT, pieces_sum _ _ hc]
  exact ⟨rfl, rfl⟩

theorem loadSteps_sum (cs loads : List Nat) (h : cs.sum = loads.length) : (loadSteps cs loads).sum = loads.sum := by
  induction cs generalizing loads with
  | nil =>
    rw [List.sum_nil] at h
    rw [List.length_eq_zero_iff.mp h.symm]
    rfl
  | cons c cs ih =>
    rw [List.sum_cons] at h
    unfold loadSteps
    rw [List.sum_cons, ih _ (by rw [List.length_drop]; omega)]
    conv_rhs => rw [← List.take_append_drop c loads, List.sum_append]

/-- C94, GRR18: if a correction is as long as the OTs it is for (`k` bytes each), the corrections of a thread are together
as long as the loads of its bins. -/
theorem C94_grr18_all_ots (E : Env) (k b : Nat) (hE : ∀ n, E.corr n = n * k) (loads : List Nat) (hl : loads.length = b) :
    (loadCorrections E b loads).sum = loads.sum * k := by
  have e : E.corr = (· * k) := funext hE
  unfold loadCorrections
  rw [e]
  have h2 : ∀ l : List Nat, (l.map (· * k)).sum = l.sum * k := by
    intro l
    induction l with
    | nil => simp
    | cons a l ih => rw [List.map_cons, List.sum_cons, ih, List.sum_cons, Nat.add_mul]
  rw [h2, loadSteps_sum _ _ (by rw [chunks_sum (by decide), hl])]

/-- C94, GRR18: the rows of all threads are all rows. -/
theorem C94_grr18_all_rows (total maxSend mask T : Nat) (hT : 0 < T) (hm : 0 < maxSend) (hov : total * T < 2 ^ 64) :
    ((List.range T).map fun t => (rows total maxSend mask T t).sum).sum = total * mask := by
  have h2 : ∀ l : List Nat, (l.map (· * mask)).sum = l.sum * mask := by
    intro l
    induction l with
    | nil => simp
    | cons a l ih => rw [List.map_cons, List.sum_cons, ih, List.sum_cons, Nat.add_mul]
  have hb : ∀ K, K ≤ T → Part.bound total T K = total * K / T := by
    intro K hK
    unfold Part.bound
    rw [Nat.mod_eq_of_lt (Nat.lt_of_le_of_lt (Nat.mul_le_mul_left _ hK) hov)]
  have key : ∀ K, K ≤ T → ((List.range K).map fun t => (rows total maxSend mask T t).sum).sum = (total * K / T) * mask := by
    intro K hK
    induction K with
    | zero => simp
    | succ K ih =>
      rw [List.range_succ, List.map_append, List.sum_append, ih (by omega)]
      simp only [List.map_cons, List.map_nil, List.sum_cons, List.sum_nil, Nat.add_zero]
      unfold rows
      rw [h2, chunks_sum hm, ← Nat.add_mul]
      congr 1
      unfold share
      rw [hb _ hK, hb _ (by omega)]
      have : total * K / T ≤ total * (K + 1) / T := Nat.div_le_div_right (Nat.mul_le_mul_left _ (by omega))
      omega
  rw [key T (Nat.le_refl _), Nat.mul_div_cancel _ hT]

example : ((List.range 3).map fun t => (rr17aSendChunks 5 4 10 3 t).sum) = [70, 70, 60] := by decide +kernel
example : (loadCorrections someEnv 3 [4, 0, 6]).sum = 10 * 1 := C94_grr18_all_ots _ 1 3 (fun _ => (Nat.mul_one _).symm) _ rfl

end Verif.Online
