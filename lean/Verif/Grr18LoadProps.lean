import Verif.Grr18LoadModel
import Verif.Grr18Props
/-
Properties C45 (whole function) and C108: the bin loads that GRR18 announces.
-/
namespace Verif.Grr18
open Verif

/-! ### C45, the function -/

/-- C45 for `computeLoads`: without a threshold, for all tables, noise and bins within their capacity, there is one load
per bin, no load is smaller than its bin, all fit into a byte, and the total is their sum. -/
theorem C45_compute (c : LoadCfg) (hc : c.lap = true ∨ c.cw = -1) (bins : List Nat) (vs : List Int)
    (hl : bins.length = vs.length) (hM : ∀ b ∈ bins, b ≤ c.M) (ls : List Nat) (total : Nat)
    (h : computeLoads c bins vs = .ok (ls, total)) :
    ls.length = bins.length ∧ total = ls.sum ∧ ∀ i, i < bins.length → bins.getD i 0 ≤ ls.getD i 0 ∧ ls.getD i 0 ≤ 255 := by
  induction bins generalizing vs ls total with
  | nil =>
    cases vs with
    | nil =>
      simp only [computeLoads, Out.ok.injEq, Prod.mk.injEq] at h
      obtain ⟨rfl, rfl⟩ := h
      exact ⟨rfl, rfl, fun i hi => absurd hi (Nat.not_lt_zero _)⟩
    | cons => simp at hl
  | cons b bs ih =>
    cases vs with
    | nil => simp at hl
    | cons v vs =>
      unfold computeLoads at h
      cases h1 : loadOf c b v with
      | throw => rw [h1] at h; cases h
      | ub => rw [h1] at h; cases h
      | ok ld =>
        rw [h1, Out.bind] at h
        cases h2 : computeLoads c bs vs with
        | throw => rw [h2] at h; cases h
        | ub => rw [h2] at h; cases h
        | ok r =>
          rw [h2, Out.bind] at h
          simp only [Out.ok.injEq, Prod.mk.injEq] at h
          obtain ⟨rfl, rfl⟩ := h
          obtain ⟨e1, e2, e3⟩ := ih vs (by simpa using hl) (fun x hx => hM x (List.mem_cons_of_mem _ hx)) r.1 r.2 h2
          refine ⟨by rw [List.length_cons, List.length_cons, e1], by rw [List.sum_cons, e2], fun i hi => ?_⟩
          cases i with
          | succ i =>
            rw [List.getD_cons_succ, List.getD_cons_succ]
            exact e3 i (by simpa using hi)
          | zero =>
            rw [List.getD_cons_zero, List.getD_cons_zero]
            unfold loadOf at h1
            split at h1
            · have := C45_lap _ _ _ _ h1
              omega
            · rename_i hlap
              rw [if_neg (by rw [hc.resolve_left hlap]; decide)] at h1
              split at h1
              · have := C45_one_sided _ _ _ (hM b (List.mem_cons_self ..)) _ h1
                omega
              · exact C45_default _ _ _ _ _ h1

example : computeLoads ⟨false, false, -1, 256, 32, 40, 36, 2⟩ [5, 9, 20, 7] [5, -3, 0, 30] = .ok ([16, 15, 20, 31], 82) := by
  decide +kernel

/-! ### C108 -/

/-- Two bins with the same noisy size `v` get the same load. -/
def Hides (load : Nat → Int → Out Nat) (b b' : Nat) (v : Int) : Prop := load b v = load b' v

/-- The range of `i32`. -/
def InI32 (v : Int) : Prop := -2 ^ 31 ≤ v ∧ v < 2 ^ 31

/-- No table for the parameters. -/
theorem select_none (maxBin n m : Nat) (eps : Rat) (ls : List Lookup) (cur : Lookup)
    (h : ∀ l ∈ ls, ¬ (l.eps = eps ∧ l.n = n ∧ l.m = m)) : selectTable maxBin n m eps ls cur = cur := by
  induction ls generalizing cur with
  | nil => rfl
  | cons l ls ih =>
    unfold selectTable
    rw [if_neg (h l (List.mem_cons_self ..))]
    exact ih cur fun l' hl' => h l' (List.mem_cons_of_mem _ hl')

/-- A table that is the only one for its parameters is selected. -/
theorem select_mem (maxBin : Nat) (l : Lookup) (ls : List Lookup) (cur : Lookup) (hl : l ∈ ls)
    (hu : ls.Pairwise fun a b => ¬ (b.eps = a.eps ∧ b.n = a.n ∧ b.m = a.m)) :
    selectTable maxBin l.n l.m l.eps ls cur = { l with sizes := cutTable maxBin l.sizes } := by
  induction ls generalizing cur with
  | nil => cases hl
  | cons a ls ih =>
    unfold selectTable
    rw [List.pairwise_cons] at hu
    rcases List.mem_cons.mp hl with rfl | hl
    · rw [if_pos ⟨rfl, rfl, rfl⟩]
      exact select_none _ _ _ _ _ _ hu.1
    · exact ih _ hl hu.2

/-- The tables: one per parameter triple, all increasing, with entries below 256. -/
theorem tables_unique : lookups.Pairwise fun a b => ¬ (b.eps = a.eps ∧ b.n = a.n ∧ b.m = a.m) := by
  decide +kernel

theorem tables_ok : ∀ l ∈ lookups, l.sizes ≠ [] ∧ l.sizes.Pairwise (· ≤ ·) ∧ ∀ x ∈ l.sizes, x < 256 := by
  decide +kernel

theorem cut_prefix (maxBin : Nat) (t : List Nat) : ∃ r, t = cutTable maxBin t ++ r := by
  cases t with
  | nil => exact ⟨[], rfl⟩
  | cons x xs =>
    refine ⟨xs.dropWhile fun y => decide (y ≤ maxBin), ?_⟩
    unfold cutTable
    rw [List.cons_append, List.takeWhile_append_dropWhile]

/-- C108, default branch with a table: for every listed parameter triple, bins that hold at most the first entry of the
table are hidden, for every noise. The full property (all bins up to the capacity, all parameters) is false of
the code: `C108_revealed`, `C108_no_table`, `C108_default_exposed`. -/
theorem C108_table_partial (l : Lookup) (hl : l ∈ lookups) (M maxBin b b' : Nat) (v : Int) (hv : InI32 v)
    (hb : b ≤ l.sizes.headD 0) (hb' : b' ≤ l.sizes.headD 0) :
    Hides (loadOf ⟨false, false, -1, l.n, l.m, M, maxBin, l.eps⟩) b b' v := by
  obtain ⟨h1, h2, h3⟩ := tables_ok l hl
  have hsel := select_mem maxBin l lookups nonTable hl tables_unique
  obtain ⟨x, xs, hx⟩ := List.exists_cons_of_ne_nil h1
  rw [hx] at h2 h3 hb hb'
  have hbx : b ≤ x := hb
  have hbx' : b' ≤ x := hb'
  have hx255 : x < 256 := h3 x (List.mem_cons_self ..)
  unfold Hides loadOf
  rw [if_neg (by simp), if_neg (by simp), if_neg (by simp), if_neg (by simp), if_neg (by simp), if_neg (by simp)]
  simp only [hsel, hx]
  unfold defaultLoad
  have hr : ¬ (v < -2 ^ 31 ∨ 2 ^ 31 ≤ v) := by obtain ⟨a, c⟩ := hv; omega
  rw [if_neg hr, if_neg hr, if_neg (by omega), if_neg (by omega)]
  generalize max (min (l.start + ((cutTable maxBin (x :: xs)).length : Int)) v) l.start = w
  -- the entry that is looked up is at least the first one
  obtain ⟨r, hcut⟩ := cut_prefix maxBin (x :: xs)
  have hlen : 0 < (cutTable maxBin (x :: xs)).length := by simp [cutTable]
  unfold lookupAt
  generalize hk : (min (((cutTable maxBin (x :: xs)).length : Int) - 1) (max 0 (w - l.start))).toNat = k
  have hkl : k < (cutTable maxBin (x :: xs)).length := by omega
  have hmem : (cutTable maxBin (x :: xs)).getD k 0 ∈ x :: xs := by
    have hm : (cutTable maxBin (x :: xs)).getD k 0 ∈ cutTable maxBin (x :: xs) := by
      rw [show (cutTable maxBin (x :: xs)).getD k 0 = (cutTable maxBin (x :: xs))[k] by
        simp [List.getD, List.getElem?_eq_getElem hkl]]
      exact List.getElem_mem _
    have hm' := List.mem_append_left r hm
    rwa [← hcut] at hm'
  have hge : x ≤ (cutTable maxBin (x :: xs)).getD k 0 := by
    rcases List.mem_cons.mp hmem with h | h
    · omega
    · exact (List.pairwise_cons.mp h2).1 _ h
  have hlt := h3 _ hmem
  generalize (cutTable maxBin (x :: xs)).getD k 0 = y at hge hlt
  rw [Nat.mod_eq_of_lt hlt, Nat.max_eq_left (by omega), Nat.max_eq_left (by omega)]

/-- For example: 256 items, 32 bins, eps = 1/2: bins of up to 28 items. -/
example : ∃ l ∈ lookups, l.n = 256 ∧ l.m = 32 ∧ l.eps = 1/2 ∧ l.sizes.headD 0 = 28 := by decide +kernel

/-- C108, branch `lapPlusBuffer`: the load of a bin is a function of the noisy size, unless an exception is thrown. -/
theorem C108_lap (maxBin b b' : Nat) (v : Int) (h : lapLoad maxBin b v ≠ .throw) (h' : lapLoad maxBin b' v ≠ .throw) :
    Hides (lapLoad maxBin) b b' v := by
  unfold Hides
  unfold lapLoad at *
  by_cases h0 : v < 0 ∨ 2 ^ 64 ≤ v
  · rw [if_pos h0, if_pos h0]
  · rw [if_neg h0] at h h' ⊢
    rw [if_neg h0]
    by_cases h1 : b > min maxBin v.toNat % 256
    · rw [if_pos h1] at h
      exact absurd rfl h
    · by_cases h2 : b' > min maxBin v.toNat % 256
      · rw [if_pos h2] at h'
        exact absurd rfl h'
      · rw [if_neg h1, if_neg h2]

/-- C108, branch `oneSided`: the load is a function of the noisy size `b + noise`. -/
theorem C108_one_sided (M b b' noise noise' : Nat) (h : b + noise = b' + noise') :
    oneSidedLoad M noise b = oneSidedLoad M noise' b' := by
  unfold oneSidedLoad
  rw [h]

/-- C108 is false of the code if there is no table for the parameters: the loads are the exact sizes, whatever the
noise (the code prints a warning, "no bin padding"). -/
theorem C108_no_table (M maxBin n m b : Nat) (eps : Rat) (v : Int) (hv : InI32 v) (hb : b ≤ 255)
    (hno : ∀ l ∈ lookups, ¬ (l.eps = eps ∧ l.n = n ∧ l.m = m)) :
    loadOf ⟨false, false, -1, n, m, M, maxBin, eps⟩ b v = .ok b := by
  unfold loadOf
  rw [if_neg (by simp), if_neg (by simp), if_neg (by simp)]
  simp only [select_none _ _ _ _ _ _ hno]
  unfold defaultLoad nonTable lookupAt
  have hr : ¬ (v < -2 ^ 31 ∨ 2 ^ 31 ≤ v) := by obtain ⟨a, c⟩ := hv; omega
  simp only [if_neg hr, if_neg (show ¬ b > 255 by omega)]
  congr 1
  generalize hk : (min ((([0] : List Nat).length : Int) - 1)
    (max 0 (max (min (0 + (([0] : List Nat).length : Int)) v) 0 - 0))).toNat = k
  have : k = 0 := by
    rw [← hk]
    simp only [List.length_singleton]
    omega
  subst this
  simp

/-- The numbers of items in the tables and the default `eps`: there is no table for the default. -/
theorem no_default_table : ∀ l ∈ lookups, l.eps ≠ 9/10 := by decide +kernel

/-- C108 is false of the code with its default settings (`mEpsBins = 0.9`): for every number of items and bins the
announced loads are the exact bin sizes. -/
theorem C108_default_exposed (n m M maxBin : Nat) (bins : List Nat) (vs : List Int) (hl : bins.length = vs.length)
    (hb : ∀ b ∈ bins, b ≤ 255) (hv : ∀ v ∈ vs, InI32 v) :
    computeLoads (defaultCfg n m M maxBin) bins vs = .ok (bins, bins.sum) := by
  induction bins generalizing vs with
  | nil => cases vs <;> rfl
  | cons b bs ih =>
    cases vs with
    | nil => simp at hl
    | cons v vs =>
      unfold computeLoads
      rw [show loadOf (defaultCfg n m M maxBin) b v = .ok b from
        C108_no_table M maxBin n m b (9/10) v (hv v (List.mem_cons_self ..)) (hb b (List.mem_cons_self ..))
          fun l hl h => no_default_table l hl h.1, Out.bind,
        ih vs (by simpa using hl) (fun x hx => hb x (List.mem_cons_of_mem _ hx))
          fun x hx => hv x (List.mem_cons_of_mem _ hx), Out.bind, List.sum_cons]

/-- So do set sizes that are in no table, for every `eps`: only 2^8, 2^12, 2^16, 2^20 items are. -/
theorem C108_sizes (M maxBin n m b : Nat) (eps : Rat) (v : Int) (hv : InI32 v) (hb : b ≤ 255)
    (hn : n ≠ 2 ^ 8 ∧ n ≠ 2 ^ 12 ∧ n ≠ 2 ^ 16 ∧ n ≠ 2 ^ 20) :
    loadOf ⟨false, false, -1, n, m, M, maxBin, eps⟩ b v = .ok b := by
  refine C108_no_table M maxBin n m b eps v hv hb fun l hl h => ?_
  have : ∀ l ∈ lookups, l.n = 2 ^ 8 ∨ l.n = 2 ^ 12 ∨ l.n = 2 ^ 16 ∨ l.n = 2 ^ 20 := by decide +kernel
  have := this l hl
  omega

/-- C108 is false of the code with a table as well: 256 items, 32 bins, eps = 4; with the noisy size 0 a bin of 20 items
announces 20, a bin of 5 items 8. -/
theorem C108_revealed : ¬ Hides (loadOf ⟨false, false, -1, 256, 32, 36, 36, 4⟩) 20 5 0 := by
  unfold Hides
  decide +kernel

/-- C108 is false of the code with a threshold: the load tells whether the bin exceeds it. -/
theorem C108_threshold (n m M maxBin : Nat) (eps : Rat) (cw : Nat) (b : Nat) (v : Int) (hne : maxBin % 256 ≠ cw % 256) :
    loadOf ⟨false, false, cw, n, m, M, maxBin, eps⟩ b v = .ok (maxBin % 256) ↔ cw < b := by
  unfold loadOf
  rw [if_neg (by simp), if_pos (by simp only; omega)]
  simp only [Out.ok.injEq]
  unfold cwLoad
  constructor
  · intro h
    split at h
    · omega
    · omega
  · intro h
    rw [if_pos (by omega)]

end Verif.Grr18
