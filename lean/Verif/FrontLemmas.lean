import Verif.FrontModel
import Verif.SCuckooProps
import Verif.SessionLemmas
import Mathlib.Algebra.BigOperators.Group.List.Basic
import Mathlib.Algebra.Order.Archimedean.Basic
import Mathlib.Data.Rat.Floor
import Mathlib.Data.List.GetD
import Mathlib.Tactic.Linarith
import Mathlib.Tactic.Push
/-! Helper lemmas for FrontProps. -/
namespace Verif.Front
open Verif

/-! ### Counting -/

theorem routine_spec (ss : List Nat) : ∀ (row : List Nat), (∀ s ∈ ss, s < row.length) →
    ∃ row', routine row ss = .ok row' ∧ row'.length = row.length ∧
      ∀ i, i < row.length → row'.getD i 0 = row.getD i 0 + ss.count i := by
  induction ss with
  | nil => intro row _; exact ⟨row, rfl, rfl, by simp⟩
  | cons s ss ih =>
    intro row h
    have hs := h s (List.mem_cons_self ..)
    obtain ⟨row', e, hl, hg⟩ := ih (row.set s (row.getD s 0 + 1))
      (fun x hx => by rw [List.length_set]; exact h x (List.mem_cons_of_mem _ hx))
    rw [List.length_set] at hl hg
    refine ⟨row', ?_, hl, fun i hi => ?_⟩
    · unfold routine bump
      rw [if_pos hs]
      exact e
    · rw [hg i hi, List.count_cons]
      simp only [List.getD, List.getElem?_set]
      by_cases he : s = i
      · subst he; simp [hs]; omega
      · simp [he]

theorem routine_ub (ss : List Nat) : ∀ (row : List Nat), (∃ s ∈ ss, row.length ≤ s) →
    routine row ss = .ub := by
  induction ss with
  | nil => rintro row ⟨s, hs, _⟩; simp at hs
  | cons s ss ih =>
    rintro row ⟨x, hx, hlen⟩
    unfold routine bump
    by_cases hs : s < row.length
    · rw [if_pos hs]
      refine ih _ ⟨x, ?_, by rw [List.length_set]; exact hlen⟩
      rcases List.mem_cons.mp hx with rfl | hx
      · omega
      · exact hx
    · rw [if_neg hs]; rfl

/-- The stash sizes of the trials of one thread. -/
def ofThread (stash : Nat → Nat → Nat) (tries T k : Nat) : List Nat :=
  (List.range (trialsOf tries T k)).map (stash k)

theorem countsGo_spec (stash : Nat → Nat → Nat) (tries T : Nat) (ks : List Nat)
    (h : ∀ k ∈ ks, ∀ s ∈ ofThread stash tries T k, s < 400) :
    ∃ cs, countsGo stash tries T ks = .ok cs ∧
      ∀ i, i < 400 → column cs i = (ks.flatMap (ofThread stash tries T)).count i := by
  induction ks with
  | nil => exact ⟨[], rfl, by simp [column]⟩
  | cons k ks ih =>
    obtain ⟨cs, e, hc⟩ := ih (fun k' hk => h k' (List.mem_cons_of_mem _ hk))
    obtain ⟨row, e1, _, hr⟩ := routine_spec (ofThread stash tries T k) (List.replicate 400 0)
      (by rw [List.length_replicate]; exact h k (List.mem_cons_self ..))
    refine ⟨row :: cs, ?_, fun i hi => ?_⟩
    · unfold countsGo
      unfold ofThread at e1
      rw [e1, e]; rfl
    · have h1 := hr i (by rw [List.length_replicate]; exact hi)
      have h2 := hc i hi
      unfold column at h2 ⊢
      rw [List.map_cons, List.sum_cons, h1, h2, List.flatMap_cons, List.count_append]
      rw [List.getD_replicate _ hi, Nat.zero_add]

theorem countsGo_ub (stash : Nat → Nat → Nat) (tries T : Nat) (ks : List Nat)
    (h : ∃ k ∈ ks, ∃ s ∈ ofThread stash tries T k, 400 ≤ s) :
    countsGo stash tries T ks = .ub := by
  induction ks with
  | nil => obtain ⟨k, hk, _⟩ := h; simp at hk
  | cons k ks ih =>
    by_cases hk : ∃ s ∈ ofThread stash tries T k, 400 ≤ s
    · obtain ⟨s, hs, hlen⟩ := hk
      unfold countsGo
      have := routine_ub (ofThread stash tries T k) (List.replicate 400 0)
        ⟨s, hs, by rw [List.length_replicate]; exact hlen⟩
      unfold ofThread at this
      rw [this]; rfl
    · push Not at hk
      obtain ⟨row, e1, _, _⟩ := routine_spec (ofThread stash tries T k) (List.replicate 400 0)
        (by rw [List.length_replicate]; exact hk)
      unfold countsGo
      unfold ofThread at e1
      rw [e1]
      have : countsGo stash tries T ks = .ub := by
        apply ih
        obtain ⟨k', hk', s, hs, hlen⟩ := h
        rcases List.mem_cons.mp hk' with rfl | hk'
        · have := hk s hs; omega
        · exact ⟨k', hk', s, hs, hlen⟩
      show (countsGo stash tries T ks).bind _ = _
      rw [this]; rfl

theorem count_step (l : List Nat) (m : Nat) :
    l.countP (fun s => decide (s < m)) + l.countP (fun s => s == m) =
      l.countP (fun s => decide (s < m + 1)) := by
  induction l with
  | nil => rfl
  | cons x l ih =>
    simp only [List.countP_cons]
    by_cases h1 : x < m
    · have h2 : x ≠ m := by omega
      have h3 : x < m + 1 := by omega
      simp only [h1, h2, h3, decide_true, beq_iff_eq, if_true, if_false]; omega
    · by_cases h2 : x = m
      · have h3 : x < m + 1 := by omega
        have h4 : (x == m) = true := by simp [h2]
        rw [if_neg (by simpa using h1), if_pos h4, if_pos (by simpa using h3)]; omega
      · have h3 : ¬ x < m + 1 := by omega
        rw [if_neg (by simpa using h1), if_neg (by simpa using h2), if_neg (by simpa using h3)]
        omega

theorem sum_count (l : List Nat) (m : Nat) :
    ((List.range m).map fun i => l.count i).sum = (l.filter fun s => decide (s < m)).length := by
  induction m with
  | zero => simp
  | succ m ih =>
    rw [List.range_succ (n := m), List.map_append, List.sum_append, ih]
    simp only [List.map_cons, List.map_nil, List.sum_cons, List.sum_nil, Nat.add_zero]
    rw [List.count_eq_countP, ← List.countP_eq_length_filter, ← List.countP_eq_length_filter]
    exact count_step l m

theorem trials_total (tries T : Nat) :
    ∀ m, ((List.range m).map (trialsOf tries T)).sum = m * tries / T := by
  intro m
  induction m with
  | zero => simp
  | succ m ih =>
    rw [List.range_succ (n := m), List.map_append, List.sum_append, ih]
    simp only [List.map_cons, List.map_nil, List.sum_cons, List.sum_nil, Nat.add_zero]
    unfold trialsOf
    have : m * tries / T ≤ (m + 1) * tries / T :=
      Nat.div_le_div_right (Nat.mul_le_mul_right _ (Nat.le_succ m))
    omega

theorem flatMap_length (stash : Nat → Nat → Nat) (tries T m : Nat) :
    ((List.range m).flatMap (ofThread stash tries T)).length = m * tries / T := by
  rw [List.length_flatMap, ← trials_total tries T m]
  simp [ofThread]

theorem filter_succ (l : List Nat) (i : Nat) :
    (l.filter fun s => decide (s < i + 1)) = l.filter fun s => decide (s ≤ i) :=
  List.filter_congr (fun s _ => by simp [Nat.lt_succ_iff])

theorem lines_spec (cs : List (List Nat)) (l : List Nat) (hc : ∀ i, i < 400 → column cs i = l.count i)
    (htot : curTotal cs = l.length) :
    ∀ (k i : Nat), i + k ≤ 400 → ∀ good, good = (l.filter fun s => decide (s < i)).length →
      (lines cs k i good).length = k ∧ ∀ j, j < k → (lines cs k i good)[j]? =
        some ((l.filter fun s => decide (s ≤ i + j)).length,
          (l.filter fun s => decide (i + j < s)).length) := by
  have step : ∀ i, (l.filter fun s => decide (s < i)).length + l.count i =
      (l.filter fun s => decide (s ≤ i)).length := by
    intro i
    have h1 := sum_count l i
    have h2 := sum_count l (i + 1)
    rw [List.range_succ (n := i), List.map_append, List.sum_append, h1] at h2
    simp only [List.map_cons, List.map_nil, List.sum_cons, List.sum_nil, Nat.add_zero] at h2
    rw [h2, filter_succ]
  have compl : ∀ i, l.length - (l.filter fun s => decide (s ≤ i)).length =
      (l.filter fun s => decide (i < s)).length := by
    intro i
    have := List.length_eq_countP_add_countP (fun s => decide (s ≤ i)) (l := l)
    rw [← List.countP_eq_length_filter, ← List.countP_eq_length_filter]
    have h2 : l.countP (fun s => decide (i < s)) = l.countP (fun a => decide ¬ decide (a ≤ i) = true) := by
      apply List.countP_congr; intro s _; simp
    rw [h2]; omega
  intro k
  induction k with
  | zero => intro i _ good _; exact ⟨rfl, by simp⟩
  | succ k ih =>
    intro i hik good hg
    have hgood : good + column cs i = (l.filter fun s => decide (s ≤ i)).length := by
      rw [hg, hc i (by omega), step]
    obtain ⟨h1, h2⟩ := ih (i + 1) (by omega) (good + column cs i) (by
      rw [hgood, filter_succ])
    unfold lines
    refine ⟨by rw [List.length_cons, h1], fun j hj => ?_⟩
    cases j with
    | zero =>
      rw [List.getElem?_cons_zero, hgood, htot, compl, Nat.add_zero]
    | succ j =>
      rw [List.getElem?_cons_succ, h2 j (by omega), show i + 1 + j = i + (j + 1) by omega]

/-! ### Stash of the simple table -/

theorem simple_bounds (n nh nb : Nat) (hp : SCuckoo.Params n nh nb)
    (batches : List (List (Nat × List Nat))) (hg : SCuckoo.Good n nh batches) (c' : SCuckoo.Table)
    (hr : SCuckoo.runBatches (SCuckoo.init SCuckoo.new n nh nb) batches = .ok c') :
    batches.flatten.length ≤ SCuckoo.stashUtilization c' + nb ∧
      SCuckoo.stashUtilization c' ≤ batches.flatten.length := by
  obtain ⟨d, e, hnb, _, _, hs⟩ := SCuckoo.C97_placed n nh nb hp batches hg
  rw [hr] at e
  simp only [Out.ok.injEq] at e
  subst e
  have hlen : (batches.flatten.map (·.1)).length = batches.flatten.length := List.length_map _
  rw [hs]
  refine ⟨?_, by rw [← hlen]; exact List.length_filter_le _ _⟩
  have hsplit := List.length_eq_countP_add_countP
    (fun i => decide (SCuckoo.stored c'.bins i = 0)) (l := batches.flatten.map (·.1))
  rw [hlen] at hsplit
  rw [← List.countP_eq_length_filter, hsplit]
  have : (batches.flatten.map (·.1)).countP
      (fun a => decide ¬ decide (SCuckoo.stored c'.bins a = 0) = true) ≤ nb := by
    have hm : (c'.bins.map fun v => v % 2 ^ 56).length = nb := by rw [List.length_map, hnb]
    rw [List.countP_eq_length_filter, ← hm]
    apply List.Subperm.length_le
    apply List.subperm_of_subset (hg.nodup.filter _)
    intro i hi
    rw [List.mem_filter] at hi
    have h2 := hi.2
    simp only [decide_not, Bool.not_eq_eq_eq_not, Bool.not_true, decide_eq_false_iff_not,
      decide_eq_true_eq] at h2
    have hne : SCuckoo.stored c'.bins i ≠ 0 := h2
    unfold SCuckoo.stored at hne
    rw [Ne, List.length_eq_zero_iff] at hne
    obtain ⟨v, hv⟩ := List.exists_mem_of_ne_nil _ hne
    rw [List.mem_filter] at hv
    rw [List.mem_map]
    refine ⟨v, hv.1, ?_⟩
    have := hv.2
    rw [Bool.and_eq_true] at this
    simpa using this.2
  omega

theorem simpleTrial_spec (aes : Block → Block → Block) (n nh nb : Nat)
    (hp : SCuckoo.Params n nh nb) (hashs : List Block) (hl : hashs.length = n) :
    ∃ s, simpleTrial aes n nh nb hashs = .ok s ∧ n ≤ s + nb ∧ s ≤ n := by
  let batch := (List.range n).zip (hashs.map (SCuckoo.rowOf aes nh))
  have hfst : batch.map (·.1) = List.range n := by
    rw [List.map_fst_zip (by simp [hl])]
  have hbl : batch.length = n := by
    rw [← List.length_map (f := (·.1)), hfst, List.length_range]
  have hg : SCuckoo.Good n nh [batch] := by
    refine ⟨?_, ?_, ?_⟩
    · intro p hp'
      have : p.1 ∈ batch.map (·.1) := List.mem_map_of_mem (by simpa using hp')
      rw [hfst] at this
      exact List.mem_range.mp this
    · intro p hp'
      have hp' : p ∈ batch := by simpa using hp'
      have h2 := (List.of_mem_zip (a := p.1) (b := p.2) hp').2
      obtain ⟨x, _, hx⟩ := List.mem_map.mp h2
      rw [← hx]; simp [SCuckoo.rowOf]
    · simp [hfst, List.nodup_range]
  obtain ⟨c', e, _⟩ := SCuckoo.C97_placed n nh nb hp [batch] hg
  have hb := simple_bounds n nh nb hp [batch] hg c' e
  have hrun : SCuckoo.insertHashed aes (SCuckoo.init SCuckoo.new n nh nb) (List.range n) hashs =
      .ok c' := by
    have hb : SCuckoo.runBatches (SCuckoo.init SCuckoo.new n nh nb) [batch] =
        SCuckoo.insertBatch (SCuckoo.init SCuckoo.new n nh nb) batch batch.length := by
      show (SCuckoo.insertBatch _ batch batch.length).bind (fun c => .ok c) = _
      cases SCuckoo.insertBatch (SCuckoo.init SCuckoo.new n nh nb) batch batch.length <;> rfl
    unfold SCuckoo.insertHashed
    rw [if_neg (by simp [hl]), show (List.range n).length = batch.length by simp [hbl]]
    rw [hb] at e
    exact e
  refine ⟨SCuckoo.stashUtilization c', ?_, ?_⟩
  · unfold simpleTrial
    rw [hrun]; rfl
  · have : [batch].flatten.length = n := by simp [hbl]
    rw [this] at hb
    exact hb

/-! ### The sweep -/

theorem sweepE_run (eStep eEnd : ℚ) (m : Nat) : ∀ e : ℚ,
    (∀ k, k < m → eGoes eStep (e + k * eStep) eEnd = true) →
    eGoes eStep (e + m * eStep) eEnd = false →
    sweepE eStep eEnd (m + 1) e = some ((List.range m).map fun (k : Nat) => e + k * eStep) := by
  induction m with
  | zero =>
    intro e _ h
    have h : eGoes eStep e eEnd = false := by simpa using h
    unfold sweepE
    simp [h]
  | succ m ih =>
    intro e h h'
    have h0 : eGoes eStep e eEnd = true := by simpa using h 0 (by omega)
    have hshift : ∀ k : Nat, e + eStep + (k : ℚ) * eStep = e + ((k + 1 : Nat) : ℚ) * eStep := by
      intro k; push_cast; ring
    unfold sweepE
    rw [if_pos h0, ih (e + eStep) (fun k hk => by rw [hshift]; exact h (k + 1) (by omega))
      (by rw [hshift]; exact h')]
    rw [List.range_succ_eq_map]
    simp only [Option.map_some, List.map_cons, List.map_map, Nat.cast_zero, zero_mul, add_zero]
    congr 2
    apply List.map_congr_left
    intro k _
    simp [hshift]

theorem sweepE_endless (eEnd e : ℚ) (h : e ≥ eEnd) : ∀ fuel, sweepE 0 eEnd fuel e = none := by
  intro fuel
  induction fuel with
  | zero => rfl
  | succ k ih =>
    unfold sweepE
    have : eGoes 0 e eEnd = true := by simp [eGoes, h]
    rw [if_pos this, add_zero, ih]; rfl

theorem sweepN_run (nStep nEnd : Nat) (m : Nat) : ∀ n : Nat,
    (∀ k, k < m → n * 2 ^ (k * nStep) ≤ nEnd) → nEnd < n * 2 ^ (m * nStep) →
    (∀ k, k < m → n * 2 ^ ((k + 1) * nStep) < 2 ^ 64) →
    sweepN nStep nEnd (m + 1) n = some ((List.range m).map fun k => n * 2 ^ (k * nStep)) := by
  induction m with
  | zero =>
    intro n _ h _
    unfold sweepN
    have : ¬ n ≤ nEnd := by simpa using h
    rw [if_neg this]; rfl
  | succ m ih =>
    intro n h h' hlt
    have h0 : n ≤ nEnd := by simpa using h 0 (by omega)
    have hmod : n * 2 ^ nStep % 2 ^ 64 = n * 2 ^ nStep :=
      Nat.mod_eq_of_lt (by simpa using hlt 0 (by omega))
    have hshift : ∀ k : Nat, n * 2 ^ nStep * 2 ^ (k * nStep) = n * 2 ^ ((k + 1) * nStep) := by
      intro k; rw [Nat.mul_assoc, ← Nat.pow_add]; congr 2; rw [Nat.add_mul]; omega
    unfold sweepN
    rw [if_pos h0, hmod, ih (n * 2 ^ nStep) (fun k hk => by rw [hshift]; exact h (k + 1) (by omega))
      (by rw [hshift]; exact h') (fun k hk => by rw [hshift]; exact hlt (k + 1) (by omega))]
    rw [List.range_succ_eq_map]
    simp only [Option.map_some, List.map_cons, List.map_map, Nat.zero_mul, Nat.pow_zero, Nat.mul_one]
    congr 2
    apply List.map_congr_left
    intro k _
    simp [hshift]

theorem sweepN_none (nStep nEnd n : Nat) (h : n ≤ nEnd) (hfix : n * 2 ^ nStep % 2 ^ 64 = n) :
    ∀ fuel, sweepN nStep nEnd fuel n = none := by
  intro fuel
  induction fuel with
  | zero => rfl
  | succ k ih => unfold sweepN; rw [if_pos h, hfix, ih]; rfl

/-! ### Scripts -/

theorem acts_append (a b : List Metered) : acts (a ++ b) = acts a ++ acts b := by
  simp [acts]

theorem acts_times (n : Nat) (b : List Metered) : acts (times n b) = times n (acts b) := by
  simp [acts, times, List.map_flatten]

theorem times_succ {α : Type} (n : Nat) (b : List α) : times (n + 1) b = b ++ times n b := by
  simp [times, List.replicate_succ]

theorem pre_times {a b : List Session.Act} (h : Session.Pre a b) :
    ∀ n, Session.Pre (times n a) (times n b) := by
  intro n
  induction n with
  | zero => exact Session.Pre.nil
  | succ n ih => rw [times_succ, times_succ]; exact h.append ih

theorem sum_times {α : Type} (f : α → Nat) (n : Nat) (b : List α) :
    ((times n b).map f).sum = n * (b.map f).sum := by
  induction n with
  | zero => simp [times]
  | succ n ih => rw [times_succ, List.map_append, List.sum_append, ih, Nat.add_mul]; omega

end Verif.Front
