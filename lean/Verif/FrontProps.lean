import Verif.FrontLemmas
/-
Property theorems C101–C105: the measuring programs of the front end.

Specification vocabulary:
  * `allTrials stash t T`  the stash sizes of all trials, thread by thread;
  * `sent`, `received`     bytes that a script sends and receives.
-/
namespace Verif.Front
open Verif Session

/-! ### C101

Full property: the stash experiment ends and reports, for every stash size below the requested one,
how many of the `2^t` trials needed at most this stash and how many needed more. It is false of the
code: a trial with 400 or more stashed items is counted outside the array (`C101_overflow`, and for
`-simple` with 400 items more than bins that is every trial: `C101_simple_overflow`); without
threads the program waits for ever (`C101_no_threads`); more than 400 lines are read outside the
array (`C101_too_many_lines`). -/

/-- The stash sizes of all trials. -/
def allTrials (stash : Nat → Nat → Nat) (t T : Nat) : List Nat :=
  (List.range T).flatMap fun k =>
    (List.range ((k + 1) * 2 ^ t / T - k * 2 ^ t / T)).map fun i => stash k i

/-- C101, partial: with at least one thread, at most 400 lines and fewer than 400 stashed items in
each trial, `2^t` trials are made and line `i` of the report has the number of trials with at most
`i` and with more than `i` stashed items. Missing: larger stashes, more lines, no threads. -/
theorem C101_report_partial (stash : Nat → Nat → Nat) (t T ss : Nat) (hT : 0 < T) (hss : ss ≤ 400)
    (hst : ∀ s ∈ allTrials stash t T, s < 400) :
    (allTrials stash t T).length = 2 ^ t ∧
    ∃ rep, runOne stash t T ss = .ok rep ∧ rep.length = ss ∧
      ∀ i, i < ss → rep[i]? = some (((allTrials stash t T).filter fun s => decide (s ≤ i)).length,
        ((allTrials stash t T).filter fun s => decide (i < s)).length) := by
  have hall : allTrials stash t T = (List.range T).flatMap (ofThread stash (2 ^ t) T) := rfl
  have hlen : (allTrials stash t T).length = 2 ^ t := by
    rw [hall, flatMap_length, Nat.mul_div_cancel_left _ hT]
  obtain ⟨cs, e, hc⟩ := countsGo_spec stash (2 ^ t) T (List.range T) (fun k hk s hs =>
    hst s (by rw [hall]; exact List.mem_flatMap.mpr ⟨k, hk, hs⟩))
  rw [← hall] at hc
  have htot : curTotal cs = (allTrials stash t T).length := by
    unfold curTotal
    rw [show (List.range 400).map (column cs) =
      (List.range 400).map fun i => (allTrials stash t T).count i from
        List.map_congr_left fun i hi => hc i (List.mem_range.mp hi), sum_count]
    rw [List.filter_eq_self.mpr (fun s hs => by simpa using hst s hs)]
  obtain ⟨h1, h2⟩ := lines_spec cs _ hc htot ss 0 (by omega) 0 (by simp)
  refine ⟨hlen, lines cs ss 0 0, ?_, h1, fun i hi => ?_⟩
  · unfold runOne
    rw [e, Out.bind, report, if_pos (htot.trans hlen), if_pos hss]
  · have := h2 i hi
    simpa using this

/-- The estimated level never decreases with the stash size. -/
theorem C101_level (l : List Nat) (i j : Nat) (hij : i ≤ j) :
    secLevel (l.filter fun s => decide (s ≤ i)).length (l.filter fun s => decide (i < s)).length ≤
      secLevel (l.filter fun s => decide (s ≤ j)).length
        (l.filter fun s => decide (j < s)).length := by
  have hg : (l.filter fun s => decide (s ≤ i)).length ≤ (l.filter fun s => decide (s ≤ j)).length := by
    rw [← List.countP_eq_length_filter, ← List.countP_eq_length_filter]
    exact List.countP_mono_left (fun s _ h => by simp at h ⊢; omega)
  have hb : (l.filter fun s => decide (j < s)).length ≤ (l.filter fun s => decide (i < s)).length := by
    rw [← List.countP_eq_length_filter, ← List.countP_eq_length_filter]
    exact List.countP_mono_left (fun s _ h => by simp at h ⊢; omega)
  have mono : ∀ a b : Nat, a ≤ b →
      Real.logb 2 ((max 1 a : Nat) : ℝ) ≤ Real.logb 2 ((max 1 b : Nat) : ℝ) := by
    intro a b hab
    apply Real.logb_le_logb_of_le (by norm_num)
    · have : 0 < max 1 a := by omega
      exact_mod_cast this
    · have : max 1 a ≤ max 1 b := by omega
      exact_mod_cast this
  unfold secLevel
  have := mono _ _ hg
  have := mono _ _ hb
  linarith

/-- C101 is false: if some trial has 400 or more stashed items, its count is written outside the
array. -/
theorem C101_overflow (stash : Nat → Nat → Nat) (t T ss : Nat)
    (h : ∃ s ∈ allTrials stash t T, 400 ≤ s) : runOne stash t T ss = .ub := by
  obtain ⟨s, hs, hlen⟩ := h
  obtain ⟨k, hk, hs⟩ := List.mem_flatMap.mp hs
  unfold runOne
  rw [countsGo_ub stash (2 ^ t) T (List.range T) ⟨k, hk, s, hs, hlen⟩]; rfl

/-- C101 is false without threads: the main thread waits for `2^t` trials, none is made. -/
theorem C101_no_threads (stash : Nat → Nat → Nat) (t ss : Nat) : runOne stash t 0 ss = .ub := by
  have : curTotal [] ≠ 2 ^ t := by
    have h1 : curTotal [] = 0 := by
      unfold curTotal column
      apply List.sum_eq_zero
      intro x hx
      obtain ⟨i, _, rfl⟩ := List.mem_map.mp hx
      rfl
    have := Nat.two_pow_pos t
    omega
  unfold runOne
  rw [List.range_zero, countsGo, Out.bind, report, if_neg this]

/-- C101 is false if more than 400 lines are asked for. -/
theorem C101_too_many_lines (stash : Nat → Nat → Nat) (t T ss : Nat) (hss : 400 < ss) :
    runOne stash t T ss = .ub := by
  by_cases h : ∃ k ∈ List.range T, ∃ s ∈ ofThread stash (2 ^ t) T k, 400 ≤ s
  · unfold runOne
    rw [countsGo_ub stash (2 ^ t) T (List.range T) h]; rfl
  · push Not at h
    obtain ⟨cs, e, _⟩ := countsGo_spec stash (2 ^ t) T (List.range T) h
    unfold runOne
    rw [e, Out.bind, report, if_neg (show ¬ ss ≤ 400 by omega), ite_self]

/-- The stash of a trial with `-simple`: at least the items that cannot be in a bin, at most all. -/
theorem C101_simple (aes : Block → Block → Block) (n nh nb : Nat) (hp : SCuckoo.Params n nh nb)
    (hashs : List Block) (hl : hashs.length = n) :
    ∃ s, simpleTrial aes n nh nb hashs = .ok s ∧ n ≤ s + nb ∧ s ≤ n :=
  simpleTrial_spec aes n nh nb hp hashs hl

/-- C101 is false for `-simple` with at least 400 items more than bins, whatever the hashes. -/
theorem C101_simple_overflow (aes : Block → Block → Block) (n nh nb : Nat)
    (hp : SCuckoo.Params n nh nb) (hn : nb + 400 ≤ n) (hashs : Nat → Nat → List Block)
    (hl : ∀ k i, (hashs k i).length = n) (stash : Nat → Nat → Nat)
    (hst : ∀ k i, simpleTrial aes n nh nb (hashs k i) = .ok (stash k i)) (t T ss : Nat) :
    runOne stash t T ss = .ub := by
  rcases Nat.eq_zero_or_pos T with rfl | hT
  · exact C101_no_threads stash t ss
  · have hbig : ∀ k i, 400 ≤ stash k i := by
      intro k i
      obtain ⟨s, e, h1, _⟩ := simpleTrial_spec aes n nh nb hp (hashs k i) (hl k i)
      rw [hst k i] at e
      simp only [Out.ok.injEq] at e
      omega
    apply C101_overflow
    have hlen : (allTrials stash t T).length = 2 ^ t := by
      have hall : allTrials stash t T = (List.range T).flatMap (ofThread stash (2 ^ t) T) := rfl
      rw [hall, flatMap_length, Nat.mul_div_cancel_left _ hT]
    have hne : allTrials stash t T ≠ [] := by
      intro h; rw [h] at hlen; have := Nat.two_pow_pos t; rw [List.length_nil] at hlen; omega
    obtain ⟨s, hs⟩ := List.exists_mem_of_ne_nil _ hne
    refine ⟨s, hs, ?_⟩
    obtain ⟨k, _, hs⟩ := List.mem_flatMap.mp hs
    obtain ⟨i, _, rfl⟩ := List.mem_map.mp hs
    exact hbig k i

/-- Eight trials on three threads. -/
example : allTrials (fun k i => k * i) 3 3 = [0, 0, 0, 1, 2, 0, 2, 4] ∧
    (∀ s ∈ allTrials (fun k i => k * i) 3 3, s < 400) ∧
    runOne (fun k i => k * i) 3 3 3 = .ok [(4, 4), (5, 3), (7, 1)] := by
  refine ⟨?_, ?_, ?_⟩ <;> decide +kernel

example : ∃ s ∈ allTrials (fun _ _ => 400) 0 1, 400 ≤ s := by decide +kernel

example : SCuckoo.Params 500 2 100 ∧ 100 + 400 ≤ 500 :=
  ⟨⟨by decide, by decide, by decide, by decide⟩, by decide⟩

/-! ### C102

Full property: the sweep over set sizes and expansion factors ends and visits the arithmetic
progression of factors and the geometric progression of sizes up to the given ends. It is false of
the code for step 0 (`C102_zero_eStep`, `C102_zero_nStep`) and if the size wraps to 0
(`C102_wrap`). -/

/-- C102, partial: a step that is not 0 gives the progression from `e` up (or down) to `eEnd`.
Missing: step 0. -/
theorem C102_factors_partial (e eStep eEnd : ℚ) (h : eStep ≠ 0) :
    ∃ fuel m, sweepE eStep eEnd fuel e = some ((List.range m).map fun (k : Nat) => e + k * eStep) ∧
      (0 < eStep → (∀ k : Nat, k < m ↔ e + k * eStep ≤ eEnd)) ∧
      (eStep < 0 → (∀ k : Nat, k < m ↔ eEnd ≤ e + k * eStep)) := by
  have hex : ∃ k : Nat, eGoes eStep (e + k * eStep) eEnd = false := by
    rcases lt_or_gt_of_ne h with hneg | hpos
    · obtain ⟨k, hk⟩ := exists_nat_gt ((e - eEnd) / (-eStep))
      refine ⟨k, ?_⟩
      rw [div_lt_iff₀ (by linarith)] at hk
      simp only [eGoes, if_neg (not_lt.mpr hneg.le), ge_iff_le, decide_eq_false_iff_not, not_le]
      linarith
    · obtain ⟨k, hk⟩ := exists_nat_gt ((eEnd - e) / eStep)
      refine ⟨k, ?_⟩
      rw [div_lt_iff₀ hpos] at hk
      simp only [eGoes, if_pos hpos, decide_eq_false_iff_not, not_le]
      linarith
  classical
  have hm := Nat.find_spec hex
  have hlt : ∀ k, k < Nat.find hex → eGoes eStep (e + k * eStep) eEnd = true := fun k hk => by
    have := Nat.find_min hex hk
    simpa using this
  generalize Nat.find hex = m at hm hlt
  refine ⟨m + 1, m, sweepE_run eStep eEnd _ e hlt hm, fun hpos k => ?_, fun hneg k => ?_⟩
  · constructor
    · intro hk
      simpa [eGoes, hpos] using hlt k hk
    · intro hk
      by_contra hge
      simp only [eGoes, if_pos hpos, decide_eq_false_iff_not, not_le] at hm
      have : (m : ℚ) ≤ k := by exact_mod_cast not_lt.mp hge
      nlinarith
  · have hn : ¬ (0 < eStep) := not_lt.mpr hneg.le
    constructor
    · intro hk
      simpa [eGoes, hn] using hlt k hk
    · intro hk
      by_contra hge
      simp only [eGoes, gt_iff_lt, if_neg hn, ge_iff_le, decide_eq_false_iff_not, not_le] at hm
      have : (m : ℚ) ≤ k := by exact_mod_cast not_lt.mp hge
      nlinarith

/-- C102, partial: a positive size and a positive step give all `n * 2^(k * nStep)` up to `nEnd`, if
the next larger one still fits into 64 bits. Missing: step 0, size 0, and wrapping. -/
theorem C102_sizes_partial (n nStep nEnd : Nat) (hn : 0 < n) (hs : 0 < nStep)
    (hfit : nEnd * 2 ^ nStep < 2 ^ 64) :
    ∃ fuel m, sweepN nStep nEnd fuel n = some ((List.range m).map fun k => n * 2 ^ (k * nStep)) ∧
      ∀ k, k < m ↔ n * 2 ^ (k * nStep) ≤ nEnd := by
  have hex : ∃ k, nEnd < n * 2 ^ (k * nStep) := by
    refine ⟨nEnd, ?_⟩
    have h1 : nEnd < 2 ^ nEnd := Nat.lt_two_pow_self
    have h2 : 2 ^ nEnd ≤ 2 ^ (nEnd * nStep) :=
      Nat.pow_le_pow_right (by decide) (Nat.le_mul_of_pos_right _ hs)
    have h3 : 2 ^ (nEnd * nStep) ≤ n * 2 ^ (nEnd * nStep) := Nat.le_mul_of_pos_left _ hn
    omega
  classical
  have hm := Nat.find_spec hex
  have hlt : ∀ k, k < Nat.find hex → n * 2 ^ (k * nStep) ≤ nEnd := fun k hk => by
    have := Nat.find_min hex hk
    omega
  refine ⟨Nat.find hex + 1, Nat.find hex, sweepN_run nStep nEnd _ n hlt hm (fun k hk => ?_),
    fun k => ⟨hlt k, fun hk => ?_⟩⟩
  · have h1 := hlt k hk
    rw [Nat.add_mul, Nat.one_mul, Nat.pow_add, ← Nat.mul_assoc]
    exact Nat.lt_of_le_of_lt (Nat.mul_le_mul_right _ h1) hfit
  · by_contra hge
    have h1 : n * 2 ^ (Nat.find hex * nStep) ≤ n * 2 ^ (k * nStep) :=
      Nat.mul_le_mul_left _ (Nat.pow_le_pow_right (by decide)
        (Nat.mul_le_mul_right _ (not_lt.mp hge)))
    omega

/-- C102 is false: with `-eStep 0` the inner loop never ends, in particular for the default
`eEnd = e`. -/
theorem C102_zero_eStep (e eEnd : ℚ) (h : eEnd ≤ e) : ∀ fuel, sweepE 0 eEnd fuel e = none :=
  sweepE_endless eEnd e h

/-- C102 is false: with `-nStep 0` the outer loop never ends. -/
theorem C102_zero_nStep (n nEnd : Nat) (hn : n < 2 ^ 64) (h : n ≤ nEnd) :
    ∀ fuel, sweepN 0 nEnd fuel n = none :=
  sweepN_none 0 nEnd n h (by simpa using Nat.mod_eq_of_lt hn)

/-- C102 is false: a size that wraps to 0 stays 0. -/
theorem C102_wrap (n nStep nEnd : Nat) (h : n ≤ nEnd) (hw : n * 2 ^ nStep % 2 ^ 64 = 0) :
    ∀ fuel, sweepN nStep nEnd fuel n = none := by
  intro fuel
  cases fuel with
  | zero => rfl
  | succ k =>
    unfold sweepN
    rw [if_pos h, hw, sweepN_none nStep nEnd 0 (Nat.zero_le _) (by simp)]; rfl

example : sweepE (1 / 4) 2 10 (3 / 2) = some [3 / 2, 7 / 4, 2] ∧
    sweepE (-1 / 4) 1 10 (3 / 2) = some [3 / 2, 5 / 4, 1] ∧
    sweepN 2 100 10 5 = some [5, 20, 80] ∧ (2 ^ 62) * 2 ^ 2 % 2 ^ 64 = 0 := by
  refine ⟨?_, ?_, ?_, ?_⟩ <;> decide +kernel

/-! ### C103

Full property: `-nn v` selects sets of `2^v` elements. It is false of the code for `v ≥ 31`. -/

/-- C103, partial: right for logarithms up to 30. Missing: larger ones. -/
theorem C103_sizes_partial (v : Nat) (h : v ≤ 30) : powItems v = .ok (2 ^ v) := by
  unfold powItems
  rw [if_pos (by omega)]

/-- C103 is false: 31 gives `2^64 - 2^31` elements, larger logarithms are undefined. -/
theorem C103_wrong (v : Nat) (h : 31 ≤ v) :
    powItems v ≠ .ok (2 ^ v) ∧ (v = 31 → powItems v = .ok (2 ^ 64 - 2 ^ 31)) ∧
      (32 ≤ v → powItems v = .ub) := by
  unfold powItems
  rw [if_neg (by omega)]
  refine ⟨?_, fun hv => by rw [if_pos hv], fun hv => by rw [if_neg (by omega)]⟩
  split
  · rename_i hv; subst hv; decide
  · simp

example : powItems 20 = .ok 1048576 ∧ powItems 31 ≠ .ok (2 ^ 31) := by decide

/-! ### C104 -/

/-- C104. In the three-party benchmark each of the six endpoints has exactly one partner among the
six; the client's first channels lead to server 0 and its second to server 1, the servers' second
channels to each other; on each connection a party sends what its partner insists on. -/
theorem C104_wiring :
    (∀ i < 3, ∀ s, ∃ j < 3, ∃ t, linked (pirEp i s) (pirEp j t) ∧ j ≠ i ∧
      greeting j t = expected i s ∧
      ∀ j' < 3, ∀ t', linked (pirEp i s) (pirEp j' t') → j' = j ∧ t' = t) ∧
    linked (pirEp 0 false) (pirEp 1 false) ∧ linked (pirEp 0 true) (pirEp 2 false) ∧
    linked (pirEp 1 true) (pirEp 2 true) := by
  unfold linked
  decide +kernel

/-- C104 for two parties: the party with index 0 meets any other party, and not itself. -/
theorem C104_two (i j : Nat) : linked (benchEp i) (benchEp j) ↔ (i = 0 ∧ j ≠ 0 ∨ i ≠ 0 ∧ j = 0) := by
  unfold linked benchEp
  by_cases hi : i = 0 <;> by_cases hj : j = 0 <;> simp [hi, hj]

example : greeting 1 false = some 1010 ∧ greeting 2 false = some 1011 ∧
    expected 0 true = some 1011 := by decide

/-! ### C105 -/

/-- Bytes that a script sends. -/
def sent : List Act → Nat
  | [] => 0
  | .send n :: l => n + sent l
  | _ :: l => sent l

/-- Bytes that a script receives. -/
def received : List Act → Nat
  | [] => 0
  | .recv n :: l => n + received l
  | _ :: l => received l

theorem metered_sum (l : List Metered) (h : ∀ m ∈ l, m = mSend m.s ∨ m = mRecv m.r) :
    (l.map (·.s)).sum = sent (acts l) ∧ (l.map (·.r)).sum = received (acts l) := by
  induction l with
  | nil => exact ⟨rfl, rfl⟩
  | cons m l ih =>
    obtain ⟨h1, h2⟩ := ih (fun x hx => h x (List.mem_cons_of_mem _ hx))
    rcases h m (List.mem_cons_self ..) with e | e <;> rw [e] <;>
      simp [acts, mSend, mRecv, sent, received] at h1 h2 ⊢ <;> omega

/-- C105. The latency and bandwidth test completes under every schedule and leaves nothing on the
channel. -/
theorem C105_completes : Completes (acts pingSend) (acts pingRecv) := by
  apply Pre.completes
  unfold pingSend pingRecv
  simp only [acts_append, acts_times]
  refine ((Pre.append ?_ (pre_times (Pre.append ?_ (pre_times ?_ _)) _)).append
    (pre_times (Pre.append ?_ (pre_times ?_ _)) _)).append (pre_times (pre_times ?_ _) _)
  · intro a b
    exact .head .sendA (.head .recvB (.head .sendB (.head .recvA
      (.head .sendA (.head .recvB (.head .sendB (.head .recvA .refl)))))))
  · intro a b; exact .head .sendB (.head .recvA .refl)
  · intro a b; exact .head .sendA (.head .recvB .refl)
  · intro a b; exact .head .sendA (.head .recvB .refl)
  · intro a b; exact .head .sendB (.head .recvA .refl)
  · intro a b; exact .head .sendA (.head .sendB (.head .recvA (.head .recvB .refl)))

/-- C105. The counters that each party prints beside the channel's own are the bytes it has sent
and received: 2^28 and 6 in each direction. -/
theorem C105_counters :
    ((pingSend.map (·.s)).sum = sent (acts pingSend) ∧
      (pingSend.map (·.r)).sum = received (acts pingSend)) ∧
    ((pingRecv.map (·.s)).sum = sent (acts pingRecv) ∧
      (pingRecv.map (·.r)).sum = received (acts pingRecv)) ∧
    (pingSend.map (·.s)).sum = 2 ^ 28 + 6 ∧ (pingSend.map (·.r)).sum = 2 ^ 28 + 6 ∧
    (pingRecv.map (·.s)).sum = 2 ^ 28 + 6 ∧ (pingRecv.map (·.r)).sum = 2 ^ 28 + 6 := by
  have hmem : ∀ {P : Metered → Prop} (n : Nat) (b : List Metered), (∀ m ∈ b, P m) →
      ∀ m ∈ times n b, P m := by
    intro P n b hb m hm
    unfold times at hm
    obtain ⟨c, hc, hm⟩ := List.mem_flatten.mp hm
    rw [List.eq_of_mem_replicate hc] at hm
    exact hb m hm
  have hS : ∀ n, ∀ m ∈ [mSend n], m = mSend m.s ∨ m = mRecv m.r := by
    intro n m hm; simp at hm; subst hm; exact Or.inl rfl
  have hR : ∀ n, ∀ m ∈ [mRecv n], m = mSend m.s ∨ m = mRecv m.r := by
    intro n m hm; simp at hm; subst hm; exact Or.inr rfl
  have happ : ∀ {P : Metered → Prop} {a b : List Metered}, (∀ m ∈ a, P m) → (∀ m ∈ b, P m) →
      ∀ m ∈ a ++ b, P m := by
    intro P a b ha hb m hm
    rcases List.mem_append.mp hm with h | h
    · exact ha m h
    · exact hb m h
  have h4 : ∀ a b c d : Metered, (∀ m ∈ [a], m = mSend m.s ∨ m = mRecv m.r) →
      (∀ m ∈ [b], m = mSend m.s ∨ m = mRecv m.r) → (∀ m ∈ [c], m = mSend m.s ∨ m = mRecv m.r) →
      (∀ m ∈ [d], m = mSend m.s ∨ m = mRecv m.r) →
      ∀ m ∈ [a, b, c, d], m = mSend m.s ∨ m = mRecv m.r := by
    intro a b c d ha hb hc hd
    exact happ (a := [a]) ha (happ (a := [b]) hb (happ (a := [c]) hc hd))
  refine ⟨metered_sum _ ?_, metered_sum _ ?_, ?_, ?_, ?_, ?_⟩
  · exact happ (happ (happ (h4 _ _ _ _ (hS 1) (hR 1) (hS 1) (hR 1))
      (hmem _ _ (happ (hR 1) (hmem _ _ (hS _))))) (hmem _ _ (happ (hS 1) (hmem _ _ (hR _)))))
      (hmem _ _ (hmem _ _ (happ (a := [_]) (hS _) (hR _))))
  · exact happ (happ (happ (h4 _ _ _ _ (hR 1) (hS 1) (hR 1) (hS 1))
      (hmem _ _ (happ (hS 1) (hmem _ _ (hR _))))) (hmem _ _ (happ (hR 1) (hmem _ _ (hS _)))))
      (hmem _ _ (hmem _ _ (happ (a := [_]) (hS _) (hR _))))
  all_goals
    simp only [pingSend, pingRecv, List.map_append, List.sum_append, sum_times, List.map_cons,
      List.map_nil, List.sum_cons, List.sum_nil, mSend, mRecv, tryCount, trials, oneMbit]
    norm_num

example : (acts pingSend).length = 4108 := by decide +kernel

end Verif.Front
