import Verif.Rr17aProbProps
import Mathlib.Tactic.NormNum
/-
Property C144: the probability that RR17a misses a common element.
-/
namespace Verif.Rr17
open Verif MeasureTheory Coll
open scoped ENNReal

/-- Position `j` of the receiver is reported. -/
def Reported (j : Nat) (res : Out (List Nat)) : Prop := ∃ out, res = .ok out ∧ j ∈ out

/-- A run misses some common element. -/
def Missed (X Y : List Block) (res : Out (List Nat)) : Prop :=
  ∃ j, ∃ hj : j < Y.length, Y[j] ∈ X ∧ ¬ Reported j res

section
variable {c : Cfg} {hash : Option (Block → Block)} {X Y : List Block} {sbins rbins perms : Nat → List Nat} {maskPerm sched : List Nat}

/-! ### Where the rows of an item are -/

/-- The place in `maskPerm` used for input `i` is determined by the schedule. -/
theorem row_place (hT : 0 < c.T) (hov : c.B * c.T < 2 ^ 64) (hH : Holds c sbins)
    (hf : ∀ t, t < c.T → (sched.foldl (sendStep sbins) (sendStart c)).todo t = []) (i : Nat) :
    ∃ k, ∀ (maskPerm : List Nat) (o : Option Nat) (t b l : Nat),
      (o, t, b, i, l) ∈ sendRows c sbins maskPerm (sched.foldl (sendStep sbins) (sendStart c)) →
        l < c.M ∧ k < c.N ∧ o = (maskPerm[k]?).map fun p => p * c.M + l := by
  have hinv := sInv_sched (c := c) (bins := sbins) sched (sInv_start c sbins)
  generalize hst : sched.foldl (sendStep sbins) (sendStart c) = st at *
  let L : List (Nat × Nat) := st.done.flatMap fun d => (List.range (sbins d.2.1).length).map fun p => (d.2.2 + p, (sbins d.2.1).getD p 0)
  have hL1 : L.map (·.1) = List.range c.N := by
    rw [← maskIdx_final hinv hf hT hov hH, ← hinv.pos]
    simp only [L, List.map_flatMap, List.map_map]
    rfl
  have hL2 : (L.map (·.2)).Nodup := by
    have e : L.map (·.2) = (pairs st.done).flatMap fun d => sbins d.2 := by
      simp only [L, List.map_flatMap, List.map_map, pairs, List.flatMap_map]
      apply flatMap_congr'
      intro d _
      apply List.ext_getElem
      · simp
      · intro p h1 h2
        simp only [List.getElem_map, List.getElem_range, Function.comp_apply]
        rw [Kkrt.getD_eq h2]
    rw [e]
    have h1 : ((pairs st.done).flatMap fun d => sbins d.2).Perm ((todoPairs c c.binsOf).flatMap fun d => sbins d.2) :=
      (hinv.done_perm hf).flatMap_right _
    have h2 : ((todoPairs c c.binsOf).flatMap fun d => sbins d.2) = (List.range c.B).flatMap sbins := by
      rw [← todoPairs_bins c hT hov, List.flatMap_map]
    rw [h2] at h1
    exact (h1.trans hH).nodup_iff.mpr List.nodup_range
  have hrow : ∀ (maskPerm : List Nat) (o : Option Nat) (t b l : Nat), (o, t, b, i, l) ∈ sendRows c sbins maskPerm st →
      l < c.M ∧ ∃ k, (k, i) ∈ L ∧ o = (maskPerm[k]?).map fun p => p * c.M + l := by
    intro maskPerm o t b l hr
    unfold sendRows at hr
    obtain ⟨d, hd1, hd2⟩ := List.mem_flatMap.mp hr
    obtain ⟨r, hr1, he⟩ := List.mem_map.mp hd2
    unfold binRows at hr1
    obtain ⟨p, hp, hr1⟩ := List.mem_flatMap.mp hr1
    obtain ⟨l', hl', rfl⟩ := List.mem_map.mp hr1
    simp only [Prod.mk.injEq] at he
    obtain ⟨e1, _, _, e4, e5⟩ := he
    subst e5
    refine ⟨List.mem_range.mp hl', d.2.2 + p, ?_, e1.symm⟩
    exact List.mem_flatMap.mpr ⟨d, hd1, List.mem_map.mpr ⟨p, hp, by rw [e4]⟩⟩
  by_cases hk : ∃ k, (k, i) ∈ L
  · obtain ⟨k, hk⟩ := hk
    refine ⟨k, fun maskPerm o t b l hr => ?_⟩
    obtain ⟨hl, k', hk', ho⟩ := hrow maskPerm o t b l hr
    have : (k, i) = (k', i) := List.inj_on_of_nodup_map hL2 hk hk' rfl
    have hkk : k = k' := congrArg Prod.fst this
    subst hkk
    refine ⟨hl, ?_, ho⟩
    have : k ∈ L.map (·.1) := List.mem_map.mpr ⟨_, hk, rfl⟩
    rw [hL1] at this
    exact List.mem_range.mp this
  · refine ⟨0, fun maskPerm o t b l hr => ?_⟩
    obtain ⟨_, k', hk', _⟩ := hrow maskPerm o t b l hr
    exact absurd ⟨k', hk'⟩ hk

/-- The masks of both parties as values of the OTs. -/
theorem run_values (S : Setup c hash X Y sbins rbins perms maskPerm sched) (rnd : Nat → Nat → Nat) :
    ∃ t a t' a' : Nat → Nat, Threads c (hashed hash X) t ∧ Threads c (hashed hash Y) t' ∧ (∀ i, i < c.N → a i < c.M) ∧ (∀ j, j < c.N → a' j < c.M) ∧
      (∀ (u : OtPt → Block) (th b i l : Nat), th < c.T → b ∈ c.binsOf th → i ∈ sbins b →
        sendMask (withOt c u) (otInputs hash c X) (senderMasks (withOt c u) (otInputs hash c X) sbins perms) th b i l =
          cut c.ms (u (otPt c false t (hashed hash X) (otInputs hash c X) i (a i)) ^^^ u (otPt c true t (hashed hash X) (otInputs hash c X) i l))) ∧
      ∀ (u : OtPt → Block) (th : Nat), th < c.T →
        entries (withOt c u) (otInputs hash c Y) (receiverMasks (withOt c u) (otInputs hash c Y) rbins rnd) rbins th =
          (c.binsOf th).flatMap fun b => (rbins b).flatMap fun j => (List.range c.M).map fun l =>
            (cut c.keySize (u (otPt c true t' (hashed hash Y) (otInputs hash c Y) j (a' j)) ^^^ u (otPt c false t' (hashed hash Y) (otInputs hash c Y) j l)),
              j * c.M + l, u (otPt c true t' (hashed hash Y) (otInputs hash c Y) j (a' j)) ^^^ u (otPt c false t' (hashed hash Y) (otInputs hash c Y) j l)) := by
  have hT := S.threads
  have hov := S.small
  have h1 : ∀ i, ∃ t, i < c.N → t < c.T ∧ addr c.B ((hashed hash X).getD i 0) ∈ c.binsOf t ∧ i ∈ sbins (addr c.B ((hashed hash X).getD i 0)) := by
    intro i
    by_cases hi : i < c.N
    · obtain ⟨t, ht⟩ := place hT hov S.bins S.sender hi
      exact ⟨t, fun _ => ht⟩
    · exact ⟨0, fun h => absurd h hi⟩
  obtain ⟨t, ht⟩ := Classical.axiomOfChoice h1
  have h3 : ∀ i, ∃ a, i < c.N → a < c.M ∧ ∀ u : OtPt → Block, (senderMasks (withOt c u) (otInputs hash c X) sbins perms).getD i 0 =
      u (otPt c false t (hashed hash X) (otInputs hash c X) i a) := by
    intro i
    by_cases hi : i < c.N
    · obtain ⟨e1, e2, e3⟩ := ht i hi
      obtain ⟨a, ha⟩ := senderMasks_slot (otInputs hash c X) hT hov (S.sender.holds S.bins) S.sender.cap S.perm e1 e2 e3
      exact ⟨a, fun _ => ha⟩
    · exact ⟨0, fun h => absurd h hi⟩
  obtain ⟨a, ha⟩ := Classical.axiomOfChoice h3
  obtain ⟨_, _, t', a', _, ht', _, hal', hrun⟩ := run_masks S rnd
  refine ⟨t, a, t', a', fun i hi => ⟨(ht i hi).1, (ht i hi).2.1⟩, ht', fun i hi => (ha i hi).1, hal', ?_, ?_⟩
  · intro u th b i l hth hb hi
    obtain ⟨hiN, e⟩ := place_addr S.sender (binsOf_lt hT hov hth hb) hi
    subst e
    have e := binsOf_unique hT hov hth (ht i hiN).1 hb (ht i hiN).2.1
    subst e
    unfold sendMask
    rw [(ha i hiN).2 u, BitVec.xor_comm]
    rfl
  · intro u
    obtain ⟨_, _, _, _, h4⟩ := hrun u
    exact h4

/-! ### Several threads -/

/-- No item of the sender other than number `i` has a mask that equals one of the receiver's masks for item `j`. -/
def Clean (c : Cfg) (hash : Option (Block → Block)) (X Y : List Block) (sbins rbins perms : Nat → List Nat) (rnd : Nat → Nat → Nat)
    (i j : Nat) : Prop :=
  ∀ t t' b i' l e, t < c.T → b ∈ c.binsOf t → i' ∈ sbins b → l < c.M → t' < c.T →
    e ∈ entries c (otInputs hash c Y) (receiverMasks c (otInputs hash c Y) rbins rnd) rbins t' → e.2.1 / c.M = j →
    cut c.ms e.2.2 = sendMask c (otInputs hash c X) (senderMasks c (otInputs hash c X) sbins perms) t b i' l → i' = i

/-- If there is no accidental match, item `j` can only be found in a chunk that goes to the thread of its bin. -/
theorem reported_chunk (S : Setup c hash X Y sbins rbins perms maskPerm sched) (rnd : Nat → Nat → Nat) {i j k : Nat}
    (hc : Clean c hash X Y sbins rbins perms rnd i j)
    (hk : ∀ (o : Option Nat) (t b l : Nat), (o, t, b, i, l) ∈ sendRows c sbins maskPerm (sched.foldl (sendStep sbins) (sendStart c)) →
        l < c.M ∧ k < c.N ∧ o = (maskPerm[k]?).map fun p => p * c.M + l)
    {tj : Nat} (htj : ∀ t b, t < c.T → b ∈ c.binsOf t → j ∈ rbins b → t = tj)
    (hr : Reported j (online c (otInputs hash c X) (otInputs hash c Y) sbins rbins perms maskPerm rnd sched)) :
    ∃ v l, maskPerm[k]? = some v ∧ k < c.N ∧ l < c.M ∧ v * c.M + l < c.N * c.M ∧ (v * c.M + l) / c.chunk % c.T = tj := by
  obtain ⟨out, hout, hj⟩ := hr
  have hinv := sInv_sched (c := c) (bins := sbins) sched (sInv_start c sbins)
  have hs := slots_final hinv S.done S.threads S.small (S.sender.holds S.bins) S.perm'
  obtain ⟨buf, hb1, _, hb3⟩ := sendBuffer_ok (perms := perms) (otInputs hash c X) hs
  unfold online at hout
  rw [if_neg (show ¬ c.ms > 16 from Nat.not_lt.mpr S.size'), hb1] at hout
  simp only [Out.bind] at hout
  rw [receive_ok S.masks S.size] at hout
  injection hout with hout
  rw [← hout] at hj
  obtain ⟨th, hth, hj⟩ := List.mem_flatMap.mp hj
  have hth : th < c.T := List.mem_range.mp hth
  obtain ⟨kk, hkk, hj⟩ := List.mem_flatMap.mp hj
  obtain ⟨s, hsr, hj⟩ := List.mem_filterMap.mp hj
  have hcp := chunk_pos S.threads S.masks
  obtain ⟨hkk1, hkk2⟩ := List.mem_filter.mp hkk
  obtain ⟨hs0, hs1⟩ := (mem_rowsOf hcp (List.mem_range.mp hkk1)).mp hsr
  obtain ⟨e, he, hm, hq⟩ := lookup_some hj
  have hrow := hs.mem_iff.mpr (List.mem_map.mpr ⟨s, List.mem_range.mpr hs0, rfl⟩)
  obtain ⟨⟨o, t, b, i', l⟩, hr1, hr2⟩ := List.mem_map.mp hrow
  simp only at hr2
  subst hr2
  obtain ⟨q1, q2, q3, q4⟩ := sendRows_inv (hinv.done_perm S.done) hr1
  rw [(hb3 s _ _ i' l hr1).2] at hm
  have hi := hc t th b i' l e q1 q2 q3 q4 hth he hq hm
  subst hi
  obtain ⟨hl, hkN, ho⟩ := hk _ _ _ _ hr1
  have hv : ∃ v, maskPerm[k]? = some v ∧ s = v * c.M + l := by
    cases hv : maskPerm[k]? with
    | none => rw [hv] at ho; simp at ho
    | some v => rw [hv] at ho; simp at ho; exact ⟨v, rfl, ho⟩
  obtain ⟨v, hv1, rfl⟩ := hv
  refine ⟨v, l, hv1, hkN, hl, hs0, ?_⟩
  rw [hs1]
  have hkk2 : kk % c.T = th := by simpa using hkk2
  rw [hkk2]
  unfold entries at he
  obtain ⟨b', hb', he⟩ := List.mem_flatMap.mp he
  obtain ⟨idx, hidx, he⟩ := List.mem_flatMap.mp he
  obtain ⟨l', hl', rfl⟩ := List.mem_map.mp he
  have hl' := List.mem_range.mp hl'
  have : idx = j := by
    rw [← hq]
    show idx = (idx * c.M + l') / c.M
    rw [Nat.mul_comm, Nat.mul_add_div (by omega), Nat.div_eq_of_lt hl', Nat.add_zero]
  subst this
  exact htj th b' hth hb' hidx

/-- Numbers below `n` in a residue class. -/
theorem class_card (n T t : Nat) (hT : 0 < T) : ((Finset.range n).filter fun kk => kk % T = t).card ≤ (n + T - 1) / T := by
  have : ((Finset.range n).filter fun kk => kk % T = t).card ≤ (Finset.range ((n + T - 1) / T)).card := by
    apply Finset.card_le_card_of_injOn (fun kk => kk / T)
    · intro kk hkk
      have hkk := (Finset.mem_filter.mp (Finset.mem_coe.mp hkk)).1
      rw [Finset.mem_range] at hkk
      simp only [Finset.coe_range, Set.mem_Iio]
      rw [Nat.lt_div_iff_mul_lt hT]
      have := Nat.div_mul_le_self kk T
      omega
    · intro a ha b hb h
      have ha := (Finset.mem_filter.mp (Finset.mem_coe.mp ha)).2
      have hb := (Finset.mem_filter.mp (Finset.mem_coe.mp hb)).2
      have h : a / T = b / T := h
      rw [← Nat.div_add_mod a T, ← Nat.div_add_mod b T, ha, hb, h]
  rwa [Finset.card_range] at this

/-- The values of `maskPerm` with which some row of the item is in a chunk of thread `t`. -/
def goodVals (c : Cfg) (t : Nat) : Finset Nat :=
  ((Finset.range c.numChunks).filter fun kk => kk % c.T = t).biUnion fun kk =>
    Finset.Icc (kk * c.chunk / c.M) (((kk + 1) * c.chunk - 1) / c.M)

theorem goodVals_card (c : Cfg) (t : Nat) (hT : 0 < c.T) (h0 : 0 < c.N * c.M) :
    (goodVals c t).card ≤ (c.numChunks + c.T - 1) / c.T * (c.chunk / c.M + 2) := by
  have hM : 0 < c.M := Nat.pos_of_mul_pos_left h0
  unfold goodVals
  refine (Finset.card_biUnion_le_card_mul _ _ (c.chunk / c.M + 2) ?_).trans (Nat.mul_le_mul_right _ (class_card _ _ _ hT))
  intro kk _
  rw [Nat.card_Icc]
  have hcp := chunk_pos hT h0
  have : ((kk + 1) * c.chunk - 1) / c.M ≤ kk * c.chunk / c.M + c.chunk / c.M + 1 := by
    have h1 : ((kk + 1) * c.chunk - 1) / c.M ≤ (kk * c.chunk + c.chunk) / c.M :=
      Nat.div_le_div_right (by rw [Nat.add_mul, Nat.one_mul]; omega)
    refine h1.trans ?_
    rw [Nat.div_le_iff_le_mul_add_pred hM]
    have a := Nat.div_add_mod (kk * c.chunk) c.M
    have b := Nat.div_add_mod c.chunk c.M
    have a' := Nat.mod_lt (kk * c.chunk) hM
    have b' := Nat.mod_lt c.chunk hM
    rw [Nat.mul_add, Nat.mul_add]
    omega
  generalize ((kk + 1) * c.chunk - 1) / c.M = p at *
  generalize kk * c.chunk / c.M = q at *
  generalize c.chunk / c.M = r at *
  omega

theorem mem_goodVals (c : Cfg) (hT : 0 < c.T) {t v l : Nat} (hl : l < c.M) (hs : v * c.M + l < c.N * c.M)
    (h : (v * c.M + l) / c.chunk % c.T = t) : v ∈ goodVals c t := by
  have hM : 0 < c.M := by omega
  have hcp := chunk_pos hT (c := c) (by omega)
  refine Finset.mem_biUnion.mpr ⟨(v * c.M + l) / c.chunk, ?_, ?_⟩
  · exact Finset.mem_filter.mpr ⟨Finset.mem_range.mpr (row_chunk hT hs).1, h⟩
  · have h1 := Nat.div_add_mod (v * c.M + l) c.chunk
    have h2 := Nat.mod_lt (v * c.M + l) hcp
    rw [Nat.mul_comm] at h1
    rw [Finset.mem_Icc]
    constructor
    · rw [← Nat.lt_succ_iff, Nat.div_lt_iff_lt_mul hM, Nat.succ_mul]
      omega
    · rw [Nat.le_div_iff_mul_le hM, Nat.add_mul, Nat.one_mul]
      omega

variable {Ω : Type} [MeasurableSpace Ω] {μ : Measure Ω}

/-- C144, negation: with random order of the masks (every position of `maskPerm` takes every value with probability at most `1/N`) and no accidental
match, a common element is reported with probability at most this, which is about `1/T` for `T` threads. -/
theorem C144_lost (perm : Ω → List Nat) (hun : ∀ k v, k < c.N → μ {ω | (perm ω)[k]? = some v} ≤ ((c.N : ℕ) : ℝ≥0∞)⁻¹)
    (S : ∀ ω, Setup c hash X Y sbins rbins perms (perm ω) sched) (rnd : Nat → Nat → Nat) (i j : Nat) (hj : j < Y.length)
    (hc : Clean c hash X Y sbins rbins perms rnd i j) :
    μ {ω | Reported j (online c (otInputs hash c X) (otInputs hash c Y) sbins rbins perms (perm ω) rnd sched)} ≤
      ((c.numChunks + c.T - 1) / c.T * (c.chunk / c.M + 2) : ℕ) * ((c.N : ℕ) : ℝ≥0∞)⁻¹ := by
  classical
  rcases isEmpty_or_nonempty Ω with hΩ | ⟨⟨ω0⟩⟩
  · have : {ω | Reported j (online c (otInputs hash c X) (otInputs hash c Y) sbins rbins perms (perm ω) rnd sched)} = ∅ := Set.eq_empty_of_isEmpty _
    rw [this, measure_empty]
    exact bot_le
  have S0 := S ω0
  obtain ⟨k, hk⟩ := row_place S0.threads S0.small (S0.sender.holds S0.bins) S0.done i
  have hlY : Y.length = c.N := by have := S0.receiver.len; simpa [hashed] using this
  obtain ⟨tj, htj1, htj2, htj3⟩ := place S0.threads S0.small S0.bins S0.receiver (i := j) (by omega)
  have htj : ∀ t b, t < c.T → b ∈ c.binsOf t → j ∈ rbins b → t = tj := by
    intro t b ht hb hjb
    obtain ⟨_, e⟩ := place_addr S0.receiver (binsOf_lt S0.threads S0.small ht hb) hjb
    subst e
    exact binsOf_unique S0.threads S0.small ht htj1 hb htj2
  have hsub : {ω | Reported j (online c (otInputs hash c X) (otInputs hash c Y) sbins rbins perms (perm ω) rnd sched)} ⊆
      ⋃ v ∈ goodVals c tj, {ω | k < c.N ∧ (perm ω)[k]? = some v} := by
    intro ω hω
    obtain ⟨v, l, h1, h2, h3, h4, h5⟩ := reported_chunk (S ω) rnd hc (hk (perm ω)) htj hω
    simp only [Set.mem_iUnion]
    exact ⟨v, mem_goodVals c S0.threads h3 h4 h5, h2, h1⟩
  refine (measure_mono hsub).trans ((measure_biUnion_finset_le _ _).trans ?_)
  refine (Finset.sum_le_sum (g := fun _ => ((c.N : ℕ) : ℝ≥0∞)⁻¹) fun v _ => ?_).trans ?_
  · by_cases hkN : k < c.N
    · simpa [hkN] using hun k v hkN
    · simp [hkN]
  · rw [Finset.sum_const, nsmul_eq_mul]
    gcongr
    exact goodVals_card c tj S0.threads S0.masks

/-- In numbers: a million items, bins of 16, two threads: reported with probability at most 51 percent. -/
theorem C144_million (perm : Ω → List Nat) (hun : ∀ k v, k < c.N → μ {ω | (perm ω)[k]? = some v} ≤ ((c.N : ℕ) : ℝ≥0∞)⁻¹)
    (S : ∀ ω, Setup c hash X Y sbins rbins perms (perm ω) sched) (rnd : Nat → Nat → Nat) (i j : Nat) (hj : j < Y.length)
    (hc : Clean c hash X Y sbins rbins perms rnd i j) (hN : c.N = 2 ^ 20) (hM : c.M = 16) (hT : c.T = 2) :
    μ {ω | Reported j (online c (otInputs hash c X) (otInputs hash c Y) sbins rbins perms (perm ω) rnd sched)} ≤ ENNReal.ofReal 0.51 := by
  refine (C144_lost perm hun S rnd i j hj hc).trans ?_
  have hch : c.chunk = 2 ^ 20 := by unfold Cfg.chunk; rw [hN, hM, hT]; decide
  have hnc : c.numChunks = 16 := by unfold Cfg.numChunks; rw [hch, hN, hM]; decide
  rw [hnc, hch, hN, hM, hT]
  rw [show ((16 + 2 - 1) / 2 * (2 ^ 20 / 16 + 2) : ℕ) = 524304 by norm_num, ← ENNReal.ofReal_natCast, ← ENNReal.ofReal_natCast,
    ← ENNReal.ofReal_inv_of_pos (by norm_num), ← ENNReal.ofReal_mul (by norm_num)]
  exact ENNReal.ofReal_le_ofReal (by norm_num)

/-- Orders of the masks as assumed exist. -/
theorem orders_exist (N : Nat) (hN : 0 < N) : ∃ (μ : Measure (Fin N)) (perm : Fin N → List Nat), μ Set.univ = 1 ∧
    (∀ ω, (perm ω).Perm (List.range N)) ∧ ∀ k v, k < N → μ {ω | (perm ω)[k]? = some v} ≤ ((N : ℕ) : ℝ≥0∞)⁻¹ := by
  have hN' : ((N : ℕ) : ℝ≥0∞) ≠ 0 := by exact_mod_cast hN.ne'
  refine ⟨((N : ℕ) : ℝ≥0∞)⁻¹ • Measure.count, fun ω => (List.range N).map fun k => (k + ω) % N, ?_, ?_, ?_⟩
  · simp only [Measure.smul_apply, smul_eq_mul]
    rw [Measure.count_univ]
    simp [ENNReal.inv_mul_cancel hN' (ENNReal.natCast_ne_top N)]
  · intro ω
    have hin : ((List.range N).map fun k => (k + (ω : Nat)) % N).Nodup := by
      refine (List.nodup_map_iff_inj_on List.nodup_range).mpr ?_
      intro a ha b hb h
      have ha := List.mem_range.mp ha
      have hb := List.mem_range.mp hb
      have : a + ω ≡ b + ω [MOD N] := h
      have := Nat.ModEq.add_right_cancel' _ this
      rwa [Nat.ModEq, Nat.mod_eq_of_lt ha, Nat.mod_eq_of_lt hb] at this
    refine (List.perm_of_nodup_nodup_toFinset_eq hin List.nodup_range ?_)
    apply Finset.eq_of_subset_of_card_le
    · intro x hx
      rw [List.mem_toFinset] at hx ⊢
      obtain ⟨k, _, rfl⟩ := List.mem_map.mp hx
      exact List.mem_range.mpr (Nat.mod_lt _ hN)
    · rw [List.toFinset_card_of_nodup hin, List.toFinset_card_of_nodup List.nodup_range]
      simp
  · intro k v hk
    simp only [Measure.smul_apply, smul_eq_mul]
    have hs : {ω : Fin N | ((List.range N).map fun k => (k + (ω : Nat)) % N)[k]? = some v}.Subsingleton := by
      intro a ha b hb
      have ha : ((List.range N).map fun k => (k + (a : Nat)) % N)[k]? = some v := ha
      have hb : ((List.range N).map fun k => (k + (b : Nat)) % N)[k]? = some v := hb
      rw [List.getElem?_map, List.getElem?_range hk] at ha hb
      simp only [Option.map_some, Option.some.injEq] at ha hb
      have : k + a ≡ k + b [MOD N] := ha.trans hb.symm
      have := Nat.ModEq.add_left_cancel' _ this
      rw [Nat.ModEq, Nat.mod_eq_of_lt a.2, Nat.mod_eq_of_lt b.2] at this
      exact Fin.ext this
    have : Measure.count {ω : Fin N | ((List.range N).map fun k => (k + (ω : Nat)) % N)[k]? = some v} ≤ 1 := by
      rcases hs.eq_empty_or_singleton with h | ⟨x, h⟩
      · rw [h]; simp
      · rw [h, Measure.count_singleton]
    calc ((N : ℕ) : ℝ≥0∞)⁻¹ * _ ≤ ((N : ℕ) : ℝ≥0∞)⁻¹ * 1 := by gcongr
      _ = _ := mul_one _

/-! ### Accidental matches are rare -/

variable {u : Ω → OtPt → Block}

/-- The assumption of `C144_lost` holds except with probability `N M^2 / 2^(8 ms)`, if the OT values are random and no item of the sender other than
number `i` shares bin and OT input with the receiver's item `j`. -/
theorem C144_clean (hu : Uniform μ Set.univ (2 ^ 128) fun ω p => (u ω p).toNat) (S : Setup c hash X Y sbins rbins perms maskPerm sched)
    (rnd : Nat → Nat → Nat) (i j : Nat) (hj : j < c.N)
    (ha : ∀ i', i' < c.N → phase c.N c.B ((hashed hash X).getD i' 0) = phase c.N c.B ((hashed hash Y).getD j 0) → i' = i) :
    μ {ω | ¬ Clean (withOt c (u ω)) hash X Y sbins rbins perms rnd i j} ≤ (c.N * c.M * c.M : ℕ) * ((2 ^ (8 * c.ms) : ℕ) : ℝ≥0∞)⁻¹ := by
  classical
  obtain ⟨t, a, t', a', ht, ht', hal, hal', hsm, hen⟩ := run_values S rnd
  have hM : 0 < c.M := Nat.pos_of_mul_pos_left S.masks
  let sP : Nat → OtPt := fun i => otPt c false t (hashed hash X) (otInputs hash c X) i (a i)
  let sQ : Nat → Nat → OtPt := fun i l => otPt c true t (hashed hash X) (otInputs hash c X) i l
  let rP : OtPt := otPt c true t' (hashed hash Y) (otInputs hash c Y) j (a' j)
  let rQ : Nat → OtPt := fun l => otPt c false t' (hashed hash Y) (otInputs hash c Y) j l
  let I := ((Finset.range c.N ×ˢ Finset.range c.M) ×ˢ Finset.range c.M).filter fun p => p.1.1 ≠ i
  have hsub : {ω | ¬ Clean (withOt c (u ω)) hash X Y sbins rbins perms rnd i j} ⊆
      ⋃ p ∈ I, {ω | cut c.ms (u ω (sP p.1.1) ^^^ u ω (sQ p.1.1 p.1.2)) = cut c.ms (u ω rP ^^^ u ω (rQ p.2))} := by
    intro ω hω
    have hω : ¬ Clean (withOt c (u ω)) hash X Y sbins rbins perms rnd i j := hω
    unfold Clean at hω
    push Not at hω
    obtain ⟨th, th', b, i', l, e, h1, h2, h3, h4, h5, h6, h7, h8, h9⟩ := hω
    have h1 : th < c.T := h1
    have h2 : b ∈ c.binsOf th := h2
    have h4 : l < c.M := h4
    have h5 : th' < c.T := h5
    have h6 : e ∈ entries (withOt c (u ω)) (otInputs hash c Y) (receiverMasks (withOt c (u ω)) (otInputs hash c Y) rbins rnd) rbins th' := h6
    rw [hen (u ω) th' h5] at h6
    obtain ⟨b', hb', h6⟩ := List.mem_flatMap.mp h6
    obtain ⟨j', hj', h6⟩ := List.mem_flatMap.mp h6
    obtain ⟨l', hl', rfl⟩ := List.mem_map.mp h6
    have hl' := List.mem_range.mp hl'
    have hjj : j' = j := by
      rw [← h7]
      show j' = (j' * c.M + l') / c.M
      rw [Nat.mul_comm, Nat.mul_add_div hM, Nat.div_eq_of_lt hl', Nat.add_zero]
    subst hjj
    have h8 := h8.trans (hsm (u ω) th b i' l h1 h2 h3)
    have hi' := (place_addr S.sender (binsOf_lt S.threads S.small h1 h2) h3).1
    simp only [Set.mem_iUnion]
    exact ⟨((i', l), l'), Finset.mem_filter.mpr ⟨by simp [hi', h4, hl'], h9⟩, h8.symm⟩
  have hone : ∀ p ∈ I, μ {ω | cut c.ms (u ω (sP p.1.1) ^^^ u ω (sQ p.1.1 p.1.2)) = cut c.ms (u ω rP ^^^ u ω (rQ p.2))} =
      ((2 ^ (8 * c.ms) : ℕ) : ℝ≥0∞)⁻¹ := by
    rintro ⟨⟨i', l⟩, l'⟩ hp
    obtain ⟨hp1, hp2⟩ := Finset.mem_filter.mp hp
    simp only [Finset.mem_product, Finset.mem_range] at hp1
    obtain ⟨⟨hi, hl⟩, hl'⟩ := hp1
    have hne : ∀ (d : Bool) (k k' : Nat), k < c.M → k' < c.M → otPt c d t (hashed hash X) (otInputs hash c X) i' k ≠
        otPt c d t' (hashed hash Y) (otInputs hash c Y) j k' := by
      intro d k k' hk hk' e
      exact hp2 (ha i' hi (hashed_getD_phase S.sender.len S.receiver.len ht ht' hi hj hk hk' e).2.2)
    let P : Bool → OtPt := fun x => if x then sP i' else rP
    let Q : Bool → OtPt := fun x => if x then sQ i' l else rQ l'
    have hun := masks_uniform (I := Bool) hu P Q
      (by
        intro x y h
        cases x <;> cases y
        · rfl
        · have : rQ l' = sQ i' l := h
          exact absurd (congrArg Prod.fst this) (by simp [rQ, sQ, otPt])
        · have : sQ i' l = rQ l' := h
          exact absurd (congrArg Prod.fst this) (by simp [rQ, sQ, otPt])
        · rfl)
      (by
        intro x y h
        cases x <;> cases y
        · have : rP = rQ l' := h
          exact absurd (congrArg Prod.fst this) (by simp [rP, rQ, otPt])
        · have : rP = sQ i' l := h
          exact hne true l (a' j) hl (hal' j hj) this.symm
        · have : sP i' = rQ l' := h
          exact hne false (a i') l' (hal i' hi) hl' this
        · have : sP i' = sQ i' l := h
          exact absurd (congrArg Prod.fst this) (by simp [sP, sQ, otPt]))
      c.ms S.size'
    exact hun.pair (by positivity) (x := true) (y := false) trivial trivial (by decide)
  refine (measure_mono hsub).trans ((measure_biUnion_finset_le I _).trans ?_)
  rw [Finset.sum_congr rfl hone, Finset.sum_const, nsmul_eq_mul]
  gcongr
  refine (Finset.card_filter_le _ _).trans (le_of_eq ?_)
  rw [Finset.card_product, Finset.card_product, Finset.card_range, Finset.card_range]

/-! ### One thread -/

/-- Bound for C144, for OT values read at `f p` instead of `p`. -/
theorem miss_via (hu : Uniform μ Set.univ (2 ^ 128) fun ω p => (u ω p).toNat) (S : Setup c hash X Y sbins rbins perms maskPerm sched) (hT : c.T = 1)
    (f : OtPt → OtPt) (hf : ∀ p, (f p).1 = p.1)
    (ha : ∀ (t : Nat → Nat) (d : Bool) (i j k k' : Nat), Threads c (hashed hash Y) t → i < c.N → j < c.N → k < c.M →
      k' < c.M → f (otPt c d t (hashed hash Y) (otInputs hash c Y) i k) = f (otPt c d t (hashed hash Y) (otInputs hash c Y) j k') →
        i = j ∧ k = k') (rnd : Nat → Nat → Nat) :
    μ {ω | Missed X Y (online (withOt c fun p => u ω (f p)) (otInputs hash c X) (otInputs hash c Y) sbins rbins perms maskPerm rnd sched)} ≤
      ENNReal.ofReal ((c.N * c.M : ℕ) * ((c.N * c.M : ℕ) - 1) / 2 ^ 65) := by
  classical
  obtain ⟨t, a, t', a', ht, ht', hal, hal', hsm, hen⟩ := run_values S rnd
  have hM : 0 < c.M := Nat.pos_of_mul_pos_left S.masks
  have hks : c.keySize = 8 := Nat.min_eq_left S.size
  let rP : Nat → OtPt := fun j => f (otPt c true t' (hashed hash Y) (otInputs hash c Y) j (a' j))
  let rQ : Nat → Nat → OtPt := fun j l => f (otPt c false t' (hashed hash Y) (otInputs hash c Y) j l)
  let eqv : Fin (c.N * c.M) ≃ Fin c.N × Fin c.M := finProdFinEquiv.symm
  let P : Fin (c.N * c.M) → OtPt := fun p => rP (eqv p).1
  let Q : Fin (c.N * c.M) → OtPt := fun p => rQ (eqv p).1 (eqv p).2
  have hQ : Function.Injective Q := by
    intro p q h
    obtain ⟨h2, h3⟩ := ha t' false _ _ _ _ ht' (eqv p).1.2 (eqv q).1.2 (eqv p).2.2 (eqv q).2.2 h
    exact eqv.injective (Prod.ext (Fin.ext h2) (Fin.ext h3))
  have hPQ : ∀ p q, P p ≠ Q q := fun p q h => absurd (congrArg Prod.fst h) (by simp [P, Q, rP, rQ, otPt, hf])
  have hun := masks_uniform hu P Q hQ hPQ 8 (by omega)
  have hb := hun.same (by positivity) id Function.injective_id (fun _ => trivial)
  have h3 : ((c.N * c.M : ℕ) : ℝ) * ((c.N * c.M : ℕ) - 1) / (2 * (2 ^ (8 * 8) : ℕ)) = (c.N * c.M : ℕ) * ((c.N * c.M : ℕ) - 1) / 2 ^ 65 := by
    norm_num
  rw [h3] at hb
  refine le_trans (measure_mono ?_) hb
  rintro ω ⟨j, hj, hx, hno⟩
  by_contra hgood
  have hinj : ∀ p q : Fin (c.N * c.M), cut 8 (u ω (P p) ^^^ u ω (Q p)) = cut 8 (u ω (P q) ^^^ u ω (Q q)) → p = q := by
    intro p q h
    by_contra hne
    exact hgood ⟨p, q, hne, h⟩
  have hinj' : ∀ j l j' l', j < c.N → l < c.M → j' < c.N → l' < c.M →
      cut c.keySize (u ω (rP j) ^^^ u ω (rQ j l)) = cut c.keySize (u ω (rP j') ^^^ u ω (rQ j' l')) → j = j' ∧ l = l' := by
    intro j l j' l' hj hl hj' hl' h
    have h1 := hinj (eqv.symm (⟨j, hj⟩, ⟨l, hl⟩)) (eqv.symm (⟨j', hj'⟩, ⟨l', hl'⟩)) (by
      simp only [P, Q, Equiv.apply_symm_apply]
      rw [hks] at h
      exact h)
    have h2 := eqv.symm.injective h1
    simp only [Prod.mk.injEq, Fin.mk.injEq] at h2
    exact h2
  have hbins : c.binsOf 0 = List.range c.B := by
    have := binsOf_flatMap c S.threads S.small
    rw [hT] at this
    simpa using this
  have hperm : ((c.binsOf 0).flatMap rbins).Perm (List.range c.N) := by
    rw [hbins]
    exact S.receiver.holds S.bins
  have hkeys : ((entries (withOt c fun p => u ω (f p)) (otInputs hash c Y) (receiverMasks (withOt c fun p => u ω (f p)) (otInputs hash c Y) rbins rnd) rbins 0).map (·.1)).Nodup := by
    rw [hen (fun p => u ω (f p)) 0 (by omega), List.map_flatMap]
    have e : ((c.binsOf 0).flatMap fun b => ((rbins b).flatMap fun j => (List.range c.M).map fun l => (cut c.keySize (u ω (rP j) ^^^ u ω (rQ j l)),
            j * c.M + l, u ω (rP j) ^^^ u ω (rQ j l))).map (·.1)) =
        ((c.binsOf 0).flatMap rbins).flatMap fun j => (List.range c.M).map fun l => cut c.keySize (u ω (rP j) ^^^ u ω (rQ j l)) := by
      rw [List.flatMap_assoc]
      apply flatMap_congr'
      intro b _
      rw [List.map_flatMap]
      apply flatMap_congr'
      intro j _
      rw [List.map_map]
      rfl
    refine (List.Perm.nodup_iff (List.Perm.trans (List.Perm.of_eq e) (hperm.flatMap_right _))).mpr ?_
    rw [List.nodup_iff_pairwise_ne, List.pairwise_flatMap]
    constructor
    · intro j hj
      rw [List.pairwise_map]
      refine List.Pairwise.imp_of_mem ?_ (List.nodup_iff_pairwise_ne.mp (List.nodup_range (n := c.M)))
      intro l l' hl hl' hne he
      exact hne (hinj' j l j l' (List.mem_range.mp hj) (List.mem_range.mp hl) (List.mem_range.mp hj) (List.mem_range.mp hl') he).2
    · refine List.Pairwise.imp_of_mem ?_ (List.nodup_iff_pairwise_ne.mp (List.nodup_range (n := c.N)))
      intro j j' hj hj' hne x hx y hy he
      obtain ⟨l, hl, rfl⟩ := List.mem_map.mp hx
      obtain ⟨l', hl', rfl⟩ := List.mem_map.mp hy
      exact hne (hinj' j l j' l' (List.mem_range.mp hj) (List.mem_range.mp hl) (List.mem_range.mp hj') (List.mem_range.mp hl') he).1
  obtain ⟨i, hi, hij⟩ := List.getElem_of_mem hx
  apply hno
  exact C39_one_thread_partial (withOt c fun p => u ω (f p)) hash X Y sbins rbins perms maskPerm sched rnd hT S.bins
    (by have := S.small; rw [hT] at this; show c.B < 2 ^ 64; omega) S.size S.size' ⟨S.sender.len, S.sender.mem, S.sender.cap⟩
    ⟨S.receiver.len, S.receiver.mem, S.receiver.cap⟩ S.perm S.perm' (S.done 0 S.threads) hkeys i j hi hj hij

/-- C144, one thread: if the OT values are random and the receiver's items are kept apart, some common element is missing with probability at most
`q (q - 1) / 2^65`, where `q = N M` is the number of the receiver's masks. The full property is this for every number of threads and is false
(`C144_lost`). -/
theorem C144_one_thread_partial (hu : Uniform μ Set.univ (2 ^ 128) fun ω p => (u ω p).toNat)
    (S : Setup c hash X Y sbins rbins perms maskPerm sched) (hT : c.T = 1) (ha : ((hashed hash Y).map (phase c.N c.B)).Nodup)
    (rnd : Nat → Nat → Nat) :
    μ {ω | Missed X Y (online (withOt c (u ω)) (otInputs hash c X) (otInputs hash c Y) sbins rbins perms maskPerm rnd sched)} ≤
      ENNReal.ofReal ((c.N * c.M : ℕ) * ((c.N * c.M : ℕ) - 1) / 2 ^ 65) := by
  have hphY : ∀ i j, i < c.N → j < c.N → phase c.N c.B ((hashed hash Y).getD i 0) = phase c.N c.B ((hashed hash Y).getD j 0) → i = j := by
    intro i j hi hj h
    have hi' : i < (hashed hash Y).length := by rw [S.receiver.len]; exact hi
    have hj' : j < (hashed hash Y).length := by rw [S.receiver.len]; exact hj
    rw [Kkrt.getD_eq hi', Kkrt.getD_eq hj'] at h
    exact (List.Nodup.getElem_inj_iff ha (hi := by simpa using hi') (hj := by simpa using hj')).mp (by simpa using h)
  refine miss_via hu S hT id (fun _ => rfl) (fun t d i j k k' ht hi hj hk hk' e => ?_) rnd
  obtain ⟨_, h2, h3⟩ := hashed_getD_phase S.receiver.len S.receiver.len ht ht hi hj hk hk' e
  exact ⟨hphY i j hi hj h3, h2⟩

end

/-- The assumptions of `C144_lost` can be met with two threads. -/
example : ∃ (μ : Measure (Fin 2)) (perm : Fin 2 → List Nat), (∀ k v, k < (exCfg 2).N → μ {ω | (perm ω)[k]? = some v} ≤ (((exCfg 2).N : ℕ) : ℝ≥0∞)⁻¹) ∧
    (∀ ω, Setup (exCfg 2) none [2#128, 3#128] [2#128, 3#128] exBins exBins (fun _ => [0]) (perm ω) [0, 1]) ∧
    Clean (exCfg 2) none [2#128, 3#128] [2#128, 3#128] exBins exBins (fun _ => [0]) (fun _ _ => 0) 0 0 := by
  obtain ⟨μ, perm, _, hp, hun⟩ := orders_exist 2 (by decide)
  have h2 : ∀ b, b < 2 → b = 0 ∨ b = 1 := by omega
  refine ⟨μ, perm, hun, fun ω => ⟨by decide, by decide, by decide, by decide, by decide, by decide, ⟨rfl, ?_, ?_⟩, ⟨rfl, ?_, ?_⟩, ?_, hp ω, ?_⟩, ?_⟩
  · intro b hb
    rcases h2 b hb with rfl | rfl <;> decide
  · intro b hb
    rcases h2 b hb with rfl | rfl <;> decide
  · intro b hb
    rcases h2 b hb with rfl | rfl <;> decide
  · intro b hb
    rcases h2 b hb with rfl | rfl <;> decide
  · intro b hb
    rcases h2 b hb with rfl | rfl <;> decide
  · intro t ht
    rcases h2 t ht with rfl | rfl <;> decide +kernel
  · intro t t' b i' l e ht hb hi hl ht' he hj hm
    have hb' : b < 2 := binsOf_lt (c := exCfg 2) (by decide) (by decide) ht hb
    have hl : l = 0 := by have : l < 1 := hl; omega
    subst hl
    rcases h2 b hb' with rfl | rfl
    · have : i' ∈ [0] := hi
      simpa using this
    · exfalso
      have : i' ∈ [1] := hi
      rw [List.mem_singleton] at this
      subst this
      rcases h2 t ht with rfl | rfl
      · exact absurd hb (by decide)
      · rcases h2 t' ht' with rfl | rfl
        · revert hm hj
          have : e ∈ [entries (exCfg 2) (otInputs none (exCfg 2) [2#128, 3#128]) (receiverMasks (exCfg 2) (otInputs none (exCfg 2) [2#128, 3#128]) exBins fun _ _ => 0) exBins 0 |>.headD (0, 0, 0#128)] := by
            have h : entries (exCfg 2) (otInputs none (exCfg 2) [2#128, 3#128]) (receiverMasks (exCfg 2) (otInputs none (exCfg 2) [2#128, 3#128]) exBins fun _ _ => 0) exBins 0 = [entries (exCfg 2) (otInputs none (exCfg 2) [2#128, 3#128]) (receiverMasks (exCfg 2) (otInputs none (exCfg 2) [2#128, 3#128]) exBins fun _ _ => 0) exBins 0 |>.headD (0, 0, 0#128)] := by decide +kernel
            rw [h] at he
            exact he
          rw [List.mem_singleton] at this
          subst this
          decide +kernel
        · revert hj
          have : e ∈ [entries (exCfg 2) (otInputs none (exCfg 2) [2#128, 3#128]) (receiverMasks (exCfg 2) (otInputs none (exCfg 2) [2#128, 3#128]) exBins fun _ _ => 0) exBins 1 |>.headD (0, 0, 0#128)] := by
            have h : entries (exCfg 2) (otInputs none (exCfg 2) [2#128, 3#128]) (receiverMasks (exCfg 2) (otInputs none (exCfg 2) [2#128, 3#128]) exBins fun _ _ => 0) exBins 1 = [entries (exCfg 2) (otInputs none (exCfg 2) [2#128, 3#128]) (receiverMasks (exCfg 2) (otInputs none (exCfg 2) [2#128, 3#128]) exBins fun _ _ => 0) exBins 1 |>.headD (0, 0, 0#128)] := by decide +kernel
            rw [h] at he
            exact he
          rw [List.mem_singleton] at this
          subst this
          decide +kernel

/-- The assumption of `C144_one_thread_partial` on the items. -/
example : ((hashed none [4#128, 5#128]).map (phase (exCfg 1).N (exCfg 1).B)).Nodup := by decide +kernel

end Verif.Rr17
