import Verif.ReuseRunLemmas
import Verif.ReuseBalLemmas
import Verif.CuckooParamProps
/-!
Property C149: a receiver object with a hash table can be used for another run.

Full property: a run (`init`, then `sendInput` or `output`) on an object that was used before behaves as on a new object.
It is false of the code. `init` resizes the table of the earlier run, which keeps its cells:

* KKRT, at least as many bins as before: the earlier items take up space, and the insertion throws once the items of both
  runs are more than the bins; with the code's own parameters this is every second run of the same size
  (`C149_kkrt_throws`, `C149_kkrt_default`). If the second set is smaller, the run never completes
  (`C149_kkrt_smaller`). If it completes, every index of the first run is in two bins and is reported twice when the
  item is common, after the indices of the earlier run (`C149_kkrt_twice`).
* PRTY, at least as many bins as before: the balancing loop does not end if the items of both runs do not fit
  (`C149_prty_never_ends`), with the code's parameters for every second run of the same size from 41 items on
  (`C149_prty_default`). If it ends, the vectors of every bin begin with the items of the earlier run
  (`C149_prty_keeps`).

For new objects `C149_kkrt_new_partial` relates the object to the existing model of a run.
-/
namespace Verif.ReuseRun
open Verif Verif.Cuckoo

/-! ### KKRT -/

/-- The first run on a new object is the run of `Kkrt.recv` on a new table. -/
theorem C149_kkrt_new_partial (i : KkrtIn) : (kkrtRun kkrtNew i).bind (fun o => .ok o.inter) =
    (Cuckoo.init Cuckoo.fresh (max 200 i.items.length) i.nb 0 3).bind fun c =>
      Kkrt.recv i.F i.aes i.mb i.step i.items.length i.ns c i.items i.msgs := by
  unfold kkrtRun kkrtInit kkrtNew
  cases hc : Cuckoo.init Cuckoo.fresh (max 200 i.items.length) i.nb 0 3 with
  | ok c =>
    simp only [Out.bind]
    unfold kkrtSend Kkrt.recv
    rw [if_neg (by simp), if_neg (by simp)]
    cases insertItems i.aes c i.items 0 with
    | ok c' =>
      simp only [Out.bind]
      cases Kkrt.recvBins i.F i.mb i.items c' c'.bins.length 0 fun _ => [] with
      | ok maps =>
        simp only
        cases Kkrt.recvRegions maps i.step i.ns ((i.ns + i.step - 1) / i.step) i.msgs <;> simp
      | throw => rfl
      | ub => rfl
    | throw => rfl
    | ub => rfl
  | throw => rfl
  | ub => rfl

/-- C149 fails for KKRT: if the items of the two runs are more than the bins, the second run throws, whatever the
items, the seeds, the OPRF and the sender's messages. -/
theorem C149_kkrt_throws (i1 i2 : KkrtIn) (o1 : Kkrt) (h : kkrtRun kkrtNew i1 = .ok o1)
    (hn1 : i1.items.length < 2 ^ 56 - 1) (hn2 : i2.items.length < 2 ^ 56 - 1) (hb : 0 < i1.nb)
    (h12 : i1.items.length ≤ max 200 i2.items.length) (hnb : i1.nb ≤ i2.nb)
    (hfull : i2.nb < i1.items.length + i2.items.length) : kkrtRun o1 i2 = .throw := by
  rcases second_insert hn1 hb h i2 hn2 h12 hnb with ⟨e, _⟩ | ⟨c, _, q1, q2, _, w⟩
  · exact e
  · have := (w fun _ => true).le
    rw [max_count, max_count, q1, q2] at this
    omega

/-- C149 fails for KKRT with the code's own number of bins: after a run with `n ≥ 200` items, every run with `n` items
throws. -/
theorem C149_kkrt_default (i1 i2 : KkrtIn) (o1 : Kkrt) (h : kkrtRun kkrtNew i1 = .ok o1) (statSec n : Nat)
    (p : CuckooParam.Param) (hp : CuckooParam.Selects (max 200 n) statSec 0 3 (.ok p))
    (h1 : i1.items.length = n) (h2 : i2.items.length = n) (hnb1 : i1.nb = CuckooParam.numBins p)
    (hnb2 : i2.nb = CuckooParam.numBins p) (hn : 200 ≤ n) (hn' : n < 2 ^ 44) (hs : statSec ≤ 180) :
    kkrtRun o1 i2 = .throw := by
  have hmax : max 200 n = n := by omega
  rw [hmax] at hp
  obtain ⟨fuel, hp⟩ := hp
  have hpe : p = ⟨0, (statSec - (-Real.logb 2 n - 256)) / 240, 3, n⟩ := by
    unfold CuckooParam.selectParams at hp
    rw [if_neg (by omega), if_pos ⟨rfl, rfl⟩] at hp
    injection hp with hp
    injection hp with hp
    exact hp.symm
  have hlog : Real.logb 2 (n : ℝ) < 44 := by
    have h0 : (0 : ℝ) < n := by exact_mod_cast (by omega : 0 < n)
    rw [Real.logb_lt_iff_lt_rpow (by norm_num) h0]
    have : ((2 : ℝ) ^ (44 : ℝ)) = ((2 ^ 44 : Nat) : ℝ) := by
      rw [show (44 : ℝ) = ((44 : Nat) : ℝ) by norm_num, Real.rpow_natCast]
      norm_num
    rw [this]
    exact_mod_cast hn'
  have hlog0 : 0 ≤ Real.logb 2 (n : ℝ) := Real.logb_nonneg (by norm_num) (by exact_mod_cast (by omega : 1 ≤ n))
  have hss : (statSec : ℝ) ≤ 180 := by exact_mod_cast hs
  have hss0 : (0 : ℝ) ≤ statSec := Nat.cast_nonneg _
  have hn0 : (200 : ℝ) ≤ n := by exact_mod_cast hn
  have hsc0 : (1 : ℝ) ≤ (statSec - (-Real.logb 2 n - 256)) / 240 := by
    rw [le_div_iff₀ (by norm_num)]; linarith
  have hsc : ((statSec : ℝ) - (-Real.logb 2 n - 256)) / 240 < 2 := by
    rw [div_lt_iff₀ (by norm_num)]; linarith
  have hlt : CuckooParam.numBins p < 2 * n := by
    rw [hpe]
    unfold CuckooParam.numBins
    simp only
    rw [Nat.floor_lt (by nlinarith)]
    push_cast
    nlinarith
  have hpos : 0 < CuckooParam.numBins p := by
    rw [hpe]
    unfold CuckooParam.numBins
    simp only
    rw [Nat.floor_pos]
    nlinarith
  exact C149_kkrt_throws i1 i2 o1 h (by omega) (by omega) (by omega) (by omega) (by omega) (by omega)

/-- C149 fails for KKRT: a second run with fewer items does not complete. -/
theorem C149_kkrt_smaller (i1 i2 : KkrtIn) (o1 : Kkrt) (h : kkrtRun kkrtNew i1 = .ok o1)
    (hn1 : i1.items.length < 2 ^ 56 - 1) (hn2 : i2.items.length < 2 ^ 56 - 1) (hb : 0 < i1.nb)
    (h12 : i1.items.length ≤ max 200 i2.items.length) (hnb : i1.nb ≤ i2.nb)
    (hless : i2.items.length < i1.items.length) (o2 : Kkrt) : kkrtRun o1 i2 ≠ .ok o2 := by
  intro e
  rcases second_insert hn1 hb h i2 hn2 h12 hnb with ⟨e', _⟩ | ⟨c, hr, q1, q2, hh, w⟩
  · rw [e'] at e; simp at e
  · rw [hr] at e
    obtain ⟨maps, e1, e⟩ := bind_eq_ok e
    rw [q1] at e1
    obtain ⟨_, hcell⟩ := recvBins_any (aes := i2.aes) q1 (fun i hi => (hh i hi).2) i2.nb 0 (by omega)
      ⟨by simp, by omega⟩ (by omega) e1
    have hw := w fun i => decide (i2.items.length ≤ i)
    have hst : c.stash = [] := List.eq_nil_of_length_eq_zero q2
    have hc := hw.count
    rw [hst] at hc
    have hpos : 0 < (List.range i1.items.length).countP (fun i => decide (i2.items.length ≤ i)) :=
      List.countP_pos_iff.mpr ⟨i2.items.length, List.mem_range.mpr hless, by simp⟩
    have hpos' : 0 < cntP (fun i => decide (i2.items.length ≤ i)) c.bins := by
      simp only [List.countP_nil, Nat.add_zero] at hc
      have : cntP (fun i => decide (i2.items.length ≤ i)) [] = 0 := rfl
      omega
    obtain ⟨v, hv, hp⟩ := List.countP_pos_iff.mp hpos'
    obtain ⟨b, hb', rfl⟩ := List.getElem_of_mem hv
    simp only [Bool.and_eq_true, bne_iff_ne, ne_eq, decide_eq_true_eq] at hp
    have hg : c.bins.getD b emptyVal = c.bins[b] := by simp [List.getD, List.getElem?_eq_getElem hb']
    have := (hcell b (by omega) (by rw [hg]; exact hp.1)).1
    unfold Kkrt.idxAt at this
    rw [hg] at this
    omega

/-- C149 fails for KKRT: if a second run with the honest sender completes, the result is the earlier result followed by
the new one, and in the new one every common item whose index the first run used appears twice, unless two masks of
different items agree in their first eight bytes. -/
theorem C149_kkrt_twice (i1 i2 : KkrtIn) (o1 o2 : Kkrt) (h : kkrtRun kkrtNew i1 = .ok o1)
    (hn1 : i1.items.length < 2 ^ 56 - 1) (hn2 : i2.items.length < 2 ^ 56 - 1) (hb : 0 < i1.nb)
    (h12 : i1.items.length ≤ max 200 i2.items.length) (hnb : i1.nb ≤ i2.nb) (e : kkrtRun o1 i2 = .ok o2)
    (S : List Block) (rand : Nat → Nat) (junk : Nat → Nat → Nat) (sched perm inv : List Nat)
    (hS : S.length = i2.ns) (hne : S ≠ []) (hstep : 0 < i2.step) (hnb2 : i2.nb < 2 ^ 64)
    (hsched : Kkrt.Schedule i2.nb sched) (hperm : Kkrt.permInit rand S.length = .ok (perm, inv))
    (hmsgs : Kkrt.send i2.F i2.aes i2.mb i2.step S.length i2.nb perm inv junk sched S = .ok i2.msgs)
    (hkey : ∀ i j, i < i2.items.length → j < i2.items.length → i ≠ j → ∀ b b', b < i2.nb → b' < i2.nb →
      i2.F b (i2.items.getD i 0) % 256 ^ i2.mb % 2 ^ 64 ≠ i2.F b' (i2.items.getD j 0) % 256 ^ i2.mb % 2 ^ 64) :
    ∃ out, o2.inter = o1.inter ++ out ∧
      ∀ i, i < i1.items.length → ∃ hi : i < i2.items.length, i2.items[i] ∈ S → 2 ≤ out.count i := by
  rcases second_insert hn1 hb h i2 hn2 h12 hnb with ⟨e', _⟩ | ⟨c, hr, q1, q2, hh, w⟩
  · rw [e'] at e; simp at e
  rw [hr] at e
  obtain ⟨maps, e1, e⟩ := bind_eq_ok e
  obtain ⟨out, e2, e⟩ := bind_eq_ok e
  injection e with e
  rw [q1] at e1
  obtain ⟨hm, hcell⟩ := recvBins_any (aes := i2.aes) q1 (fun i hi => (hh i hi).2) i2.nb 0 (by omega)
    ⟨by simp, by omega⟩ (by omega) e1
  refine ⟨out, by rw [← e], ?_⟩
  intro i hi
  -- the two cells
  have hst : c.stash = [] := List.eq_nil_of_length_eq_zero q2
  have hpos1 : 0 < (List.range i1.items.length).countP (fun j => j == i) :=
    List.countP_pos_iff.mpr ⟨i, List.mem_range.mpr hi, by simp⟩
  have hi2 : i < i2.items.length := by
    have hc := (w fun j => j == i).count
    rw [hst] at hc
    have h0 : cntP (fun j => j == i) [] = 0 := rfl
    simp only [List.countP_nil, Nat.add_zero, h0] at hc
    obtain ⟨v, hv, hp⟩ := List.countP_pos_iff.mp (show 0 < cntP (fun j => j == i) c.bins by omega)
    obtain ⟨b, hb', rfl⟩ := List.getElem_of_mem hv
    simp only [Bool.and_eq_true, bne_iff_ne, ne_eq, beq_iff_eq] at hp
    have hg : c.bins.getD b emptyVal = c.bins[b] := by simp [List.getD, List.getElem?_eq_getElem hb']
    have := (hcell b (by omega) (by rw [hg]; exact hp.1)).1
    unfold Kkrt.idxAt at this
    rw [hg, hp.2] at this
    exact this
  refine ⟨hi2, fun hmem => ?_⟩
  have hpos2 : 0 < (List.range i2.items.length).countP (fun j => j == i) :=
    List.countP_pos_iff.mpr ⟨i, List.mem_range.mpr hi2, by simp⟩
  have htwo : 2 ≤ cntP (fun j => j == i) c.bins := by
    have hc := (w fun j => j == i).count
    rw [hst] at hc
    have h0 : cntP (fun j => j == i) [] = 0 := rfl
    simp only [List.countP_nil, Nat.add_zero, h0] at hc
    omega
  obtain ⟨b, b', hbb, hb', hne1, hne2, hx1, hx2⟩ := two_cells htwo
  rw [q1] at hb'
  -- the sender's messages
  have hSl : S.length < 2 ^ 32 := by
    rcases Nat.lt_or_ge S.length (2 ^ 32) with hlt | hge
    · exact hlt
    · rw [(Kkrt.C28_permutation rand S.length).2 hge] at hperm; simp at hperm
  obtain ⟨p', inv', ep, hp, _⟩ := Kkrt.permInit_ok rand S.length hSl
  rw [hperm] at ep
  simp only [Out.ok.injEq, Prod.mk.injEq] at ep
  obtain ⟨rfl, rfl⟩ := ep
  have hsend := Kkrt.send_ok (F := i2.F) (aes := i2.aes) (mb := i2.mb) (junk := junk) (items := S) hp
    (show 0 < i2.nb by omega) (by unfold Kkrt.noBin; omega) hstep sched hsched.le hsched.ends
    (List.length_pos_iff.mpr hne)
  rw [hmsgs] at hsend
  injection hsend with hsend
  rw [hsend, ← hS, Kkrt.recvRegions_ok maps _ i2.step hstep _ 0 S.length S.length (Nat.le_refl _) rfl] at e2
  injection e2 with e2
  obtain ⟨j, hj, hji⟩ := List.getElem_of_mem hmem
  have hjd : S.getD j 0 = i2.items.getD i 0 := by
    simp only [List.getD, List.getElem?_eq_getElem hj, List.getElem?_eq_getElem hi2, Option.getD_some, hji]
  -- a cell with index i gives a match
  have hit : ∀ b, b < i2.nb → c.bins.getD b emptyVal ≠ emptyVal → idxOf (c.bins.getD b emptyVal) = i →
      Kkrt.hAt i2.aes i2.nb i2.items c b < 3 ∧
      getHash (Kkrt.hashOfItem i2.aes (i2.items.getD i 0)) (Kkrt.hAt i2.aes i2.nb i2.items c b) i2.nb = b ∧
      i ∈ Kkrt.matchMask maps (Kkrt.hAt i2.aes i2.nb i2.items c b)
        (Kkrt.maskOf i2.F i2.aes i2.mb i2.nb junk j (S.getD j 0) (Kkrt.hAt i2.aes i2.nb i2.items c b)) := by
    intro b hb hbne hbi
    have hh3 := (hcell b hb hbne).2
    have hhe : Kkrt.hAt i2.aes i2.nb i2.items c b =
        Kkrt.minColl b (Kkrt.hashOfItem i2.aes (i2.items.getD i 0)) i2.nb 3 0 := by
      unfold Kkrt.hAt Kkrt.idxAt; rw [hbi]
    have hen : Kkrt.encAt i2.F i2.mb i2.items c b = i2.F b (i2.items.getD i 0) % 256 ^ i2.mb := by
      unfold Kkrt.encAt Kkrt.idxAt; rw [hbi]
    have hget := minColl_lt (t := b) (hash := Kkrt.hashOfItem i2.aes (i2.items.getD i 0)) (nb := i2.nb) 3 0
      (by omega) (by rw [← hhe]; exact hh3)
    obtain ⟨g1, g2, g3⟩ := Kkrt.minColl_rep b _ i2.nb (by rw [← hhe]; exact hh3) hget
    rw [← hhe] at g1 g2 g3
    refine ⟨g1, g2, ?_⟩
    have hcomp := hm.complete b hb hbne
    rw [hen] at hcomp
    have hmask : Kkrt.maskOf i2.F i2.aes i2.mb i2.nb junk j (S.getD j 0) (Kkrt.hAt i2.aes i2.nb i2.items c b) =
        i2.F b (i2.items.getD i 0) % 256 ^ i2.mb := by
      rw [hjd]
      unfold Kkrt.maskOf
      rw [if_neg]
      · rw [Kkrt.binOf_eq]; unfold Kkrt.itemHash
        rw [show getHash (i2.aes (i2.items.getD i 0) ^^^ i2.items.getD i 0) _ i2.nb = b from g2]
      · rw [Kkrt.clash_iff]; unfold Kkrt.itemHash
        rw [show Kkrt.rep (i2.aes (i2.items.getD i 0) ^^^ i2.items.getD i 0) i2.nb _ = false from g3]; simp
    rw [hmask]
    unfold Kkrt.matchMask
    cases hl : Kkrt.lookup (maps (Kkrt.hAt i2.aes i2.nb i2.items c b))
        (i2.F b (i2.items.getD i 0) % 256 ^ i2.mb % 2 ^ 64) with
    | none => exact absurd hl hcomp
    | some v =>
      obtain ⟨b', k1, k2, k3, k4⟩ := hm.sound _ _ (Kkrt.lookup_mem hl)
      simp only [Prod.mk.injEq] at k4
      obtain ⟨r1, r2⟩ := k4
      have hidx : Kkrt.idxAt c b' = i := by
        rcases Nat.decEq i (Kkrt.idxAt c b') with hn | he
        · exact absurd r1 (hkey i _ hi2 (hcell b' k1 k2).1 hn b b' hb k1)
        · exact he.symm
      have hbe : b' = b := by
        have hh3' := (hcell b' k1 k2).2
        have hhe' : Kkrt.hAt i2.aes i2.nb i2.items c b' =
            Kkrt.minColl b' (Kkrt.hashOfItem i2.aes (i2.items.getD i 0)) i2.nb 3 0 := by
          unfold Kkrt.hAt; rw [hidx]
        have := minColl_lt (t := b') (hash := Kkrt.hashOfItem i2.aes (i2.items.getD i 0)) (nb := i2.nb) 3 0
          (by omega) (by rw [← hhe']; exact hh3')
        rw [← hhe', k3, g2] at this
        exact this.symm
      subst hbe
      obtain ⟨v1, v2⟩ := v
      simp only [Prod.mk.injEq] at r2
      obtain ⟨r2, r3⟩ := r2
      simp only
      rw [r2, hen, if_pos rfl, r3, hidx]
      simp
  obtain ⟨a1, a2, a3⟩ := hit b (by omega) hne1 hx1
  obtain ⟨d1, d2, d3⟩ := hit b' hb' hne2 hx2
  have hhne : Kkrt.hAt i2.aes i2.nb i2.items c b ≠ Kkrt.hAt i2.aes i2.nb i2.items c b' := by
    intro he
    rw [he] at a2
    rw [a2] at d2
    omega
  rw [← e2]
  refine Nat.le_trans ?_ (count_flatMap_ge _ _ (inv.getD j 0) (List.mem_range.mpr (hp.right j hj).1) i)
  refine count_two a1 d1 hhne ?_ ?_
  · rw [show ((0 + inv.getD j 0) * 3 + Kkrt.hAt i2.aes i2.nb i2.items c b) / 3 = inv.getD j 0 by omega,
      show ((0 + inv.getD j 0) * 3 + Kkrt.hAt i2.aes i2.nb i2.items c b) % 3 = Kkrt.hAt i2.aes i2.nb i2.items c b by omega,
      Kkrt.target_eq, (hp.right j hj).2]
    exact a3
  · rw [show ((0 + inv.getD j 0) * 3 + Kkrt.hAt i2.aes i2.nb i2.items c b') / 3 = inv.getD j 0 by omega,
      show ((0 + inv.getD j 0) * 3 + Kkrt.hAt i2.aes i2.nb i2.items c b') % 3 = Kkrt.hAt i2.aes i2.nb i2.items c b' by omega,
      Kkrt.target_eq, (hp.right j hj).2]
    exact d3

/-! ### PRTY -/

/-- C149 fails for PRTY: if the items of the two runs are more than the bins have room for, the balancing loop of the
second run does not end, whatever the random numbers and the number of passes. -/
theorem C149_prty_never_ends (aes : Block → Block) (ord : Balanced.Values → Balanced.Values)
    (hord : ∀ v, (ord v).Perm v) (n1 n2 maxBin d : Nat) (s0 s1 s2 : Balanced.Bal) (items1 items2 : List Block)
    (cs1 : List Balanced.Choice) (h0 : Balanced.init n1 maxBin d = .ok s0)
    (h1 : Balanced.insertItems aes ord s0 items1 cs1 = .ok (some s1))
    (h2 : balReinit s1 n2 maxBin d = .ok s2) (hnb : s1.numBins ≤ s2.numBins)
    (hfull : s2.numBins * maxBin < items1.length + items2.length) (cs2 : List Balanced.Choice)
    (s3 : Balanced.Bal) : Balanced.insertItems aes ord s2 items2 cs2 ≠ .ok (some s3) := by
  intro e
  obtain ⟨a1, a2⟩ := held_init h0
  obtain ⟨b1, b2, b3, b4, _⟩ := held_insert hord a1 a2 h1
  obtain ⟨c1, c2, c3, _⟩ := held_reinit b1 h2 hnb
  obtain ⟨_, _, _, _, d5, _⟩ := held_insert hord c1 c2 e
  rw [c3] at d5
  omega

/-- C149 fails for PRTY with the code's parameters, bins of 40 items with one dummy (PrtyDefines.h:27-28): after a run
with `n ≥ 41` items a run with `n` items does not end. -/
theorem C149_prty_default (aes : Block → Block) (ord : Balanced.Values → Balanced.Values)
    (hord : ∀ v, (ord v).Perm v) (n : Nat) (hn : 41 ≤ n) (s0 s1 s2 : Balanced.Bal) (items1 items2 : List Block)
    (hl1 : items1.length = n) (hl2 : items2.length = n)
    (cs1 : List Balanced.Choice) (h0 : Balanced.init n 40 1 = .ok s0)
    (h1 : Balanced.insertItems aes ord s0 items1 cs1 = .ok (some s1)) (h2 : balReinit s1 n 40 1 = .ok s2)
    (cs2 : List Balanced.Choice) (s3 : Balanced.Bal) : Balanced.insertItems aes ord s2 items2 cs2 ≠ .ok (some s3) := by
  have e0 : s0.numBins = 1 + n / 39 := by
    have : Balanced.init n 40 1 = .ok ⟨1 + n / 39, 40, 0, [], fun _ => Balanced.emptyBin⟩ := rfl
    rw [this] at h0
    injection h0 with h0
    rw [← h0]
  have e2 : s2.numBins = 1 + n / 39 := by
    have : balReinit s1 n 40 1 = .ok ⟨1 + n / 39, 40, 0, [],
        fun b => if b < s1.numBins then s1.bins b else Balanced.emptyBin⟩ := rfl
    rw [this] at h2
    injection h2 with h2
    rw [← h2]
  have e1 : s1.numBins = s0.numBins := by
    obtain ⟨a1, a2⟩ := held_init h0
    exact (held_insert hord a1 a2 h1).2.2.1
  refine C149_prty_never_ends aes ord hord n n 40 1 s0 s1 s2 items1 items2 cs1 h0 h1 h2 (by omega) ?_ cs2 s3
  rw [e2, hl1, hl2]
  omega

/-- C149 fails for PRTY: if the second run's balancing ends, the vectors of every bin of the first run begin with the
entries of the first run and are longer, by these, than the number of items that the protocol then uses. -/
theorem C149_prty_keeps (aes : Block → Block) (ord : Balanced.Values → Balanced.Values)
    (hord : ∀ v, (ord v).Perm v) (n1 n2 maxBin d : Nat) (s0 s1 s2 s3 : Balanced.Bal) (items1 items2 : List Block)
    (cs1 cs2 : List Balanced.Choice) (h0 : Balanced.init n1 maxBin d = .ok s0)
    (h1 : Balanced.insertItems aes ord s0 items1 cs1 = .ok (some s1))
    (h2 : balReinit s1 n2 maxBin d = .ok s2) (hnb : s1.numBins ≤ s2.numBins)
    (h3 : Balanced.insertItems aes ord s2 items2 cs2 = .ok (some s3)) (b : Nat) (hb : b < s1.numBins) :
    (s1.bins b).blks <+: (s3.bins b).blks ∧ (s1.bins b).idxs <+: (s3.bins b).idxs ∧
      (s1.bins b).hashIdxs <+: (s3.bins b).hashIdxs ∧
      (s1.bins b).blks.length = (s1.bins b).cnt ∧
      (s3.bins b).blks.length = (s1.bins b).cnt + (s3.bins b).cnt := by
  obtain ⟨a1, a2⟩ := held_init h0
  obtain ⟨b1, b2, b3, b4, _, b6⟩ := held_insert hord a1 a2 h1
  obtain ⟨c1, c2, c3, c4⟩ := held_reinit b1 h2 hnb
  obtain ⟨_, _, _, _, _, d6⟩ := held_insert hord c1 c2 h3
  obtain ⟨es1, x1, x2, x3, x4⟩ := b6 b (by omega)
  obtain ⟨es, y1, y2, y3, y4⟩ := d6 b (by omega)
  rw [c4 b hb] at y2 y3 y4
  have hz : (s0.bins b).blks = [] := by rw [(Balanced.init_ok h0).2.2.2 b]; rfl
  rw [hz, List.nil_append] at x2
  have hl : (s1.bins b).blks.length = (s1.bins b).cnt := by rw [x2, List.length_map, x1]
  refine ⟨⟨_, y2.symm⟩, ⟨_, y3.symm⟩, ⟨_, y4.symm⟩, hl, ?_⟩
  rw [y2, List.length_append, hl, List.length_map, y1]

/-! ### examples -/

/-- A run with the given items and one sender item, `F b x = 1000 b + x`, item hash `x`. -/
def exIn (nb : Nat) (items : List Block) (msgs : List (List Nat)) : KkrtIn :=
  ⟨fun b x => b * 1000 + x.toNat, fun _ => 0, 4, 2, 1, nb, items, msgs⟩

/-- What is visible of an object. -/
def shown : Out Kkrt → Option (List Nat)
  | .ok o => some o.inter
  | _ => none

/-- A first run completes; a second one with five bins throws. -/
example : shown (kkrtRun kkrtNew (exIn 5 [1, 2, 3] [[2002, 77, 77]])) = some [1] ∧
    shown ((kkrtRun kkrtNew (exIn 5 [1, 2, 3] [[2002, 77, 77]])).bind fun o =>
      kkrtRun o (exIn 5 [1, 2, 3] [[2002, 77, 77]])) = none := by
  decide +kernel

/-- A second run that completes: the item `0x20001` has the bins 3, 2 and 0; it is reported twice, after the result of
the first run. -/
example : shown (kkrtRun kkrtNew (exIn 5 [0x20001#128] [[134073, 133073, 131073]])) = some [0] ∧
    shown ((kkrtRun kkrtNew (exIn 5 [0x20001#128] [[134073, 133073, 131073]])).bind fun o =>
      kkrtRun o (exIn 5 [0x20001#128] [[134073, 133073, 131073]])) = some [0, 0, 0] := by
  decide +kernel

/-- The bins of two runs of a `BalancedIndex`: counter and vector of items. -/
def shownBal (r : Out (Option Balanced.Bal)) : Option (Nat × List Nat × List Block) :=
  match r with
  | .ok (some s) => some ((s.bins 0).cnt, (s.bins 0).idxs, (s.bins 0).blks)
  | _ => none

/-- A second run of PRTY's table, with the items 7 and 8 after 5 and 6: the counter is four, and of the six entries the
first two are those of the first run. -/
example : shownBal (((Balanced.init 2 40 1).bind fun s => Balanced.insertItems id id s [5, 6] []).bind fun r =>
    match r with
    | none => .ub
    | some s => (balReinit s 2 40 1).bind fun s => Balanced.insertItems id id s [7, 8] []) =
      some (4, [0, 1, 0, 1, 0, 1], [4, 7, 6, 9, 6, 9]) := by
  decide +kernel

end Verif.ReuseRun
