import Verif.KkrtRecv
/-
Properties C25 - C28, C59, C60 of the KKRT protocol.
-/
namespace Verif.Kkrt
open Verif Cuckoo

/-! ### vocabulary of the statements -/

/-- The item hash `AES(x) xor x`. -/
def itemHash (aes : Block → Block) (x : Block) : Block := aes x ^^^ x

/-- A smaller hash function number gives the same bin. -/
def Clash (hash : Block) (nb h : Nat) : Prop := ∃ h', h' < h ∧ binOf hash h' nb = binOf hash h nb

instance (hash : Block) (nb h : Nat) : Decidable (Clash hash nb h) := by
  unfold Clash; exact inferInstance

/-- The mask for item number `a` (value `x`) and hash function `h`: the OPRF value for the item's bin cut to
`mb` bytes, or junk if an earlier hash function has the same bin. -/
def maskOf (F : Nat → Block → Nat) (aes : Block → Block) (mb nb : Nat) (junk : Nat → Nat → Nat) (a : Nat)
    (x : Block) (h : Nat) : Nat :=
  if Clash (itemHash aes x) nb h then junk a h else F (binOf (itemHash aes x) h nb) x % 256 ^ mb

/-- Values the main thread may read from the counter of received corrections until it reads `nb`. -/
structure Schedule (nb : Nat) (sched : List Nat) : Prop where
  le : ∀ r ∈ sched, r ≤ nb
  ends : nb ∈ sched

/-- The whole protocol: sender's tables, sender's messages, receiver's output. `c` is the receiver's empty
cuckoo index. -/
def protocol (F : Nat → Block → Nat) (aes : Block → Block) (mb step nb : Nat) (rand : Nat → Nat)
    (junk : Nat → Nat → Nat) (sched : List Nat) (c : Cuckoo) (S R : List Block) : Out (List Nat) :=
  (permInit rand S.length).bind fun p =>
  (send F aes mb step S.length nb p.1 p.2 junk sched S).bind fun msgs =>
  recv F aes mb step R.length S.length c R msgs

theorem binOf_eq (hash : Block) (h nb : Nat) : binOf hash h nb = getHash hash h nb := by
  unfold binOf getHash
  have : 256 ^ (2 * h) = 2 ^ (16 * h) := by
    rw [show (256 : Nat) = 2 ^ 8 from rfl, ← Nat.pow_mul]; congr 1; omega
  rw [this, show (256 : Nat) ^ 8 = 2 ^ 64 by decide]

theorem clash_iff (hash : Block) (nb h : Nat) : Clash hash nb h ↔ rep hash nb h = true := by
  unfold Clash rep
  simp only [binOf_eq, List.any_eq_true, List.mem_range, beq_iff_eq]

theorem target_eq (F : Nat → Block → Nat) (aes : Block → Block) (mb nb : Nat) (items : List Block)
    (perm : List Nat) (junk : Nat → Nat → Nat) (i h : Nat) :
    target F aes mb nb items perm junk i h =
      maskOf F aes mb nb junk (perm.getD i 0) (items.getD (perm.getD i 0) 0) h := by
  unfold target maskOf hashAt hashOfItem
  simp only [clash_iff, binOf_eq]
  rfl

/-! ### C28 -/

/-- C28. For every random stream the two tables are inverse permutations of the positions. Sets of more than
`2^32 - 1` items are refused. -/
theorem C28_permutation (rand : Nat → Nat) (n : Nat) :
    (n < 2 ^ 32 → ∃ perm inv, permInit rand n = .ok (perm, inv) ∧ perm.Perm (List.range n) ∧
      inv.Perm (List.range n) ∧
      (∀ i, i < n → ∃ a, a < n ∧ perm[i]? = some a ∧ inv[a]? = some i) ∧
      (∀ a, a < n → ∃ i, i < n ∧ inv[a]? = some i ∧ perm[i]? = some a)) ∧
    (2 ^ 32 ≤ n → permInit rand n = .throw) := by
  refine ⟨fun hn => ?_, fun hn => by unfold permInit; rw [if_pos (by omega)]⟩
  obtain ⟨perm, inv, e, hp, hr⟩ := permInit_ok rand n hn
  have some1 : ∀ i, i < n → perm[i]? = some (perm.getD i 0) := by
    intro i hi
    simp [List.getD, List.getElem?_eq_getElem (show i < perm.length by rw [hp.len1]; exact hi)]
  have some2 : ∀ i, i < n → inv[i]? = some (inv.getD i 0) := by
    intro i hi
    simp [List.getD, List.getElem?_eq_getElem (show i < inv.length by rw [hp.len2]; exact hi)]
  have hl : ∀ i, i < n → ∃ a, a < n ∧ perm[i]? = some a ∧ inv[a]? = some i := fun i hi =>
    ⟨_, (hp.left i hi).1, some1 i hi, by rw [some2 _ (hp.left i hi).1, (hp.left i hi).2]⟩
  have hrr : ∀ a, a < n → ∃ i, i < n ∧ inv[a]? = some i ∧ perm[i]? = some a := fun a ha =>
    ⟨_, (hp.right a ha).1, some2 a ha, by rw [some1 _ (hp.right a ha).1, (hp.right a ha).2]⟩
  refine ⟨perm, inv, e, hr, ?_, hl, hrr⟩
  have hnd : inv.Nodup := by
    unfold List.Nodup
    rw [List.pairwise_iff_getElem]
    intro a b ha hb hab he
    obtain ⟨i, _, h1, h2⟩ := hrr a (by rw [← hp.len2]; exact ha)
    obtain ⟨j, _, h3, h4⟩ := hrr b (by rw [← hp.len2]; exact hb)
    rw [List.getElem?_eq_getElem ha] at h1
    rw [List.getElem?_eq_getElem hb] at h3
    simp only [Option.some.injEq] at h1 h3
    have : i = j := by rw [← h1, ← h3, he]
    subst this
    rw [h2] at h4
    simp at h4
    omega
  rw [List.perm_iff_count]
  intro x
  rw [hnd.count, List.nodup_range.count]
  have : x ∈ inv ↔ x ∈ List.range n := by
    rw [List.mem_range]
    constructor
    · intro hx
      obtain ⟨a, ha, rfl⟩ := List.getElem_of_mem hx
      obtain ⟨i, hi, h1, _⟩ := hrr a (by rw [← hp.len2]; exact ha)
      rw [List.getElem?_eq_getElem ha] at h1
      simp at h1
      omega
    · intro hx
      obtain ⟨a, _, _, h2⟩ := hl x hx
      exact List.mem_of_getElem? h2
  simp only [this]

/-- A stream that moves something. -/
example : permInit (fun i => [2, 1, 0].getD i 0) 3 = .ok ([2, 0, 1], [1, 2, 0]) := by decide

/-! ### C25 -/

/-- C25. For a non-empty set the sender's messages are the same for every schedule, and no OPRF value is asked
for before its correction has arrived (that would be the outcome `ub`). Taken together they consist of three
masks per item, in the order given by the permutation. -/
theorem C25_schedule_independent (F : Nat → Block → Nat) (aes : Block → Block) (mb step nb : Nat)
    (rand : Nat → Nat) (junk : Nat → Nat → Nat) (S : List Block) (perm inv : List Nat)
    (hinit : permInit rand S.length = .ok (perm, inv)) (hne : S ≠ []) (hstep : 0 < step) (hb : 0 < nb)
    (hnb : nb < 2 ^ 64) :
    ∃ msgs, (∀ sched, Schedule nb sched → send F aes mb step S.length nb perm inv junk sched S = .ok msgs) ∧
      msgs.flatten = perm.flatMap (fun a => [0, 1, 2].map fun h =>
        maskOf F aes mb nb junk a (S.getD a 0) h) ∧
      msgs.length = (S.length + step - 1) / step ∧
      ∀ k (hk : k < msgs.length), msgs[k].length = 3 * min step (S.length - k * step) := by
  have hn : S.length < 2 ^ 32 := by
    rcases Nat.lt_or_ge S.length (2 ^ 32) with h | h
    · exact h
    · rw [(C28_permutation rand S.length).2 h] at hinit; simp at hinit
  obtain ⟨p, q, e, hp, _⟩ := permInit_ok rand S.length hn
  rw [hinit] at e
  simp only [Out.ok.injEq, Prod.mk.injEq] at e
  obtain ⟨rfl, rfl⟩ := e
  have hl : 0 < S.length := List.length_pos_iff.mpr hne
  refine ⟨_, fun sched hs => send_ok hp hb (by unfold noBin; omega) hstep sched hs.le hs.ends hl, ?_, ?_, ?_⟩
  · rw [chunksFrom_flatten _ _ hstep _ _ _ (Nat.le_refl _)]
    have key : ∀ (f : Nat → Nat → Nat) (n : Nat),
        (List.range (n * 3)).map (fun q => f (q / 3) (q % 3)) =
          (List.range n).flatMap fun i => [0, 1, 2].map (f i) := by
      intro f n
      induction n with
      | zero => rfl
      | succ n ih =>
        rw [Nat.succ_mul, List.range_add, List.map_append, ih, List.range_succ (n := n), List.flatMap_append]
        congr 1
        have : List.range 3 = [0, 1, 2] := by decide
        simp only [this, List.map_cons, List.map_nil, List.flatMap_cons, List.flatMap_nil, List.append_nil]
        rw [show (n * 3 + 0) / 3 = n by omega, show (n * 3 + 1) / 3 = n by omega,
          show (n * 3 + 2) / 3 = n by omega, show (n * 3 + 0) % 3 = 0 by omega,
          show (n * 3 + 1) % 3 = 1 by omega, show (n * 3 + 2) % 3 = 2 by omega]
    have h0 : (fun q => target F aes mb nb S perm junk ((0 * 3 + q) / 3) ((0 * 3 + q) % 3)) =
        fun q => target F aes mb nb S perm junk (q / 3) (q % 3) := by
      funext q; simp
    rw [h0, key (fun i h => target F aes mb nb S perm junk i h)]
    have hmap : perm = (List.range S.length).map (fun i => perm.getD i 0) := by
      apply List.ext_getElem
      · simp [hp.len1]
      · intro i h1 h2
        simp [List.getD, List.getElem?_eq_getElem h1]
    conv => rhs; rw [hmap]
    rw [List.flatMap_map]
    apply flatMap_congr'
    intro i _
    apply List.map_congr_left
    intro h _
    exact target_eq ..
  · exact (chunksFrom_lengths _ _ hstep _ _ _ (Nat.le_refl _)).1
  · intro k hk
    rw [(chunksFrom_lengths _ _ hstep _ _ _ (Nat.le_refl _)).2 k hk, Nat.mul_comm]

/-- The hypotheses are satisfiable and the messages are not empty. -/
example : permInit (fun _ => 1) 2 = .ok ([1, 0], [1, 0]) ∧ Schedule 5 [0, 2, 2, 5] ∧
    send (fun b x => b * 1000 + x.toNat) id 4 1 2 5 [1, 0] [1, 0] (fun _ _ => 77) [0, 2, 2, 5] [3, 4] =
      .ok [[4, 77, 77], [3, 77, 77]] :=
  ⟨by decide, ⟨by decide, by decide⟩, by decide +kernel⟩

/-- C60 is false of the code: with an empty set the sender reads `mPermute[0]` of an empty vector, whatever
the schedule is. -/
theorem C60_empty_set_undefined (F : Nat → Block → Nat) (aes : Block → Block) (mb step nb : Nat)
    (rand : Nat → Nat) (junk : Nat → Nat → Nat) (sched : List Nat) (hstep : 0 < step) (hb : 0 < nb) :
    ∃ perm inv, permInit rand 0 = .ok (perm, inv) ∧
      send F aes mb step 0 nb perm inv junk sched [] = .ub := by
  refine ⟨[], [], by simp [permInit, permLoop], ?_⟩
  obtain ⟨k, rfl⟩ : ∃ k, step = k + 1 := ⟨step - 1, by omega⟩
  unfold send
  simp only [List.length_nil, ne_eq, not_true, if_false, hashItems, hashLoop, Out.bind]
  rw [early, if_neg (by omega), pass]
  simp [Out.bind]

/-! ### the whole run -/

/-- Facts about a completed run; used for C26, C27 and C59. -/
theorem run_spec {F : Nat → Block → Nat} {aes : Block → Block} {mb step nb : Nat} {rand : Nat → Nat}
    {junk : Nat → Nat → Nat} {sched : List Nat} {c c' : Cuckoo} {S R : List Block} {n l : Nat}
    (hc : Start c n nb 0 3 l) (hR : R.length ≤ n) (hins : insertItems aes c R 0 = .ok c')
    (hne : S ≠ []) (hS : S.length < 2 ^ 32) (hstep : 0 < step) (hnb : nb < 2 ^ 64) (hmb : mb ≤ 16)
    (hs : Schedule nb sched) :
    ∃ maps perm inv, PermPair perm inv S.length ∧ Placed aes nb R c' ∧ MapInv F mb aes nb R c' nb maps ∧
      protocol F aes mb step nb rand junk sched c S R =
        .ok ((List.range S.length).flatMap fun a => (List.range 3).flatMap fun k =>
          matchMask maps k (maskOf F aes mb nb junk (perm.getD a 0) (S.getD (perm.getD a 0) 0) k)) := by
  obtain ⟨perm, inv, e, hp, _⟩ := permInit_ok rand S.length hS
  have hP := placed hc hR hins
  obtain ⟨maps, em, hm⟩ := recvBins_ok (F := F) hP hmb nb 0 (by omega) (fun _ => [])
    ⟨by simp, by omega⟩
  refine ⟨maps, perm, inv, hp, hP, hm, ?_⟩
  unfold protocol
  rw [e]
  simp only [Out.bind]
  rw [send_ok hp hc.bins_pos (by unfold noBin; omega) hstep sched hs.le hs.ends
    (List.length_pos_iff.mpr hne)]
  simp only
  unfold recv
  rw [if_neg (by simp), hins]
  simp only [Out.bind]
  rw [hP.len, em]
  simp only
  rw [recvRegions_ok maps _ step hstep _ 0 S.length S.length (Nat.le_refl _) rfl]
  congr 1
  apply flatMap_congr'
  intro a _
  apply flatMap_congr'
  intro k hk
  have := List.mem_range.mp hk
  rw [show ((0 + a) * 3 + k) / 3 = a by omega, show ((0 + a) * 3 + k) % 3 = k by omega, target_eq]

theorem mem_matchMask {maps : Nat → List Entry} {k m i : Nat} (h : i ∈ matchMask maps k m) :
    lookup (maps k) (m % 2 ^ 64) = some (m, i) := by
  unfold matchMask at h
  cases hl : lookup (maps k) (m % 2 ^ 64) with
  | none => rw [hl] at h; simp at h
  | some v =>
    obtain ⟨e, idx⟩ := v
    rw [hl] at h
    simp only at h
    split at h
    · next he => simp at h; subst he; subst h; rfl
    · simp at h

/-! ### C26 -/

/-- C26. If the receiver's items find a place in the cuckoo table and no two of the receiver's masks in different
bins agree in their first eight bytes, the run completes and every common element is reported. -/
theorem C26_complete (F : Nat → Block → Nat) (aes : Block → Block) (mb step nb : Nat) (rand : Nat → Nat)
    (junk : Nat → Nat → Nat) (sched : List Nat) (c c' : Cuckoo) (S R : List Block) (n l : Nat)
    (hc : Start c n nb 0 3 l) (hR : R.length ≤ n) (hins : insertItems aes c R 0 = .ok c')
    (hne : S ≠ []) (hS : S.length < 2 ^ 32) (hstep : 0 < step) (hnb : nb < 2 ^ 64) (hmb : mb ≤ 16)
    (hs : Schedule nb sched)
    (hkey : ∀ i j, i < R.length → j < R.length → i ≠ j → ∀ b b', b < nb → b' < nb → b ≠ b' →
      F b (R.getD i 0) % 256 ^ mb % 2 ^ 64 ≠ F b' (R.getD j 0) % 256 ^ mb % 2 ^ 64) :
    ∃ out, protocol F aes mb step nb rand junk sched c S R = .ok out ∧
      ∀ i (hi : i < R.length), R[i] ∈ S → i ∈ out := by
  obtain ⟨maps, perm, inv, hp, hP, hm, e⟩ := run_spec (F := F) (rand := rand) (junk := junk) hc hR hins hne hS
    hstep hnb hmb hs
  refine ⟨_, e, ?_⟩
  intro i hi hmem
  obtain ⟨j, hj, hji⟩ := List.getElem_of_mem hmem
  have hjd : S.getD j 0 = R.getD i 0 := by
    simp only [List.getD, List.getElem?_eq_getElem hj, List.getElem?_eq_getElem hi, Option.getD_some, hji]
  obtain ⟨b, hb, hbne, hbi⟩ := hP.all i hi
  obtain ⟨_, x, hx, hxb⟩ := hP.bins b hb hbne
  rw [hbi] at hxb
  obtain ⟨g1, g2, g3⟩ := minColl_rep b _ nb hx hxb
  have hh : hAt aes nb R c' b = minColl b (hashOfItem aes (R.getD i 0)) nb 3 0 := by
    unfold hAt idxAt; rw [hbi]
  have hen : encAt F mb R c' b = F b (R.getD i 0) % 256 ^ mb := by
    unfold encAt idxAt; rw [hbi]
  rw [← hh] at g1 g2 g3
  have hcomp := hm.complete b hb hbne
  rw [hen] at hcomp
  simp only [List.mem_flatMap, List.mem_range]
  refine ⟨inv.getD j 0, (hp.right j hj).1, hAt aes nb R c' b, g1, ?_⟩
  rw [(hp.right j hj).2, hjd]
  have hmask : maskOf F aes mb nb junk j (R.getD i 0) (hAt aes nb R c' b) = F b (R.getD i 0) % 256 ^ mb := by
    unfold maskOf
    rw [if_neg]
    · rw [binOf_eq]; unfold itemHash; rw [show getHash (aes (R.getD i 0) ^^^ R.getD i 0) _ nb = b from g2]
    · rw [clash_iff]; unfold itemHash; rw [show rep (aes (R.getD i 0) ^^^ R.getD i 0) nb _ = false from g3]; simp
  rw [hmask]
  unfold matchMask
  cases hl : lookup (maps (hAt aes nb R c' b)) (F b (R.getD i 0) % 256 ^ mb % 2 ^ 64) with
  | none => exact absurd hl hcomp
  | some v =>
    obtain ⟨b', k1, k2, k3, k4⟩ := hm.sound _ _ (lookup_mem hl)
    simp only [Prod.mk.injEq] at k4
    obtain ⟨q1, q2⟩ := k4
    have hidx : idxAt c' b' = i := by
      rcases Nat.decEq i (idxAt c' b') with hn | he
      · have hbb : b ≠ b' := by
          rintro rfl
          exact hn (by unfold idxAt; rw [hbi])
        exact absurd q1 (hkey i _ hi (hP.bins b' k1 k2).1 hn b b' hb k1 hbb)
      · exact he.symm
    have : b' = b := hP.uniq b' b k1 hb k2 hbne (by rw [hbi]; exact hidx)
    subst this
    obtain ⟨v1, v2⟩ := v
    simp only [Prod.mk.injEq] at q2
    obtain ⟨q2, q3⟩ := q2
    simp only
    rw [q2, hen, if_pos rfl, q3, hidx]
    simp

/-! ### C27 -/

/-- C27. Whenever the run completes, every reported index is the index of a receiver element that is in the
sender's set, unless a mask of a receiver element equals, in all of its `mb` bytes, a mask of a different
sender element or a junk value. -/
theorem C27_sound (F : Nat → Block → Nat) (aes : Block → Block) (mb step nb : Nat) (rand : Nat → Nat)
    (junk : Nat → Nat → Nat) (sched : List Nat) (c c' : Cuckoo) (S R : List Block) (n l : Nat)
    (hc : Start c n nb 0 3 l) (hR : R.length ≤ n) (hins : insertItems aes c R 0 = .ok c')
    (hne : S ≠ []) (hS : S.length < 2 ^ 32) (hstep : 0 < step) (hnb : nb < 2 ^ 64) (hmb : mb ≤ 16)
    (hs : Schedule nb sched)
    (hcol : ∀ x ∈ R, ∀ y ∈ S, x ≠ y → ∀ b b', b < nb → b' < nb →
      F b x % 256 ^ mb ≠ F b' y % 256 ^ mb)
    (hjunk : ∀ x ∈ R, ∀ b, b < nb → ∀ a h, F b x % 256 ^ mb ≠ junk a h) :
    ∃ out, protocol F aes mb step nb rand junk sched c S R = .ok out ∧
      ∀ i ∈ out, ∃ h : i < R.length, R[i] ∈ S := by
  obtain ⟨maps, perm, inv, hp, hP, hm, e⟩ := run_spec (F := F) (rand := rand) (junk := junk) hc hR hins hne hS
    hstep hnb hmb hs
  refine ⟨_, e, ?_⟩
  intro i hi
  simp only [List.mem_flatMap, List.mem_range] at hi
  obtain ⟨a, ha, k, hk, hi⟩ := hi
  have hl := mem_matchMask hi
  obtain ⟨b, hb, hbne, _, he⟩ := hm.sound _ _ (lookup_mem hl)
  simp only [Prod.mk.injEq] at he
  obtain ⟨_, he, hie⟩ := he
  have hiR : i < R.length := by rw [hie]; exact (hP.bins b hb hbne).1
  refine ⟨hiR, ?_⟩
  have hRi : R.getD i 0 = R[i] := by simp [List.getD, List.getElem?_eq_getElem hiR]
  have hpa := (hp.left a ha).1
  have hSa : S.getD (perm.getD a 0) 0 = S[perm.getD a 0] := getD_eq hpa
  unfold encAt at he
  rw [← hie, hRi] at he
  unfold maskOf at he
  rw [hSa] at he
  split at he
  · exact absurd he.symm (hjunk _ (List.getElem_mem hiR) b hb _ _)
  · by_cases hxy : R[i] = S[perm.getD a 0]
    · rw [hxy]; exact List.getElem_mem _
    · exact absurd he.symm (hcol _ (List.getElem_mem hiR) _ (List.getElem_mem _) hxy b _ hb
        (by rw [binOf_eq]; exact getHash_lt _ _ _ hc.bins_pos))

/-! ### C59 -/

/-- C59. With distinct sender elements and without accidental equality of masks, no index is reported twice. -/
theorem C59_no_repeats (F : Nat → Block → Nat) (aes : Block → Block) (mb step nb : Nat) (rand : Nat → Nat)
    (junk : Nat → Nat → Nat) (sched : List Nat) (c c' : Cuckoo) (S R : List Block) (n l : Nat)
    (hc : Start c n nb 0 3 l) (hR : R.length ≤ n) (hins : insertItems aes c R 0 = .ok c')
    (hne : S ≠ []) (hS : S.length < 2 ^ 32) (hstep : 0 < step) (hnb : nb < 2 ^ 64) (hmb : mb ≤ 16)
    (hs : Schedule nb sched) (hnd : S.Nodup)
    (hcol : ∀ x ∈ R, ∀ y ∈ S, ∀ b b', b < nb → b' < nb → (b, x) ≠ (b', y) →
      F b x % 256 ^ mb ≠ F b' y % 256 ^ mb)
    (hjunk : ∀ x ∈ R, ∀ b, b < nb → ∀ a h, F b x % 256 ^ mb ≠ junk a h) :
    ∃ out, protocol F aes mb step nb rand junk sched c S R = .ok out ∧ out.Nodup := by
  obtain ⟨maps, perm, inv, hp, hP, hm, e⟩ := run_spec (F := F) (rand := rand) (junk := junk) hc hR hins hne hS
    hstep hnb hmb hs
  refine ⟨_, e, ?_⟩
  -- a reported index determines the position and the hash function
  have key : ∀ i a k, a < S.length → i ∈ matchMask maps k
      (maskOf F aes mb nb junk (perm.getD a 0) (S.getD (perm.getD a 0) 0) k) →
      ∃ (hi : i < R.length) (b : Nat), b < nb ∧ c'.bins.getD b emptyVal ≠ emptyVal ∧ idxAt c' b = i ∧
        hAt aes nb R c' b = k ∧ S.getD (perm.getD a 0) 0 = R[i] := by
    intro i a k ha hi
    have hl := mem_matchMask hi
    obtain ⟨b, hb, hbne, hk, he⟩ := hm.sound _ _ (lookup_mem hl)
    simp only [Prod.mk.injEq] at he
    obtain ⟨_, he, hie⟩ := he
    have hiR : i < R.length := by rw [hie]; exact (hP.bins b hb hbne).1
    refine ⟨hiR, b, hb, hbne, hie.symm, hk, ?_⟩
    have hRi : R.getD i 0 = R[i] := by simp [List.getD, List.getElem?_eq_getElem hiR]
    have hpa := (hp.left a ha).1
    have hSa : S.getD (perm.getD a 0) 0 = S[perm.getD a 0] := getD_eq hpa
    unfold encAt at he
    rw [← hie, hRi] at he
    unfold maskOf at he
    rw [hSa] at he ⊢
    split at he
    · exact absurd he.symm (hjunk _ (List.getElem_mem hiR) b hb _ _)
    · rcases Classical.em (R[i] = S[perm.getD a 0]) with hxy | hxy
      · exact hxy.symm
      · exact absurd he.symm (hcol _ (List.getElem_mem hiR) _ (List.getElem_mem _) b _ hb
          (by rw [binOf_eq]; exact getHash_lt _ _ _ hc.bins_pos) (by
            intro e2
            simp only [Prod.mk.injEq] at e2
            exact hxy e2.2))
  have hmm : ∀ k m, (matchMask maps k m).Nodup := by
    intro k m
    unfold matchMask
    split
    · split <;> simp
    · simp
  unfold List.Nodup
  rw [List.pairwise_flatMap]
  refine ⟨?_, ?_⟩
  · intro a ha
    rw [List.pairwise_flatMap]
    refine ⟨fun k _ => hmm _ _, ?_⟩
    refine List.Pairwise.imp_of_mem ?_ (List.nodup_range (n := 3))
    intro k k' hk hk' hne x hx y hy hxy
    subst hxy
    have ha := List.mem_range.mp ha
    obtain ⟨hi, b, hb, hbne, hbi, hk1, _⟩ := key x a k ha hx
    obtain ⟨_, b', hb', hbne', hbi', hk2, _⟩ := key x a k' ha hy
    have : b = b' := hP.uniq b b' hb hb' hbne hbne' (hbi.trans hbi'.symm)
    subst this
    exact hne (hk1.symm.trans hk2)
  · refine List.Pairwise.imp_of_mem ?_ (List.nodup_range (n := S.length))
    intro a a' ha ha' hne x hx y hy hxy
    subst hxy
    have ha := List.mem_range.mp ha
    have ha' := List.mem_range.mp ha'
    simp only [List.mem_flatMap] at hx hy
    obtain ⟨k, _, hx⟩ := hx
    obtain ⟨k', _, hy⟩ := hy
    obtain ⟨hi, b, hb, hbne, hbi, hk1, e1⟩ := key x a k ha hx
    obtain ⟨_, b', hb', hbne', hbi', hk2, e2⟩ := key x a' k' ha' hy
    have hpa := (hp.left a ha).1
    have hpa' := (hp.left a' ha').1
    have h3 : S[perm.getD a 0] = S[perm.getD a' 0] := by
      rw [← getD_eq (d := 0) hpa, ← getD_eq (d := 0) hpa']
      exact e1.trans e2.symm
    have h5 := (List.getElem_inj hnd).mp h3
    exact hne (perm_ne hp ha ha' h5)

/-! ### examples -/

/-- The empty index used in the examples: five bins, four items. -/
def exIndex : Cuckoo :=
  Cuckoo.mk 3 200 (List.replicate 4 (BitVec.allOnes 128)) (List.replicate 5 emptyVal) []

/-- The hypotheses of C26, C27 and C59 are satisfiable, and the output is neither empty nor everything. -/
example : Start exIndex 4 5 0 3 200 ∧ (∃ c', insertItems (fun _ => 0) exIndex [1, 2, 3] 0 = .ok c') ∧
    Schedule 5 [2, 5] ∧
    protocol (fun b x => b * 1000 + x.toNat) (fun _ => 0) 4 2 5 (fun _ => 1) (fun _ _ => 99999) [2, 5]
      exIndex [7, 3, 1] [1, 2, 3] = .ok [2, 0] := by
  refine ⟨⟨by decide +kernel, by decide, by decide, by decide⟩, ?_, ⟨by decide, by decide⟩, by decide +kernel⟩
  refine ⟨Cuckoo.mk 3 200 ([1, 2, 3, BitVec.allOnes 128]) [emptyVal, pack 0 0, pack 1 0, pack 2 0, emptyVal] [],
    by decide +kernel⟩

/-- The example's masks satisfy the assumptions of the theorems, for all elements below 1000. -/
example (x y : Block) (hx : x.toNat < 1000) (hy : y.toNat < 1000) (b b' : Nat) (hb : b < 5) (hb' : b' < 5)
    (h : (b, x) ≠ (b', y)) :
    (b * 1000 + x.toNat) % 256 ^ 4 ≠ (b' * 1000 + y.toNat) % 256 ^ 4 ∧
    (b * 1000 + x.toNat) % 256 ^ 4 % 2 ^ 64 ≠ (b' * 1000 + y.toNat) % 256 ^ 4 % 2 ^ 64 ∧
    (b * 1000 + x.toNat) % 256 ^ 4 ≠ 99999 := by
  have hne : ¬ (b = b' ∧ x.toNat = y.toNat) := by
    rintro ⟨rfl, e⟩
    exact h (by rw [BitVec.eq_of_toNat_eq e])
  have e1 : (b * 1000 + x.toNat) % 256 ^ 4 = b * 1000 + x.toNat := Nat.mod_eq_of_lt (by omega)
  have e2 : (b' * 1000 + y.toNat) % 256 ^ 4 = b' * 1000 + y.toNat := Nat.mod_eq_of_lt (by omega)
  rw [e1, e2, Nat.mod_eq_of_lt (a := b * 1000 + x.toNat) (by omega),
    Nat.mod_eq_of_lt (a := b' * 1000 + y.toNat) (by omega)]
  refine ⟨by omega, by omega, by omega⟩

/-- The assumption of C26 on the first eight bytes is needed: two receiver masks that agree there but differ
later share a map entry, and the second of the two common elements is not reported. -/
theorem C26_prefix_needed :
    protocol (fun b x => 2 ^ 64 * (b + 5 * x.toNat) + 7) (fun _ => 0) 12 2 5 (fun _ => 1) (fun _ _ => 1) [5]
      exIndex [2, 1] [1, 2] = .ok [0] := by decide +kernel

/-- Distinctness in C59 is needed: an element that the sender has twice is reported twice. -/
example : protocol (fun b x => b * 1000 + x.toNat) (fun _ => 0) 4 2 5 (fun _ => 1) (fun _ _ => 99999) [5]
      exIndex [3, 3] [1, 2, 3] = .ok [2, 2] := by decide +kernel

end Verif.Kkrt
