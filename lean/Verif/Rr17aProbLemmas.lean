import Verif.Rr17aProbSpec
/-
Lemmas for C125: the masks of a run as functions of the OT values.
-/
namespace Verif.Rr17
open Verif Part

section
variable {c : Cfg} {hash : Option (Block → Block)} {X Y : List Block} {sbins rbins perms : Nat → List Nat} {maskPerm sched : List Nat}

theorem binsOf_unique (hT : 0 < c.T) (hov : c.B * c.T < 2 ^ 64) {t t' b : Nat} (ht : t < c.T) (ht' : t' < c.T) (hb : b ∈ c.binsOf t)
    (hb' : b ∈ c.binsOf t') : t = t' := by
  have h : ((List.range c.T).flatMap c.binsOf).Nodup := by
    rw [binsOf_flatMap c hT hov]
    exact List.nodup_range
  rw [List.nodup_iff_pairwise_ne, List.pairwise_flatMap] at h
  have h2 := List.pairwise_iff_getElem.mp h.2
  rcases Nat.lt_trichotomy t t' with hlt | he | hlt
  · have := h2 t t' (by simpa using ht) (by simpa using ht') hlt b (by simpa using hb) b (by simpa using hb')
    exact absurd rfl this
  · exact he
  · have := h2 t' t (by simpa using ht') (by simpa using ht) hlt b (by simpa using hb') b (by simpa using hb)
    exact absurd rfl this

theorem place {raw : List Block} {bins : Nat → List Nat} (hT : 0 < c.T) (hov : c.B * c.T < 2 ^ 64) (hB : 0 < c.B) (h : Placed c raw bins)
    {i : Nat} (hi : i < c.N) : ∃ t, t < c.T ∧ addr c.B (raw.getD i 0) ∈ c.binsOf t ∧ i ∈ bins (addr c.B (raw.getD i 0)) := by
  have hb : addr c.B (raw.getD i 0) < c.B := Nat.mod_lt _ hB
  have hbm : addr c.B (raw.getD i 0) ∈ (List.range c.T).flatMap c.binsOf := by
    rw [binsOf_flatMap c hT hov]; exact List.mem_range.mpr hb
  obtain ⟨t, ht, hbt⟩ := List.mem_flatMap.mp hbm
  exact ⟨t, List.mem_range.mp ht, hbt, (h.mem _ hb).mem_iff.mpr (List.mem_filter.mpr ⟨List.mem_range.mpr hi, by simp⟩)⟩

theorem place_addr {raw : List Block} {bins : Nat → List Nat} (h : Placed c raw bins) {i b : Nat} (hb : b < c.B) (hi : i ∈ bins b) :
    i < c.N ∧ b = addr c.B (raw.getD i 0) := by
  have := List.mem_filter.mp ((h.mem b hb).mem_iff.mp hi)
  exact ⟨List.mem_range.mp this.1, (by simpa using this.2 : addr c.B (raw.getD i 0) = b).symm⟩

/-- `recvMasks` of the sender: the number of the OT does not depend on the values. -/
theorem senderMasks_slot (xs : List Block) (hT : 0 < c.T)
    (hov : c.B * c.T < 2 ^ 64) (hb : Holds c sbins) (hl : ∀ b, b < c.B → (sbins b).length ≤ c.M)
    (hp : ∀ b, b < c.B → (perms b).Perm (List.range c.M)) {t b idx : Nat} (ht : t < c.T) (hbt : b ∈ c.binsOf t)
    (hi : idx ∈ sbins b) :
    ∃ a, a < c.M ∧ ∀ u : OtPt → Block, (senderMasks (withOt c u) xs sbins perms).getD idx 0 = u (false, t, c.otIdx t b + a, xs.getD idx 0) := by
  have hnd : ∀ u, (((List.range c.T).flatMap (sendRecvMasks (withOt c u) xs sbins perms)).map (·.1)).Perm (List.range c.N) := by
    intro u
    refine List.Perm.trans ?_ (holds_threads hT hov hb)
    rw [List.map_flatMap]
    apply flatMap_perm'
    intro t ht
    unfold sendRecvMasks
    rw [List.map_flatMap]
    apply flatMap_perm'
    intro b hbt
    have := binsOf_lt hT hov (List.mem_range.mp ht) hbt
    rw [map_fst_filterMap (sendOts (sbins b) (perms b)) fun o idx =>
      (withOt c u).F1 t ((withOt c u).otIdx t b + o.1) (xs.getD idx 0)]
    exact sendOts_inputs (hp b this) (hl b this)
  have hbB := binsOf_lt hT hov ht hbt
  have hm : idx ∈ (sendOts (sbins b) (perms b)).filterMap (·.2) :=
    (sendOts_inputs (hp b hbB) (hl b hbB)).mem_iff.mpr hi
  obtain ⟨o, ho, hoi⟩ := List.mem_filterMap.mp hm
  have hoM : o.1 < c.M := by
    have : o.1 ∈ (sendOts (sbins b) (perms b)).map (·.1) := List.mem_map.mpr ⟨o, ho, rfl⟩
    rw [sendOts_nums, (hp b hbB).length_eq, List.length_range] at this
    exact List.mem_range.mp this
  refine ⟨o.1, hoM, fun u => ?_⟩
  exact stores_get _ _ 0 ((hnd u).nodup_iff.mpr List.nodup_range)
    (fun w hw => by
      rw [List.length_replicate]
      exact List.mem_range.mp ((hnd u).mem_iff.mp (List.mem_map.mpr ⟨w, hw, rfl⟩)))
    (w := (idx, u (false, t, c.otIdx t b + o.1, xs.getD idx 0)))
    (List.mem_flatMap.mpr ⟨t, List.mem_range.mpr ht, List.mem_flatMap.mpr ⟨b, hbt,
      List.mem_filterMap.mpr ⟨o, ho, by rw [hoi]; rfl⟩⟩⟩)

/-- `recvMasks` of the receiver. -/
theorem receiverMasks_slot (ys : List Block) (rnd : Nat → Nat → Nat)
    (hT : 0 < c.T) (hov : c.B * c.T < 2 ^ 64) (hb : Holds c rbins)
    (hl : ∀ b, b < c.B → (rbins b).length ≤ c.M) {t b idx : Nat} (ht : t < c.T) (hbt : b ∈ c.binsOf t)
    (hi : idx ∈ rbins b) :
    ∃ a, a < c.M ∧ ∀ u : OtPt → Block, (receiverMasks (withOt c u) ys rbins rnd).getD idx 0 = u (true, t, c.otIdx t b + a, ys.getD idx 0) := by
  have hspec : ∀ t, t < c.T → _ := fun t ht =>
    recvBins_spec c.M rbins rnd (c.binsOf t) (fun b hb => hl b (binsOf_lt hT hov ht hb)) (List.range c.M)
      (List.Perm.refl _)
  have hnd : ∀ u, (((List.range c.T).flatMap (recvRecvMasks (withOt c u) ys rbins rnd)).map (·.1)).Perm (List.range c.N) := by
    intro u
    refine List.Perm.trans ?_ (holds_threads hT hov hb)
    rw [List.map_flatMap]
    apply flatMap_perm'
    intro t ht
    obtain ⟨h1, h2⟩ := hspec t (List.mem_range.mp ht)
    show (((recvBins c.M rbins rnd (List.range c.M) (c.binsOf t)).flatMap fun b => b.2.filterMap fun o =>
      o.2.map fun idx => (idx, u (true, t, c.otIdx t b.1 + o.1, ys.getD idx 0))).map (·.1)).Perm _
    rw [List.map_flatMap]
    conv => rhs; rw [← h1]
    rw [List.flatMap_map]
    apply flatMap_perm'
    intro r hr
    rw [map_fst_filterMap r.2 fun o idx => u (true, t, c.otIdx t r.1 + o.1, ys.getD idx 0), (h2 r hr).2]
  obtain ⟨h1, h2⟩ := hspec t ht
  have hbm : b ∈ (recvBins c.M rbins rnd (List.range c.M) (c.binsOf t)).map (·.1) := by rw [h1]; exact hbt
  obtain ⟨r, hr, rfl⟩ := List.mem_map.mp hbm
  have hm : idx ∈ r.2.filterMap (·.2) := by rw [(h2 r hr).2]; exact hi
  obtain ⟨o, ho, hoi⟩ := List.mem_filterMap.mp hm
  have hoM : o.1 < c.M :=
    List.mem_range.mp ((h2 r hr).1.mem_iff.mp (List.mem_map.mpr ⟨o, ho, rfl⟩))
  refine ⟨o.1, hoM, fun u => ?_⟩
  exact stores_get _ _ 0 ((hnd u).nodup_iff.mpr List.nodup_range)
    (fun w hw => by
      rw [List.length_replicate]
      exact List.mem_range.mp ((hnd u).mem_iff.mp (List.mem_map.mpr ⟨w, hw, rfl⟩)))
    (w := (idx, u (true, t, c.otIdx t r.1 + o.1, ys.getD idx 0)))
    (List.mem_flatMap.mpr ⟨t, List.mem_range.mpr ht, List.mem_flatMap.mpr ⟨r, hr,
      List.mem_filterMap.mpr ⟨o, ho, by rw [hoi]; rfl⟩⟩⟩)

/-- Number `k` of the OTs of the bin of item `i`. -/
def otPt (c : Cfg) (d : Bool) (t : Nat → Nat) (raw xs : List Block) (i k : Nat) : OtPt :=
  (d, t i, c.otIdx (t i) (addr c.B (raw.getD i 0)) + k, xs.getD i 0)

/-- The threads of the items. -/
def Threads (c : Cfg) (raw : List Block) (t : Nat → Nat) : Prop := ∀ i, i < c.N → t i < c.T ∧ addr c.B (raw.getD i 0) ∈ c.binsOf (t i)

theorem otPt_inj {d d' : Bool} {t t' : Nat → Nat} {raw raw' xs ys : List Block} {i j k k' : Nat} (h : Threads c raw t) (h' : Threads c raw' t')
    (hi : i < c.N) (hj : j < c.N) (hk : k < c.M) (hk' : k' < c.M) (e : otPt c d t raw xs i k = otPt c d' t' raw' ys j k') :
    d = d' ∧ addr c.B (raw.getD i 0) = addr c.B (raw'.getD j 0) ∧ k = k' ∧ xs.getD i 0 = ys.getD j 0 := by
  unfold otPt Cfg.otIdx at e
  simp only [Prod.mk.injEq] at e
  obtain ⟨e1, e2, e3, e4⟩ := e
  have m1 := (mem_interval.mp (h i hi).2).1
  have m2 := (mem_interval.mp (h' j hj).2).1
  rw [← e2] at m2 e3
  have hM : 0 < c.M := by omega
  have d1 : ∀ n l, l < c.M → (n * c.M + l) / c.M = n := by
    intro n l hl
    rw [Nat.mul_comm, Nat.mul_add_div hM, Nat.div_eq_of_lt hl, Nat.add_zero]
  have e5 := congrArg (fun n => n / c.M) e3
  rw [d1 _ _ hk, d1 _ _ hk'] at e5
  rw [e5] at e3
  exact ⟨e1, by omega, by omega, e4⟩

/-- All masks of a run. -/
theorem run_masks (S : Setup c hash X Y sbins rbins perms maskPerm sched) (rnd : Nat → Nat → Nat) :
    ∃ t a t' a' : Nat → Nat, Threads c (hashed hash X) t ∧ Threads c (hashed hash Y) t' ∧ (∀ i, i < c.N → a i < c.M) ∧ (∀ j, j < c.N → a' j < c.M) ∧
      ∀ u : OtPt → Block, ∃ buf : List Nat,
        sendBuffer (withOt c u) (otInputs hash c X) sbins perms maskPerm (sched.foldl (sendStep sbins) (sendStart c)) = .ok buf ∧
        (∀ s, s < c.N * c.M → ∃ i l, i < c.N ∧ l < c.M ∧ buf.getD s 0 = cut c.ms (u (otPt c false t (hashed hash X) (otInputs hash c X) i (a i)) ^^^
          u (otPt c true t (hashed hash X) (otInputs hash c X) i l))) ∧
        (∀ i l, i < c.N → l < c.M → ∃ s, s < c.N * c.M ∧ buf.getD s 0 = cut c.ms (u (otPt c false t (hashed hash X) (otInputs hash c X) i (a i)) ^^^
          u (otPt c true t (hashed hash X) (otInputs hash c X) i l))) ∧
        (∀ th, th < c.T → entries (withOt c u) (otInputs hash c Y) (receiverMasks (withOt c u) (otInputs hash c Y) rbins rnd) rbins th =
          (c.binsOf th).flatMap fun b => (rbins b).flatMap fun j => (List.range c.M).map fun l =>
            (cut c.keySize (u (otPt c true t' (hashed hash Y) (otInputs hash c Y) j (a' j)) ^^^ u (otPt c false t' (hashed hash Y) (otInputs hash c Y) j l)),
              j * c.M + l, u (otPt c true t' (hashed hash Y) (otInputs hash c Y) j (a' j)) ^^^ u (otPt c false t' (hashed hash Y) (otInputs hash c Y) j l))) := by
  have hT := S.threads
  have hov := S.small
  have hHS := S.sender.holds S.bins
  have hHR := S.receiver.holds S.bins
  have h1 : ∀ i, ∃ t, i < c.N → t < c.T ∧ addr c.B ((hashed hash X).getD i 0) ∈ c.binsOf t ∧ i ∈ sbins (addr c.B ((hashed hash X).getD i 0)) := by
    intro i
    by_cases hi : i < c.N
    · obtain ⟨t, ht⟩ := place hT hov S.bins S.sender hi
      exact ⟨t, fun _ => ht⟩
    · exact ⟨0, fun h => absurd h hi⟩
  have h2 : ∀ i, ∃ t, i < c.N → t < c.T ∧ addr c.B ((hashed hash Y).getD i 0) ∈ c.binsOf t ∧ i ∈ rbins (addr c.B ((hashed hash Y).getD i 0)) := by
    intro i
    by_cases hi : i < c.N
    · obtain ⟨t, ht⟩ := place hT hov S.bins S.receiver hi
      exact ⟨t, fun _ => ht⟩
    · exact ⟨0, fun h => absurd h hi⟩
  obtain ⟨t, ht⟩ := Classical.axiomOfChoice h1
  obtain ⟨t', ht'⟩ := Classical.axiomOfChoice h2
  have h3 : ∀ i, ∃ a, i < c.N → a < c.M ∧ ∀ u : OtPt → Block, (senderMasks (withOt c u) (otInputs hash c X) sbins perms).getD i 0 =
      u (otPt c false t (hashed hash X) (otInputs hash c X) i a) := by
    intro i
    by_cases hi : i < c.N
    · obtain ⟨e1, e2, e3⟩ := ht i hi
      obtain ⟨a, ha⟩ := senderMasks_slot (otInputs hash c X) hT hov hHS S.sender.cap S.perm e1 e2 e3
      exact ⟨a, fun _ => ha⟩
    · exact ⟨0, fun h => absurd h hi⟩
  have h4 : ∀ i, ∃ a, i < c.N → a < c.M ∧ ∀ u : OtPt → Block, (receiverMasks (withOt c u) (otInputs hash c Y) rbins rnd).getD i 0 =
      u (otPt c true t' (hashed hash Y) (otInputs hash c Y) i a) := by
    intro i
    by_cases hi : i < c.N
    · obtain ⟨e1, e2, e3⟩ := ht' i hi
      obtain ⟨a, ha⟩ := receiverMasks_slot (otInputs hash c Y) rnd hT hov hHR S.receiver.cap e1 e2 e3
      exact ⟨a, fun _ => ha⟩
    · exact ⟨0, fun h => absurd h hi⟩
  obtain ⟨a, ha⟩ := Classical.axiomOfChoice h3
  obtain ⟨a', ha'⟩ := Classical.axiomOfChoice h4
  refine ⟨t, a, t', a', fun i hi => ⟨(ht i hi).1, (ht i hi).2.1⟩, fun i hi => ⟨(ht' i hi).1, (ht' i hi).2.1⟩, fun i hi => (ha i hi).1,
    fun i hi => (ha' i hi).1, fun u => ?_⟩
  have hinv := sInv_sched (c := withOt c u) (bins := sbins) sched (sInv_start (withOt c u) sbins)
  have hs := slots_final hinv S.done hT hov hHS S.perm'
  obtain ⟨buf, hb1, _, hb3⟩ := sendBuffer_ok (perms := perms) (otInputs hash c X) hs
  have hmask : ∀ i l, i < c.N → sendMask (withOt c u) (otInputs hash c X) (senderMasks (withOt c u) (otInputs hash c X) sbins perms) (t i)
      (addr c.B ((hashed hash X).getD i 0)) i l = cut c.ms (u (otPt c false t (hashed hash X) (otInputs hash c X) i (a i)) ^^^
          u (otPt c true t (hashed hash X) (otInputs hash c X) i l)) := by
    intro i l hi
    unfold sendMask
    rw [(ha i hi).2 u, BitVec.xor_comm]
    rfl
  refine ⟨buf, hb1, ?_, ?_, ?_⟩
  · intro s hs0
    have hrow := hs.mem_iff.mpr (List.mem_map.mpr ⟨s, List.mem_range.mpr hs0, rfl⟩)
    obtain ⟨⟨o, th, b, i, l⟩, hr1, hr2⟩ := List.mem_map.mp hrow
    simp only at hr2
    subst hr2
    obtain ⟨q1, q2, q3, q4⟩ := sendRows_inv (hinv.done_perm S.done) hr1
    obtain ⟨hi, hba⟩ := place_addr S.sender (binsOf_lt hT hov q1 q2) q3
    subst hba
    have e := binsOf_unique hT hov q1 (ht i hi).1 q2 (ht i hi).2.1
    subst e
    refine ⟨i, l, hi, q4, ?_⟩
    rw [(hb3 s _ _ i l hr1).2]
    exact hmask i l hi
  · intro i l hi hl
    obtain ⟨s, hrow⟩ := sendRows_mem hs (hinv.done_perm S.done) (ht i hi).1 (ht i hi).2.1 (ht i hi).2.2 hl
    obtain ⟨hsN, hbuf⟩ := hb3 s _ _ i l hrow
    exact ⟨s, hsN, hbuf.trans (hmask i l hi)⟩
  · intro th hth
    unfold entries
    apply flatMap_congr'
    intro b hb
    apply flatMap_congr'
    intro j hj
    apply List.map_congr_left
    intro l hl
    obtain ⟨hjN, hba⟩ := place_addr S.receiver (binsOf_lt hT hov hth hb) hj
    subst hba
    have e := binsOf_unique hT hov hth (ht' j hjN).1 hb (ht' j hjN).2.1
    have m : (withOt c u).F1 th ((withOt c u).otIdx th (addr c.B ((hashed hash Y).getD j 0)) + l) ((otInputs hash c Y).getD j 0) ^^^
        (receiverMasks (withOt c u) (otInputs hash c Y) rbins rnd).getD j 0 =
        u (otPt c true t' (hashed hash Y) (otInputs hash c Y) j (a' j)) ^^^ u (otPt c false t' (hashed hash Y) (otInputs hash c Y) j l) := by
      rw [(ha' j hjN).2 u, BitVec.xor_comm, e]
      rfl
    simp only [m]
    rfl

end

end Verif.Rr17
