import Verif.Grr18Lemmas
/-
Properties C45, C70 - C74: GRR18.
-/
namespace Verif.Grr18
open Verif Part Rr17

/-! ### C45: loads -/

/-- C45, default branch: every noise, every table. -/
theorem C45_default (start : Int) (tbl : List Nat) (binSize : Nat) (v : Int) (ld : Nat)
    (h : defaultLoad start tbl binSize v = .ok ld) : binSize ≤ ld ∧ ld ≤ 255 := by
  unfold defaultLoad at h
  split at h
  · cases h
  · split at h
    · cases h
    · cases h
      refine ⟨Nat.le_max_right _ _, ?_⟩
      have := Nat.mod_lt (lookupAt start tbl (max (min (start + tbl.length) v) start)) (show 0 < 256 by decide)
      omega

/-- C45, branch `lapPlusBuffer`: the load is large enough or an exception is thrown. -/
theorem C45_lap (maxBin binSize : Nat) (v : Int) (ld : Nat) (h : lapLoad maxBin binSize v = .ok ld) :
    binSize ≤ ld ∧ ld ≤ 255 ∧ ld ≤ maxBin := by
  unfold lapLoad at h
  split at h
  · cases h
  · split at h
    · cases h
    · cases h
      have h1 := Nat.mod_lt (min maxBin v.toNat) (show 0 < 256 by decide)
      have h2 := Nat.mod_le (min maxBin v.toNat) 256
      omega

/-- C45, branch `oneSided`: a bin within its capacity. -/
theorem C45_one_sided (M noise binSize : Nat) (hM : binSize ≤ M) (ld : Nat)
    (h : oneSidedLoad M noise binSize = .ok ld) : binSize ≤ ld ∧ ld ≤ 255 ∧ ld ≤ M := by
  unfold oneSidedLoad at h
  split at h
  · cases h
  · split at h
    · cases h
    · cases h
      omega

/-- C45, branch with a threshold (`mCWThreshold`), exact condition. The full property `binSize ≤ cwLoad …` for all
arguments is false of the code (`C45_cw_drops`): nothing is checked here. -/
theorem C45_cw_partial (maxBin : Nat) (cw : Int) (hcw : 0 ≤ cw) (binSize : Nat) (hb : binSize ≤ 255) :
    binSize ≤ cwLoad maxBin cw binSize ↔
      (((binSize : Int) > cw → binSize ≤ maxBin % 256) ∧ ((binSize : Int) ≤ cw → cw < 256 ∨ (binSize : Int) ≤ cw % 256)) := by
  unfold cwLoad
  split <;> omega

/-- C45 is false of the code with a threshold of 256: the load is 0 whatever the bin holds. -/
theorem C45_cw_drops (maxBin binSize : Nat) (hb : 0 < binSize) (hb' : binSize ≤ 255) :
    cwLoad maxBin 256 binSize < binSize := by
  unfold cwLoad
  split <;> omega

/-- C45: the announced load is computed modulo 256, so a bin of 50 elements can be announced as 44. -/
example : 5 ≤ cwLoad 20 7 5 ∧ cwLoad 300 7 50 = 44 := by decide

example : defaultLoad (-10) [8, 8, 9, 12] 5 3 = .ok 12 ∧ defaultLoad (-10) [8, 8, 9, 12] 20 3 = .ok 20 ∧
    lapLoad 20 5 9 = .ok 9 ∧ lapLoad 20 5 4 = .throw ∧ oneSidedLoad 20 3 5 = .ok 8 ∧ cwLoad 20 7 5 = 7 ∧
    cwLoad 20 7 8 = 20 := by decide

/-- C45, receiver: its load is at least its own load, and it is defined exactly if the message is long enough. -/
theorem C45_receiver (own theirs : List Nat) :
    (∃ r, recvLoads own theirs = .ok r) ↔ own.length ≤ theirs.length := by
  induction own generalizing theirs with
  | nil => exact ⟨fun _ => Nat.zero_le _, fun _ => ⟨[], rfl⟩⟩
  | cons a as ih =>
    cases theirs with
    | nil =>
      constructor
      · rintro ⟨r, h⟩; cases h
      · intro h; simp at h
    | cons b bs =>
      rw [List.length_cons, List.length_cons, Nat.add_le_add_iff_right, ← ih bs]
      constructor
      · rintro ⟨r, h⟩
        unfold recvLoads at h
        cases h' : recvLoads as bs with
        | ok r' => exact ⟨r', rfl⟩
        | throw => rw [h'] at h; cases h
        | ub => rw [h'] at h; cases h
      · rintro ⟨r, h⟩
        refine ⟨max a b :: r, ?_⟩
        unfold recvLoads
        rw [h]
        rfl

theorem C45_receiver_ge (own theirs r : List Nat) (h : recvLoads own theirs = .ok r) (i : Nat) (hi : i < own.length) :
    own.getD i 0 ≤ r.getD i 0 ∧ theirs.getD i 0 ≤ r.getD i 0 := by
  induction own generalizing theirs r i with
  | nil => simp at hi
  | cons a as ih =>
    cases theirs with
    | nil => cases h
    | cons b bs =>
      unfold recvLoads at h
      cases h' : recvLoads as bs with
      | throw => rw [h'] at h; cases h
      | ub => rw [h'] at h; cases h
      | ok r' =>
        rw [h'] at h
        cases h
        cases i with
        | zero => exact ⟨Nat.le_max_left _ _, Nat.le_max_right _ _⟩
        | succ i => exact ih bs r' h' i (by simpa using hi)

/-! ### C70: result -/

/-- The conditions on a run: bins filled according to the addresses, loads at least the bin sizes (C45) and at most
the capacity `M`, every order of the threads. -/
structure Run (c : Cfg) (hash : Option (Block → Block)) (X Y : List Block) (sbins rbins : Nat → List Nat)
    (sLoad rOwn : Nat → Nat) (s : Sched) : Prop where
  T : 0 < c.T
  B : 0 < c.B
  ov : c.B * c.T < 2 ^ 64
  ms : 8 ≤ c.ms
  ms' : c.ms ≤ 16
  S : Placed c (hashed hash X) sbins
  R : Placed c (hashed hash Y) rbins
  sl : ∀ b, b < c.B → (sbins b).length ≤ sLoad b
  rl : ∀ b, b < c.B → (rbins b).length ≤ max (rOwn b) (sLoad b)
  sM : ∀ b, b < c.B → sLoad b ≤ c.M
  sp : ∀ b, b < c.B → (s.sPerm b).Perm (List.range (sLoad b))
  rp : ∀ b, b < c.B → (s.rPerm b).Perm (List.range (max (rOwn b) (sLoad b)))
  ord : s.order.Perm (List.range c.T)
  wr : ∀ l, (s.writes l).Perm l
  ins : ∀ l, (s.inserts l).Perm l
  ex : 0 ≤ s.extra
  tot : (realCount c (fun b => max (rOwn b) (sLoad b)) sbins + s.extra.toNat) * c.T < 2 ^ 64

/-- The entries of the receiver's table in a run. -/
def runEntries (c : Cfg) (hash : Option (Block → Block)) (Y : List Block) (rbins : Nat → List Nat)
    (sLoad rOwn : Nat → Nat) (s : Sched) : List (Nat × Nat × Nat) :=
  (List.range c.T).flatMap (entries c sLoad (otInputs hash c Y)
    (otMasks c c.F2 (fun b => max (rOwn b) (sLoad b)) (otInputs hash c Y) rbins s.rPerm) rbins)

/-- The result of a run in terms of the masks: rows of the buffer, looked up in the table. -/
theorem run_eq {c : Cfg} {hash : Option (Block → Block)} {X Y : List Block} {sbins rbins : Nat → List Nat}
    {sLoad rOwn : Nat → Nat} {s : Sched} (h : Run c hash X Y sbins rbins sLoad rOwn s) :
    ∃ (buf mx : List Nat), online c (otInputs hash c X) (otInputs hash c Y) sbins rbins sLoad rOwn s =
        .ok ((List.range buf.length).filterMap fun r =>
          lookup c (s.inserts (runEntries c hash Y rbins sLoad rOwn s)) mx (buf.getD r 0)) ∧
      (∀ e ∈ runEntries c hash Y rbins sLoad rOwn s, mx.getD e.2.1 0 = e.2.2) ∧
      buf.length = realCount c (fun b => max (rOwn b) (sLoad b)) sbins + s.extra.toNat ∧
      (∀ i, i < realCount c (fun b => max (rOwn b) (sLoad b)) sbins → buf.getD i 0 =
        (allMasks c (fun b => max (rOwn b) (sLoad b)) (otInputs hash c X)
          (otMasks c c.F1 sLoad (otInputs hash c X) sbins s.sPerm) sbins s.order).getD i 0) ∧
      (∀ i, realCount c (fun b => max (rOwn b) (sLoad b)) sbins ≤ i → i < buf.length → buf.getD i 0 = s.junk i) := by
  obtain ⟨buf, h1, h2, h3, h4⟩ := sendBuffer_ok (fun b => max (rOwn b) (sLoad b)) (otInputs hash c X)
    (otMasks c c.F1 sLoad (otInputs hash c X) sbins s.sPerm) sbins h.ord h.ex s.junk
    (h.wr (sendWrites c (fun b => max (rOwn b) (sLoad b)) (otInputs hash c X)
      (otMasks c c.F1 sLoad (otInputs hash c X) sbins s.sPerm) sbins s.order))
  have htot : buf.length * c.T < 2 ^ 64 := by rw [h2]; exact h.tot
  obtain ⟨mx, h5, h6⟩ := receive_ok (otInputs hash c Y)
    (otMasks c c.F2 (fun b => max (rOwn b) (sLoad b)) (otInputs hash c Y) rbins s.rPerm) h.T h.ov (h.R.holds h.B)
    h.sM h.ms (s.inserts (runEntries c hash Y rbins sLoad rOwn s)) buf htot
  refine ⟨buf, mx, ?_, h6, h2, h3, h4⟩
  unfold online
  have := h.ms'
  simp only
  rw [if_neg (by omega), h1]
  exact h5

/-- C70, completeness for every number of threads and every schedule: a common element is reported if the keys of the
receiver's masks are different and not zero. -/
theorem C70_complete (c : Cfg) (hash : Option (Block → Block)) (X Y : List Block) (sbins rbins : Nat → List Nat)
    (sLoad rOwn : Nat → Nat) (s : Sched) (h : Run c hash X Y sbins rbins sLoad rOwn s)
    (hkeys : ((runEntries c hash Y rbins sLoad rOwn s).map (·.1)).Nodup)
    (hzero : ∀ e ∈ runEntries c hash Y rbins sLoad rOwn s, e.1 ≠ 0)
    (i j : Nat) (hi : i < X.length) (hj : j < Y.length) (hij : X[i] = Y[j]) :
    ∃ res, online c (otInputs hash c X) (otInputs hash c Y) sbins rbins sLoad rOwn s = .ok res ∧ j ∈ res := by
  have hlX : X.length = c.N := by have := h.S.len; simpa [hashed] using this
  have hlY : Y.length = c.N := by have := h.R.len; simpa [hashed] using this
  obtain ⟨buf, mx, h1, h2, h3, h4, _⟩ := run_eq h
  refine ⟨_, h1, ?_⟩
  have hgX : (hashed hash X).getD i 0 = hash.elim X[i] fun h => h X[i] := by
    unfold hashed; rw [Kkrt.getD_eq (by simpa using hi), List.getElem_map]
  have hgY : (hashed hash Y).getD j 0 = hash.elim Y[j] fun h => h Y[j] := by
    unfold hashed; rw [Kkrt.getD_eq (by simpa using hj), List.getElem_map]
  have hgo : (otInputs hash c X).getD i 0 = (otInputs hash c Y).getD j 0 := by
    unfold otInputs hashed
    rw [Kkrt.getD_eq (by simpa using hi), Kkrt.getD_eq (by simpa using hj)]
    simp only [List.getElem_map]
    rw [hij]
  have hbB : addr c.B ((hashed hash X).getD i 0) < c.B := Nat.mod_lt _ h.B
  generalize hb : addr c.B ((hashed hash X).getD i 0) = b at hbB
  have hib : i ∈ sbins b := (h.S.mem b hbB).mem_iff.mpr
    (List.mem_filter.mpr ⟨List.mem_range.mpr (by omega), by simpa using hb⟩)
  have hjb : j ∈ rbins b := (h.R.mem b hbB).mem_iff.mpr
    (List.mem_filter.mpr ⟨List.mem_range.mpr (by omega), by rw [hgY, ← hij, ← hgX]; simpa using hb⟩)
  have hbm : b ∈ (List.range c.T).flatMap c.binsOf := by
    rw [binsOf_flatMap c h.T h.ov]; exact List.mem_range.mpr hbB
  obtain ⟨t, ht, hbt⟩ := List.mem_flatMap.mp hbm
  have ht := List.mem_range.mp ht
  obtain ⟨a, ha, hma⟩ := otMasks_spec c.F1 (otInputs hash c X) h.T h.ov (h.S.holds h.B) h.sl h.sp ht hbt hib
  obtain ⟨a', ha', hma'⟩ := otMasks_spec (load := fun b => max (rOwn b) (sLoad b)) c.F2 (otInputs hash c Y) h.T h.ov
    (h.R.holds h.B) h.rl h.rp ht hbt hjb
  have hm := (mem_allMasks (rLoad := fun b => max (rOwn b) (sLoad b)) (xs := otInputs hash c X)
    (sm := otMasks c c.F1 sLoad (otInputs hash c X) sbins s.sPerm) h.ord).mpr ⟨t, b, i, a', ht, hbt, hib, ha', rfl⟩
  obtain ⟨r, hr, hrm⟩ := List.getElem_of_mem hm
  have hr' := hr
  rw [allMasks_length _ _ _ _ _ _ h.ord] at hr'
  have hbuf := h4 r hr'
  rw [Kkrt.getD_eq hr, hrm] at hbuf
  have he : (cut c.keySize (c.F1 t (off c sLoad t b + a) ((otInputs hash c Y).getD j 0) ^^^
        (otMasks c c.F2 (fun b => max (rOwn b) (sLoad b)) (otInputs hash c Y) rbins s.rPerm).getD j 0), j * c.M + a,
      cut c.ms (c.F1 t (off c sLoad t b + a) ((otInputs hash c Y).getD j 0) ^^^
        (otMasks c c.F2 (fun b => max (rOwn b) (sLoad b)) (otInputs hash c Y) rbins s.rPerm).getD j 0)) ∈
      runEntries c hash Y rbins sLoad rOwn s := mem_entries.mpr ⟨t, b, j, a, ht, hbt, hjb, ha, rfl⟩
  have hval : buf.getD r 0 = cut c.ms (c.F1 t (off c sLoad t b + a) ((otInputs hash c Y).getD j 0) ^^^
        (otMasks c c.F2 (fun b => max (rOwn b) (sLoad b)) (otInputs hash c Y) rbins s.rPerm).getD j 0) := by
    rw [hbuf, hma']
    unfold sendMask
    rw [hma, hgo, BitVec.xor_comm]
  refine List.mem_filterMap.mpr ⟨r, List.mem_range.mpr (by omega), ?_⟩
  rw [hval]
  have hkey : cut c.ms (c.F1 t (off c sLoad t b + a) ((otInputs hash c Y).getD j 0) ^^^
        (otMasks c c.F2 (fun b => max (rOwn b) (sLoad b)) (otInputs hash c Y) rbins s.rPerm).getD j 0) %
      2 ^ (8 * c.keySize) = cut c.keySize (c.F1 t (off c sLoad t b + a) ((otInputs hash c Y).getD j 0) ^^^
        (otMasks c c.F2 (fun b => max (rOwn b) (sLoad b)) (otInputs hash c Y) rbins s.rPerm).getD j 0) :=
    cut_cut (show c.keySize ≤ c.ms from Nat.min_le_right _ _) _
  have hfind := find_of_nodup (((h.ins _).map (·.1)).nodup_iff.mpr hkeys) ((h.ins _).mem_iff.mpr he)
  unfold lookup
  rw [hkey, if_neg (hzero _ he), hfind]
  simp only
  rw [if_pos (h2 _ he)]
  congr 1
  have := h.sM b hbB
  rw [Nat.mul_comm, Nat.mul_add_div (by omega), Nat.div_eq_of_lt (by omega), Nat.add_zero]

/-- Number of OTs of thread `t`. -/
def total (c : Cfg) (load : Nat → Nat) (t : Nat) : Nat := off c load t (bound c.B c.T (t + 1))

/-- No accidental collisions: masks of different OT pairs or different items are different. -/
def CollisionFree (c : Cfg) (sLoad rLoad : Nat → Nat) (items : List Block) : Prop :=
  ∀ t, t < c.T → ∀ t', t' < c.T → ∀ k2, k2 < total c rLoad t → ∀ k2', k2' < total c rLoad t' →
    ∀ k1, k1 < total c sLoad t → ∀ k1', k1' < total c sLoad t' → ∀ x ∈ items, ∀ x' ∈ items,
    cut c.ms (c.F2 t k2 x ^^^ c.F1 t k1 x) = cut c.ms (c.F2 t' k2' x' ^^^ c.F1 t' k1' x') →
    t = t' ∧ k2 = k2' ∧ k1 = k1' ∧ x = x'

/-- The same as a computation (used for the example). -/
def collisionCheck (c : Cfg) (sLoad rLoad : Nat → Nat) (items : List Block) : Bool :=
  let all := (List.range c.T).flatMap fun t => (List.range (total c rLoad t)).flatMap fun k2 =>
    (List.range (total c sLoad t)).flatMap fun k1 => items.map fun x => (t, k2, k1, x)
  all.all fun p => all.all fun q =>
    decide (cut c.ms (c.F2 p.1 p.2.1 p.2.2.2 ^^^ c.F1 p.1 p.2.2.1 p.2.2.2) =
      cut c.ms (c.F2 q.1 q.2.1 q.2.2.2 ^^^ c.F1 q.1 q.2.2.1 q.2.2.2) → p = q)

theorem collisionFree_of_check {c : Cfg} {sLoad rLoad : Nat → Nat} {items : List Block}
    (h : collisionCheck c sLoad rLoad items = true) : CollisionFree c sLoad rLoad items := by
  unfold collisionCheck at h
  simp only [List.all_eq_true, decide_eq_true_eq] at h
  intro t ht t' ht' k2 hk2 k2' hk2' k1 hk1 k1' hk1' x hx x' hx' e
  have mem : ∀ t k2 k1 x, t < c.T → k2 < total c rLoad t → k1 < total c sLoad t → x ∈ items →
      (t, k2, k1, x) ∈ (List.range c.T).flatMap fun t => (List.range (total c rLoad t)).flatMap fun k2 =>
        (List.range (total c sLoad t)).flatMap fun k1 => items.map fun x => (t, k2, k1, x) := by
    intro t k2 k1 x ht hk2 hk1 hx
    exact List.mem_flatMap.mpr ⟨t, List.mem_range.mpr ht, List.mem_flatMap.mpr ⟨k2, List.mem_range.mpr hk2,
      List.mem_flatMap.mpr ⟨k1, List.mem_range.mpr hk1, List.mem_map.mpr ⟨x, hx, rfl⟩⟩⟩⟩
  have := h _ (mem t k2 k1 x ht hk2 hk1 hx) _ (mem t' k2' k1' x' ht' hk2' hk1' hx') e
  simpa using this

theorem off_lt_total {c : Cfg} {load : Nat → Nat} {t b a : Nat} (hb : b ∈ c.binsOf t) (ha : a < load b) :
    off c load t b + a < total c load t := by
  have := mem_interval.mp hb
  exact off_lt c load t b _ a this.1 this.2 ha

/-- The masks behind a reported item. -/
theorem reported {c : Cfg} {hash : Option (Block → Block)} {X Y : List Block} {sbins rbins : Nat → List Nat}
    {sLoad rOwn : Nat → Nat} {s : Sched} (h : Run c hash X Y sbins rbins sLoad rOwn s)
    {mx : List Nat} (hmx : ∀ e ∈ runEntries c hash Y rbins sLoad rOwn s, mx.getD e.2.1 0 = e.2.2) {m j : Nat}
    (hl : lookup c (s.inserts (runEntries c hash Y rbins sLoad rOwn s)) mx m = some j) :
    ∃ t b l a', t < c.T ∧ b ∈ c.binsOf t ∧ j ∈ rbins b ∧ l < sLoad b ∧ a' < max (rOwn b) (sLoad b) ∧
      (otMasks c c.F2 (fun b => max (rOwn b) (sLoad b)) (otInputs hash c Y) rbins s.rPerm).getD j 0 =
        c.F2 t (off c (fun b => max (rOwn b) (sLoad b)) t b + a') ((otInputs hash c Y).getD j 0) ∧
      m = cut c.ms (c.F1 t (off c sLoad t b + l) ((otInputs hash c Y).getD j 0) ^^^
        (otMasks c c.F2 (fun b => max (rOwn b) (sLoad b)) (otInputs hash c Y) rbins s.rPerm).getD j 0) := by
  unfold lookup at hl
  split at hl
  · cases hl
  · split at hl
    · rename_i e hf
      split at hl
      · rename_i hm
        have he := (h.ins _).mem_iff.mp (List.mem_of_find?_eq_some hf)
        have hv := hmx e he
        obtain ⟨t, b, idx, l, ht, hbt, hi, hl', rfl⟩ := mem_entries.mp he
        have hbB := binsOf_lt h.T h.ov ht hbt
        have hM := h.sM b hbB
        have hj : idx = j := by
          have := Option.some.inj hl
          rw [← this]
          show _ = (idx * c.M + l) / c.M
          rw [Nat.mul_comm, Nat.mul_add_div (by omega), Nat.div_eq_of_lt (by omega), Nat.add_zero]
        subst hj
        obtain ⟨a', ha', hma'⟩ := otMasks_spec (load := fun b => max (rOwn b) (sLoad b)) c.F2 (otInputs hash c Y)
          h.T h.ov (h.R.holds h.B) h.rl h.rp ht hbt hi
        exact ⟨t, b, l, a', ht, hbt, hi, hl', ha', hma', by rw [← hm, hv]⟩
      · cases hl
    · cases hl

theorem getD_otInputs_mem {c : Cfg} {hash : Option (Block → Block)} {X : List Block} {i : Nat} (hi : i < X.length) :
    (otInputs hash c X).getD i 0 ∈ otInputs hash c X := by
  have : i < (otInputs hash c X).length := by simpa [otInputs, hashed] using hi
  rw [Kkrt.getD_eq this]
  exact List.getElem_mem this

/-- A row of the sender that leads to a report comes from an item with the same address and the same OT input. -/
theorem reported_row {c : Cfg} {hash : Option (Block → Block)} {X Y : List Block} {sbins rbins : Nat → List Nat}
    {sLoad rOwn : Nat → Nat} {s : Sched} (h : Run c hash X Y sbins rbins sLoad rOwn s)
    (hc : CollisionFree c sLoad (fun b => max (rOwn b) (sLoad b)) (otInputs hash c X ++ otInputs hash c Y))
    {mx : List Nat} (hmx : ∀ e ∈ runEntries c hash Y rbins sLoad rOwn s, mx.getD e.2.1 0 = e.2.2) {j : Nat}
    {t b i l : Nat} (ht : t < c.T) (hbt : b ∈ c.binsOf t) (hi : i ∈ sbins b) (hl : l < max (rOwn b) (sLoad b))
    (hlook : lookup c (s.inserts (runEntries c hash Y rbins sLoad rOwn s)) mx
      (sendMask c (fun b => max (rOwn b) (sLoad b)) (otInputs hash c X)
        (otMasks c c.F1 sLoad (otInputs hash c X) sbins s.sPerm) t b i l) = some j) :
    i < X.length ∧ j < Y.length ∧ j ∈ rbins b ∧ (otInputs hash c X).getD i 0 = (otInputs hash c Y).getD j 0 ∧
      (otMasks c c.F2 (fun b => max (rOwn b) (sLoad b)) (otInputs hash c Y) rbins s.rPerm).getD j 0 =
        c.F2 t (off c (fun b => max (rOwn b) (sLoad b)) t b + l) ((otInputs hash c Y).getD j 0) := by
  have hlX : X.length = c.N := by have := h.S.len; simpa [hashed] using this
  have hlY : Y.length = c.N := by have := h.R.len; simpa [hashed] using this
  obtain ⟨t', b', l', a', ht', hbt', hj, hl', ha', hma', hm⟩ := reported h hmx hlook
  obtain ⟨a, ha, hma⟩ := otMasks_spec c.F1 (otInputs hash c X) h.T h.ov (h.S.holds h.B) h.sl h.sp ht hbt hi
  have hiN : i < X.length := by
    rw [hlX]
    exact List.mem_range.mp ((holds_threads h.T h.ov (h.S.holds h.B)).mem_iff.mp
      (List.mem_flatMap.mpr ⟨t, List.mem_range.mpr ht, List.mem_flatMap.mpr ⟨b, hbt, hi⟩⟩))
  have hjN : j < Y.length := by
    rw [hlY]
    exact List.mem_range.mp ((holds_threads h.T h.ov (h.R.holds h.B)).mem_iff.mp
      (List.mem_flatMap.mpr ⟨t', List.mem_range.mpr ht', List.mem_flatMap.mpr ⟨b', hbt', hj⟩⟩))
  unfold sendMask at hm
  rw [hma, hma', BitVec.xor_comm (c.F1 t' _ _)] at hm
  obtain ⟨e1, e2, e3, e4⟩ := hc t ht t' ht' _ (off_lt_total (load := fun b => max (rOwn b) (sLoad b)) hbt hl) _
    (off_lt_total (load := fun b => max (rOwn b) (sLoad b)) hbt' ha') _ (off_lt_total hbt ha) _ (off_lt_total hbt' hl')
    _ (List.mem_append_left _ (getD_otInputs_mem hiN)) _ (List.mem_append_right _ (getD_otInputs_mem hjN)) hm
  subst e1
  obtain ⟨e5, e6⟩ := off_inj c (fun b => max (rOwn b) (sLoad b)) hbt hbt' hl ha' e2
  subst e5
  exact ⟨hiN, hjN, hj, e4, by rw [hma', e6]⟩

/-- C70, soundness: without accidental collisions every reported item has the same address and the same OT input as
an item of the sender. -/
theorem C70_sound (c : Cfg) (hash : Option (Block → Block)) (X Y : List Block) (sbins rbins : Nat → List Nat)
    (sLoad rOwn : Nat → Nat) (s : Sched) (h : Run c hash X Y sbins rbins sLoad rOwn s)
    (hc : CollisionFree c sLoad (fun b => max (rOwn b) (sLoad b)) (otInputs hash c X ++ otInputs hash c Y))
    (hjunk : ∀ i, ∀ e ∈ runEntries c hash Y rbins sLoad rOwn s, s.junk i ≠ e.2.2) (res : List Nat)
    (hres : online c (otInputs hash c X) (otInputs hash c Y) sbins rbins sLoad rOwn s = .ok res) :
    ∀ j ∈ res, j < Y.length ∧ ∃ i, i < X.length ∧
      phase c.N c.B ((hashed hash X).getD i 0) = phase c.N c.B ((hashed hash Y).getD j 0) := by
  obtain ⟨buf, mx, h1, h2, h3, h4, h5⟩ := run_eq h
  rw [hres] at h1
  cases h1
  intro j hj
  obtain ⟨r, hr, hl⟩ := List.mem_filterMap.mp hj
  have hr := List.mem_range.mp hr
  by_cases hreal : r < realCount c (fun b => max (rOwn b) (sLoad b)) sbins
  · rw [h4 r hreal] at hl
    have hrl := hreal
    rw [← allMasks_length c (fun b => max (rOwn b) (sLoad b)) (otInputs hash c X)
      (otMasks c c.F1 sLoad (otInputs hash c X) sbins s.sPerm) sbins s.order h.ord] at hrl
    obtain ⟨t, b, i, l, ht, hbt, hi, hl', hm⟩ := (mem_allMasks h.ord).mp (List.getElem_mem hrl)
    rw [Kkrt.getD_eq hrl, hm] at hl
    obtain ⟨hiN, hjN, hjb, he, _⟩ := reported_row h hc h2 ht hbt hi hl' hl
    refine ⟨hjN, i, hiN, ?_⟩
    have hbB := binsOf_lt h.T h.ov ht hbt
    have a1 := (List.mem_filter.mp ((h.S.mem b hbB).mem_iff.mp hi)).2
    have a2 := (List.mem_filter.mp ((h.R.mem b hbB).mem_iff.mp hjb)).2
    simp only [beq_iff_eq] at a1 a2
    have e1 : (otInputs hash c X).getD i 0 = (phase c.N c.B ((hashed hash X).getD i 0)).2 := by
      unfold otInputs
      rw [Kkrt.getD_eq (by simpa [hashed] using hiN), List.getElem_map,
        Kkrt.getD_eq (by simpa [hashed] using hiN)]
    have e2 : (otInputs hash c Y).getD j 0 = (phase c.N c.B ((hashed hash Y).getD j 0)).2 := by
      unfold otInputs
      rw [Kkrt.getD_eq (by simpa [hashed] using hjN), List.getElem_map,
        Kkrt.getD_eq (by simpa [hashed] using hjN)]
    apply Prod.ext
    · show addr _ _ = addr _ _
      rw [a1, a2]
    · rw [← e1, ← e2, he]
  · exfalso
    rw [h5 r (by omega) hr] at hl
    obtain ⟨t, b, l, a', ht, hbt, hj, hl', ha', hma', hm⟩ := reported h h2 hl
    exact hjunk r _ (mem_entries.mpr ⟨t, b, j, l, ht, hbt, hj, hl', rfl⟩) hm

/-- C70, the result itself: if there are at least as many bins as the power of two by which items are divided (C37)
and hashing does not identify items, the reported items are exactly the common ones, whatever the schedule. -/
theorem C70_exact_partial (c : Cfg) (hash : Option (Block → Block)) (X Y : List Block) (sbins rbins : Nat → List Nat)
    (sLoad rOwn : Nat → Nat) (s : Sched) (h : Run c hash X Y sbins rbins sLoad rOwn s)
    (hN : c.N < 2 ^ 64) (hB : 2 ^ log2ceil c.N ≤ c.B)
    (hh : ∀ x ∈ X, ∀ y ∈ Y, (hash.elim x fun h => h x) = (hash.elim y fun h => h y) → x = y)
    (hc : CollisionFree c sLoad (fun b => max (rOwn b) (sLoad b)) (otInputs hash c X ++ otInputs hash c Y))
    (hjunk : ∀ i, ∀ e ∈ runEntries c hash Y rbins sLoad rOwn s, s.junk i ≠ e.2.2)
    (hkeys : ((runEntries c hash Y rbins sLoad rOwn s).map (·.1)).Nodup)
    (hzero : ∀ e ∈ runEntries c hash Y rbins sLoad rOwn s, e.1 ≠ 0) :
    ∃ res, online c (otInputs hash c X) (otInputs hash c Y) sbins rbins sLoad rOwn s = .ok res ∧
      ∀ j, j ∈ res ↔ ∃ y, Y[j]? = some y ∧ y ∈ X := by
  obtain ⟨buf, mx, h1, _⟩ := run_eq h
  refine ⟨_, h1, fun j => ?_⟩
  constructor
  · intro hj
    obtain ⟨hjN, i, hi, he⟩ := C70_sound c hash X Y sbins rbins sLoad rOwn s h hc hjunk _ h1 j hj
    have := (C37_lossless_iff_partial c.N c.B hN h.B).mpr hB _ _ he
    refine ⟨Y[j], List.getElem?_eq_getElem hjN, ?_⟩
    unfold hashed at this
    rw [Kkrt.getD_eq (by simpa using hi), Kkrt.getD_eq (by simpa using hjN), List.getElem_map, List.getElem_map] at this
    rw [← hh _ (List.getElem_mem hi) _ (List.getElem_mem hjN) this]
    exact List.getElem_mem hi
  · rintro ⟨y, hy, hyX⟩
    obtain ⟨hj, rfl⟩ := List.getElem?_eq_some_iff.mp hy
    obtain ⟨i, hi, he⟩ := List.getElem_of_mem hyX
    obtain ⟨res, h2, h3⟩ := C70_complete c hash X Y sbins rbins sLoad rOwn s h hkeys hzero i j hi hj he
    rw [h1] at h2
    cases h2
    exact h3

/-- C70, no item is reported twice (for a sender whose items are different after hashing and division). -/
theorem C70_once (c : Cfg) (hash : Option (Block → Block)) (X Y : List Block) (sbins rbins : Nat → List Nat)
    (sLoad rOwn : Nat → Nat) (s : Sched) (h : Run c hash X Y sbins rbins sLoad rOwn s)
    (hX : ((hashed hash X).map (phase c.N c.B)).Nodup)
    (hc : CollisionFree c sLoad (fun b => max (rOwn b) (sLoad b)) (otInputs hash c X ++ otInputs hash c Y))
    (hjunk : ∀ i, ∀ e ∈ runEntries c hash Y rbins sLoad rOwn s, s.junk i ≠ e.2.2) (res : List Nat)
    (hres : online c (otInputs hash c X) (otInputs hash c Y) sbins rbins sLoad rOwn s = .ok res) : res.Nodup := by
  obtain ⟨buf, mx, h1, h2, h3, h4, h5⟩ := run_eq h
  rw [hres] at h1
  cases h1
  have hlen : (rowData c (fun b => max (rOwn b) (sLoad b)) sbins s.order).length =
      realCount c (fun b => max (rOwn b) (sLoad b)) sbins := by
    have := allMasks_length c (fun b => max (rOwn b) (sLoad b)) (otInputs hash c X)
      (otMasks c c.F1 sLoad (otInputs hash c X) sbins s.sPerm) sbins s.order h.ord
    rwa [allMasks_rowData, List.length_map] at this
  have hrow : ∀ r j, r < buf.length → lookup c (s.inserts (runEntries c hash Y rbins sLoad rOwn s)) mx (buf.getD r 0) =
      some j → ∃ hr : r < (rowData c (fun b => max (rOwn b) (sLoad b)) sbins s.order).length,
        lookup c (s.inserts (runEntries c hash Y rbins sLoad rOwn s)) mx
          (sendMask c (fun b => max (rOwn b) (sLoad b)) (otInputs hash c X)
            (otMasks c c.F1 sLoad (otInputs hash c X) sbins s.sPerm)
            (rowData c (fun b => max (rOwn b) (sLoad b)) sbins s.order)[r].1
            (rowData c (fun b => max (rOwn b) (sLoad b)) sbins s.order)[r].2.1
            (rowData c (fun b => max (rOwn b) (sLoad b)) sbins s.order)[r].2.2.1
            (rowData c (fun b => max (rOwn b) (sLoad b)) sbins s.order)[r].2.2.2) = some j := by
    intro r j hr hl
    by_cases hreal : r < realCount c (fun b => max (rOwn b) (sLoad b)) sbins
    · refine ⟨by omega, ?_⟩
      rw [h4 r hreal, allMasks_rowData, Kkrt.getD_eq (by rw [List.length_map]; omega), List.getElem_map] at hl
      exact hl
    · exfalso
      rw [h5 r (by omega) hr] at hl
      obtain ⟨t, b, l, a', ht, hbt, hj, hl', ha', hma', hm⟩ := reported h h2 hl
      exact hjunk r _ (mem_entries.mpr ⟨t, b, j, l, ht, hbt, hj, hl', rfl⟩) hm
  rw [List.nodup_iff_pairwise_ne, List.pairwise_filterMap]
  refine List.Pairwise.imp_of_mem ?_ (List.nodup_iff_pairwise_ne.mp List.nodup_range)
  intro r r' hr hr' hne j hj j' hj' hjj
  subst hjj
  obtain ⟨k, hk⟩ := hrow r j (List.mem_range.mp hr) hj
  obtain ⟨k', hk'⟩ := hrow r' j (List.mem_range.mp hr') hj'
  have hd := mem_rowData h.ord (List.getElem_mem k)
  have hd' := mem_rowData h.ord (List.getElem_mem k')
  have hdd : (rowData c (fun b => max (rOwn b) (sLoad b)) sbins s.order)[r] =
      (rowData c (fun b => max (rOwn b) (sLoad b)) sbins s.order)[r'] → r = r' :=
    fun e => (List.getElem_inj (rowData_nodup _ h.T h.ov (h.S.holds h.B) h.ord)).mp e
  generalize (rowData c (fun b => max (rOwn b) (sLoad b)) sbins s.order)[r] = d at *
  generalize (rowData c (fun b => max (rOwn b) (sLoad b)) sbins s.order)[r'] = d' at *
  obtain ⟨t, b, i, l⟩ := d
  obtain ⟨t', b', i', l'⟩ := d'
  obtain ⟨ht, hbt, hi, hl⟩ := hd
  obtain ⟨ht', hbt', hi', hl'⟩ := hd'
  simp only at ht hbt hi hl ht' hbt' hi' hl' hk hk'
  obtain ⟨g1, g2, g3, g4, g5⟩ := reported_row h hc h2 ht hbt hi hl hk
  obtain ⟨g1', _, g3', g4', g5'⟩ := reported_row h hc h2 ht' hbt' hi' hl' hk'
  have hbB := binsOf_lt h.T h.ov ht hbt
  have hbB' := binsOf_lt h.T h.ov ht' hbt'
  have a1 := (List.mem_filter.mp ((h.R.mem b hbB).mem_iff.mp g3)).2
  have a2 := (List.mem_filter.mp ((h.R.mem b' hbB').mem_iff.mp g3')).2
  simp only [beq_iff_eq] at a1 a2
  have hbb : b = b' := by rw [← a1, ← a2]
  subst hbb
  have htt := thread_unique h.T h.ov ht ht' hbt hbt'
  subst htt
  have hs0 : 0 < sLoad b := Nat.lt_of_lt_of_le (List.length_pos_of_mem hi) (h.sl b hbB)
  have hll : l = l' := by
    rw [g5] at g5'
    have := (hc t ht t ht _ (off_lt_total (load := fun b => max (rOwn b) (sLoad b)) hbt hl) _
      (off_lt_total (load := fun b => max (rOwn b) (sLoad b)) hbt hl') (off c sLoad t b + 0) (off_lt_total hbt hs0)
      (off c sLoad t b + 0) (off_lt_total hbt hs0) _ (List.mem_append_right _ (getD_otInputs_mem g2)) _
      (List.mem_append_right _ (getD_otInputs_mem g2)) (by rw [g5'])).2.1
    omega
  subst hll
  have b1 := (List.mem_filter.mp ((h.S.mem b hbB).mem_iff.mp hi)).2
  have b2 := (List.mem_filter.mp ((h.S.mem b hbB).mem_iff.mp hi')).2
  simp only [beq_iff_eq] at b1 b2
  have hph : ∀ k (hk : k < X.length), (otInputs hash c X).getD k 0 = (phase c.N c.B ((hashed hash X).getD k 0)).2 := by
    intro k hk
    unfold otInputs
    rw [Kkrt.getD_eq (by simpa [hashed] using hk), List.getElem_map, Kkrt.getD_eq (by simpa [hashed] using hk)]
  have hii : i = i' := by
    have e : phase c.N c.B ((hashed hash X).getD i 0) = phase c.N c.B ((hashed hash X).getD i' 0) := by
      apply Prod.ext
      · show addr _ _ = addr _ _
        rw [b1, b2]
      · rw [← hph i g1, ← hph i' g1', g4, g4']
    have hi1 : i < (hashed hash X).length := by simpa [hashed] using g1
    have hi2 : i' < (hashed hash X).length := by simpa [hashed] using g1'
    rw [Kkrt.getD_eq hi1, Kkrt.getD_eq hi2] at e
    have := (List.getElem_inj (h₀ := by simpa using hi1) (h₁ := by simpa using hi2) hX).mp
      (by rw [List.getElem_map, List.getElem_map]; exact e)
    exact this
  subst hii
  exact hne (hdd rfl)

/-! An example of a run: two threads, two bins, loads larger than the bins, the second thread of the sender first,
two extra rows. -/

def exCfg : Cfg := ⟨2, 2, 2, 2, 8, fun t k x => x * 256#128 + BitVec.ofNat 128 (1 + 2 * k + 16 * t),
  fun t k _ => BitVec.ofNat 128 (2 ^ 20 * (1 + k + 16 * t))⟩

def exBins : Nat → List Nat := fun b => [[0], [1]].getD b []

def exSched : Sched := ⟨[1, 0], List.reverse, List.reverse, fun _ => [1, 0], fun _ => [0, 1], 2, fun _ => 7⟩

theorem exRun : Run exCfg none [2#128, 3#128] [4#128, 3#128] exBins exBins (fun _ => 2) (fun _ => 1) exSched := by
  have h2 : ∀ b, b < 2 → b = 0 ∨ b = 1 := by omega
  refine ⟨by decide, by decide, by decide, by decide, by decide, ⟨rfl, ?_, ?_⟩, ⟨rfl, ?_, ?_⟩, ?_, ?_, ?_, ?_, ?_,
    by decide, fun l => List.reverse_perm l, fun l => List.reverse_perm l, by decide, by decide⟩ <;>
  · intro b hb
    rcases h2 b hb with rfl | rfl <;> decide

/-- The assumptions of the theorems can be met together, and the common item is reported. -/
example : CollisionFree exCfg (fun _ => 2) (fun b => max ((fun _ => 1) b) ((fun _ => 2) b))
      (otInputs none exCfg [2#128, 3#128] ++ otInputs none exCfg [4#128, 3#128]) ∧
    (∀ i, ∀ e ∈ runEntries exCfg none [4#128, 3#128] exBins (fun _ => 2) (fun _ => 1) exSched, exSched.junk i ≠ e.2.2) ∧
    ((runEntries exCfg none [4#128, 3#128] exBins (fun _ => 2) (fun _ => 1) exSched).map (·.1)).Nodup ∧
    (∀ e ∈ runEntries exCfg none [4#128, 3#128] exBins (fun _ => 2) (fun _ => 1) exSched, e.1 ≠ 0) ∧
    2 ^ log2ceil exCfg.N ≤ exCfg.B ∧
    online exCfg (otInputs none exCfg [2#128, 3#128]) (otInputs none exCfg [4#128, 3#128]) exBins exBins (fun _ => 2)
      (fun _ => 1) exSched = .ok [1] := by
  refine ⟨?_, ?_, ?_, ?_, ?_, ?_⟩
  · exact collisionFree_of_check (by decide +kernel)
  · intro _
    show ∀ e ∈ runEntries exCfg none [4#128, 3#128] exBins (fun _ => 2) (fun _ => 1) exSched, 7 ≠ e.2.2
    decide +kernel
  · decide +kernel
  · decide +kernel
  · decide +kernel
  · decide +kernel

/-- C70 fails if the load is smaller than the bin (`C45_cw_drops`): an item of both sets is not found. -/
theorem C70_missed : ∃ (c : Cfg) (s : Sched), c.N = 1 ∧ s.extra = 0 ∧ (∀ b, (s.sPerm b).Perm (List.range (cwLoad 1 256 1))) ∧
    online c (otInputs none c [5#128]) (otInputs none c [5#128]) (fun _ => [0]) (fun _ => [0]) (fun _ => cwLoad 1 256 1)
      (fun _ => 1) s = .ok [] := by
  refine ⟨⟨1, 1, 1, 1, 8, fun _ _ x => x, fun _ _ x => x⟩, ⟨[0], id, id, fun _ => [], fun _ => [0], 0, fun _ => 0⟩,
    rfl, rfl, fun _ => List.Perm.refl [], by decide +kernel⟩

/-! ### C71: rows of the sender -/

/-- C71: whatever the order in which the threads take their part of the buffer, the rows stored are
`0, …, realCount - 1`, each once, and all are inside the buffer. -/
theorem C71_rows (c : Cfg) (rLoad : Nat → Nat) (xs sm : List Block) (bins : Nat → List Nat) (order : List Nat)
    (ho : order.Perm (List.range c.T)) :
    (sendWrites c rLoad xs sm bins order).map (·.1) = List.range (realCount c rLoad bins) :=
  writes_fst c rLoad xs sm bins order ho

/-- C71: whatever the order of the stores, no mask is lost: every mask of every thread is in the buffer. -/
theorem C71_content (c : Cfg) (rLoad : Nat → Nat) (xs sm : List Block) (bins : Nat → List Nat) (order : List Nat)
    (ho : order.Perm (List.range c.T)) (extra : Int) (hx : 0 ≤ extra) (junk : Nat → Nat) (ws : List (Nat × Nat))
    (hw : ws.Perm (sendWrites c rLoad xs sm bins order)) :
    ∃ buf : List Nat, sendBuffer c rLoad bins extra junk ws = .ok buf ∧
      ∀ t b idx l, t < c.T → b ∈ c.binsOf t → idx ∈ bins b → l < rLoad b →
        sendMask c rLoad xs sm t b idx l ∈ buf := by
  obtain ⟨buf, h1, h2, h3, _⟩ := sendBuffer_ok rLoad xs sm bins ho hx junk hw
  refine ⟨buf, h1, ?_⟩
  intro t b idx l ht hb hi hl
  have hm := (mem_allMasks (xs := xs) (sm := sm) ho).mpr ⟨t, b, idx, l, ht, hb, hi, hl, rfl⟩
  obtain ⟨r, hr, hrm⟩ := List.getElem_of_mem hm
  have hr' := hr
  rw [allMasks_length _ _ _ _ _ _ ho] at hr'
  have hb := h3 r hr'
  rw [Kkrt.getD_eq hr, hrm, Kkrt.getD_eq (by omega)] at hb
  rw [← hb]
  exact List.getElem_mem _

example : (sendWrites exCfg (fun _ => 2) [2, 3] [0, 0] exBins [1, 0]).map (·.1) = [0, 1, 2, 3] := by decide +kernel

/-! ### C72: what is sent -/

/-- C72, the rows of the real masks do not depend on the content of the memory before. The full property is that
no row does; it is false of the code (`C72_uninitialised`). -/
theorem C72_real_partial (c : Cfg) (rLoad : Nat → Nat) (xs sm : List Block) (bins : Nat → List Nat) (order : List Nat)
    (ho : order.Perm (List.range c.T)) (extra : Int) (hx : 0 ≤ extra) (junk junk' : Nat → Nat) :
    ∃ buf buf' : List Nat, sendBuffer c rLoad bins extra junk (sendWrites c rLoad xs sm bins order) = .ok buf ∧
      sendBuffer c rLoad bins extra junk' (sendWrites c rLoad xs sm bins order) = .ok buf' ∧
      ∀ i, i < realCount c rLoad bins → buf.getD i 0 = buf'.getD i 0 := by
  obtain ⟨buf, h1, _, h3, _⟩ := sendBuffer_ok rLoad xs sm bins ho hx junk (List.Perm.refl _)
  obtain ⟨buf', h1', _, h3', _⟩ := sendBuffer_ok rLoad xs sm bins ho hx junk' (List.Perm.refl _)
  exact ⟨buf, buf', h1, h1', fun i hi => by rw [h3 i hi, h3' i hi]⟩

/-- C72 is false of the code: the extra rows are sent as they were found in memory. -/
theorem C72_uninitialised (c : Cfg) (rLoad : Nat → Nat) (xs sm : List Block) (bins : Nat → List Nat)
    (order : List Nat) (ho : order.Perm (List.range c.T)) (extra : Int) (hx : 0 < extra) (junk : Nat → Nat) :
    ∃ buf : List Nat, sendBuffer c rLoad bins extra junk (sendWrites c rLoad xs sm bins order) = .ok buf ∧
      realCount c rLoad bins < buf.length ∧
      ∀ i, realCount c rLoad bins ≤ i → i < buf.length → buf.getD i 0 = junk i := by
  obtain ⟨buf, h1, h2, _, h4⟩ := sendBuffer_ok rLoad xs sm bins ho (Int.le_of_lt hx) junk (List.Perm.refl _)
  exact ⟨buf, h1, by omega, h4⟩

/-- C72: with two extra masks the last two entries of the buffer are whatever the memory held. -/
example : sendBuffer exCfg (fun _ => 2) exBins 2 (fun i => 100 + i)
      (sendWrites exCfg (fun _ => 2) [2, 3] [0, 0] exBins [1, 0]) =
    .ok [17825792, 18874368, 1048576, 2097152, 104, 105] := by decide +kernel

/-- C72: a negative number of extra rows (the noise is not bounded) is undefined behaviour. -/
theorem C72_negative (c : Cfg) (rLoad : Nat → Nat) (bins : Nat → List Nat) (extra : Int) (hx : extra < 0)
    (junk : Nat → Nat) (ws : List (Nat × Nat)) : sendBuffer c rLoad bins extra junk ws = .ub := by
  unfold sendBuffer
  rw [if_pos hx]

/-! ### C73: memory of the receiver -/

/-- C73: if the loads sent by the other party are at most the capacity, all stores to the matrix are inside. The full
property has no such condition and is false of the code (`C73_outside`). -/
theorem C73_inside_partial (c : Cfg) (sLoad : Nat → Nat) (ys rm : List Block) (bins : Nat → List Nat) (hT : 0 < c.T)
    (hov : c.B * c.T < 2 ^ 64) (hb : Holds c bins) (hl : ∀ b, b < c.B → sLoad b ≤ c.M) :
    matrix c ((List.range c.T).flatMap (entries c sLoad ys rm bins)) ≠ .ub := by
  obtain ⟨mx, h, _⟩ := matrix_ok ys rm hT hov hb hl
  rw [h]
  intro h
  cases h

/-- C73 is false of the code: a larger load for the bin of the last input leads to stores behind the end of the
matrix. -/
theorem C73_outside (c : Cfg) (sLoad : Nat → Nat) (ys rm : List Block) (bins : Nat → List Nat) (hT : 0 < c.T)
    (hov : c.B * c.T < 2 ^ 64) (hN : 0 < c.N) (b : Nat) (hb : b < c.B) (hi : c.N - 1 ∈ bins b) (hl : c.M < sLoad b) :
    matrix c ((List.range c.T).flatMap (entries c sLoad ys rm bins)) = .ub := by
  unfold matrix
  rw [if_neg]
  intro h
  rw [List.all_eq_true] at h
  have hbm : b ∈ (List.range c.T).flatMap c.binsOf := by
    rw [binsOf_flatMap c hT hov]; exact List.mem_range.mpr hb
  obtain ⟨t, ht, hbt⟩ := List.mem_flatMap.mp hbm
  have := h _ (mem_entries.mpr ⟨t, b, c.N - 1, c.M, List.mem_range.mp ht, hbt, hi, hl, rfl⟩)
  simp only [decide_eq_true_eq] at this
  have e : (c.N - 1) * c.M + c.M = c.N * c.M := by
    rw [← Nat.succ_mul]; congr 1; omega
  omega

/-- C73: the hypotheses of C73_inside_partial and C74_inside_partial hold for the example, and a sender that
announces a load of 3 where the matrix has two columns makes the receiver write outside of it. -/
example : (0 < exCfg.T ∧ exCfg.B * exCfg.T < 2 ^ 64 ∧ Holds exCfg exBins ∧
      (∀ b, b < exCfg.B → (fun _ => 2) b ≤ exCfg.M) ∧ 8 ≤ exCfg.ms) ∧
    matrix exCfg ((List.range exCfg.T).flatMap (entries exCfg (fun _ => 3) [4, 3] [0, 0] exBins)) = .ub := by
  refine ⟨⟨by decide, by decide, ?_, by decide, by decide⟩, C73_outside exCfg _ _ _ exBins (by decide) (by decide)
    (by decide) 1 (by decide) (by decide) (by decide)⟩
  unfold Holds
  decide

/-- C73: an honest sender does this as well. The loads are limited by the bin size for 40 bits (`maxBin`), the matrix
has the size for the configured security parameter (`M`). If the first is larger there is a noise value for which the
load exceeds `M`, for every bin. -/
theorem C73_honest (maxBin M binSize : Nat) (h : M < maxBin) (h' : maxBin ≤ 255) (hb : binSize ≤ M) :
    ∃ v ld, lapLoad maxBin binSize v = .ok ld ∧ M < ld := by
  refine ⟨(maxBin : Int), maxBin, ?_, h⟩
  have hm : min maxBin (maxBin : Int).toNat % 256 = maxBin := by
    rw [Int.toNat_natCast, Nat.min_self]; omega
  unfold lapLoad
  rw [if_neg (by omega), hm, if_neg (by omega)]

/-- C73: all stores to `insertBuffer` are inside, for every sequence of loads (a load is a `u8`). -/
theorem C73_insert_buffer (M : Nat) (hM : 0 < M) (loads : List Nat) (hl : ∀ l ∈ loads, l ≤ 255) (pos : Nat)
    (hp : pos ≤ M * 4096) : ∀ p ∈ insertPositions (M * 4096) loads pos, p < M * 4096 := by
  induction loads generalizing pos with
  | nil => intro p h; cases h
  | cons ld rest ih =>
    have h1 := hl ld (List.mem_cons_self ..)
    have h2 : 4096 ≤ M * 4096 := Nat.le_mul_of_pos_left _ hM
    intro p h
    unfold insertPositions at h
    simp only at h
    have hq : (if pos + ld > M * 4096 then 0 else pos) + ld ≤ M * 4096 := by split <;> omega
    rcases List.mem_append.mp h with h | h
    · obtain ⟨k, hk, rfl⟩ := List.mem_map.mp h
      have := List.mem_range.mp hk
      omega
    · exact ih (fun l h => hl l (List.mem_cons_of_mem _ h)) _ hq p h

example : insertPositions 5 [2, 2, 2] 0 = [0, 1, 2, 3, 0, 1] := by decide

/-! ### C74: reads of received masks -/

/-- C74: with masks of at least eight bytes no read is outside of the buffer. -/
theorem C74_inside_partial (c : Cfg) (sLoad : Nat → Nat) (ys rm : List Block) (bins : Nat → List Nat) (hT : 0 < c.T)
    (hov : c.B * c.T < 2 ^ 64) (hb : Holds c bins) (hl : ∀ b, b < c.B → sLoad b ≤ c.M) (hms : 8 ≤ c.ms)
    (es : List (Nat × Nat × Nat)) (buf : List Nat) (hbuf : buf.length * c.T < 2 ^ 64) :
    receive c sLoad ys rm bins es buf ≠ .ub := by
  obtain ⟨mx, h, _⟩ := receive_ok ys rm hT hov hb hl hms es buf hbuf
  rw [h]
  intro h
  cases h

/-- C74 is false of the code for shorter masks: the last row of every thread is read as a `u64`. -/
theorem C74_outside (c : Cfg) (sLoad : Nat → Nat) (ys rm : List Block) (bins : Nat → List Nat) (hT : 0 < c.T)
    (hms : c.ms < 8) (es : List (Nat × Nat × Nat)) (buf : List Nat) (h0 : 0 < buf.length)
    (hbuf : buf.length * c.T < 2 ^ 64) : receive c sLoad ys rm bins es buf = .ub := by
  unfold receive
  cases h : matrix c ((List.range c.T).flatMap (entries c sLoad ys rm bins)) with
  | ub => rfl
  | throw =>
    unfold matrix at h
    split at h <;> cases h
  | ok mx =>
    show (if _ then _ else _) = _
    rw [if_neg]
    intro ha
    rw [List.all_eq_true] at ha
    have hm : 0 ∈ (List.range c.T).flatMap (rowsOf c buf.length) := by
      rw [show (List.range c.T).flatMap (rowsOf c buf.length) = List.range buf.length from
        C31_scaled_ranges buf.length c.T hT hbuf]
      exact List.mem_range.mpr h0
    obtain ⟨t, ht, hr⟩ := List.mem_flatMap.mp hm
    have hpos := List.length_pos_of_mem hr
    have h1 := ha t ht
    unfold readsInside at h1
    rw [List.all_eq_true] at h1
    generalize (rowsOf c buf.length t).length = n at *
    have h2 := h1 (n - 1) (List.mem_range.mpr (by omega))
    simp only [decide_eq_true_eq] at h2
    have : (n - 1) * c.ms + c.ms = n * c.ms := by
      rw [← Nat.succ_mul]; congr 1; omega
    omega

/-- C74: masks of seven bytes. -/
example : receive { exCfg with ms := 7 } (fun _ => 2) [4, 3] [0, 0] exBins [] [1] = .ub :=
  C74_outside { exCfg with ms := 7 } _ _ _ _ (by decide) (by decide) _ _ (by decide) (by decide)

end Verif.Grr18
