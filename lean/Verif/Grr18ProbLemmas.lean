import Verif.Grr18Props
import Verif.Rr17aProbSpec
/-
Lemmas for C140: the masks of a run of GRR18 as functions of the OT values.
-/
namespace Verif.Grr18
open Verif Part Rr17

section
variable {c : Cfg} {hash : Option (Block → Block)} {X Y : List Block} {sbins rbins : Nat → List Nat} {sLoad rOwn : Nat → Nat} {s : Sched}

/-- A row: thread, bin, input, column. -/
abbrev Row := Nat × Nat × Nat × Nat

/-- The loads of the receiver. -/
def rLoadOf (sLoad rOwn : Nat → Nat) (b : Nat) : Nat := max (rOwn b) (sLoad b)

/-- The OT that belongs to the column of a row. -/
def colPt (c : Cfg) (d : Bool) (load : Nat → Nat) (xs : List Block) (r : Row) : OtPt :=
  (d, r.1, off c load r.1 r.2.1 + r.2.2.2, xs.getD r.2.2.1 0)

/-- The OT in which the input of a row was encoded. -/
def ownPt (c : Cfg) (d : Bool) (load : Nat → Nat) (xs : List Block) (a : Nat → Nat → Nat → Nat) (r : Row) : OtPt :=
  (d, r.1, off c load r.1 r.2.1 + a r.1 r.2.1 r.2.2.1, xs.getD r.2.2.1 0)

/-- The rows of the sender. -/
def sRows (c : Cfg) (sbins : Nat → List Nat) (sLoad rOwn : Nat → Nat) (s : Sched) : List Row :=
  rowData c (rLoadOf sLoad rOwn) sbins s.order

/-- The rows of the receiver. -/
def rRows (c : Cfg) (rbins : Nat → List Nat) (sLoad : Nat → Nat) : List Row := rowData c sLoad rbins (List.range c.T)

/-- The conditions on a run say nothing about the OT values. -/
theorem Run.withOt (h : Run c hash X Y sbins rbins sLoad rOwn s) (u : OtPt → Block) :
    Run (Rr17.withOt c u) hash X Y sbins rbins sLoad rOwn s :=
  ⟨h.T, h.B, h.ov, h.ms, h.ms', ⟨h.S.len, h.S.mem, h.S.cap⟩, ⟨h.R.len, h.R.mem, h.R.cap⟩, h.sl, h.rl, h.sM, h.sp, h.rp, h.ord, h.wr, h.ins, h.ex, h.tot⟩

/-- `recvMasks`: the number of the OT does not depend on the values. -/
theorem otMasks_slot (d : Bool) {load : Nat → Nat} {bins perms : Nat → List Nat}
    (xs : List Block) (hT : 0 < c.T) (hov : c.B * c.T < 2 ^ 64) (hb : Holds c bins)
    (hl : ∀ b, b < c.B → (bins b).length ≤ load b)
    (hp : ∀ b, b < c.B → (perms b).Perm (List.range (load b))) {t b idx : Nat} (ht : t < c.T)
    (hbt : b ∈ c.binsOf t) (hi : idx ∈ bins b) :
    ∃ a, a < load b ∧ ∀ u : OtPt → Block, (otMasks (Rr17.withOt c u) (fun t k x => u (d, t, k, x)) load xs bins perms).getD idx 0 =
      u (d, t, off c load t b + a, xs.getD idx 0) := by
  have hnd : ∀ u : OtPt → Block, (((List.range c.T).flatMap (threadOts (Rr17.withOt c u) (fun t k x => u (d, t, k, x)) load xs bins perms)).map (·.1)).Perm
      (List.range c.N) := by
    intro u
    refine List.Perm.trans ?_ (holds_threads hT hov hb)
    rw [List.map_flatMap]
    apply flatMap_perm'
    intro t ht
    unfold threadOts
    rw [List.map_flatMap]
    apply flatMap_perm'
    intro b hbt
    have := binsOf_lt hT hov (List.mem_range.mp ht) hbt
    rw [map_fst_filterMap (sendOts (bins b) (perms b)) fun o idx =>
      u (d, t, off (Rr17.withOt c u) load t b + o.1, xs.getD idx 0)]
    exact sendOts_inputs (hp b this) (hl b this)
  have hbB := binsOf_lt hT hov ht hbt
  have hm : idx ∈ (sendOts (bins b) (perms b)).filterMap (·.2) :=
    (sendOts_inputs (hp b hbB) (hl b hbB)).mem_iff.mpr hi
  obtain ⟨o, ho, hoi⟩ := List.mem_filterMap.mp hm
  have hoM : o.1 < load b := by
    have : o.1 ∈ (sendOts (bins b) (perms b)).map (·.1) := List.mem_map.mpr ⟨o, ho, rfl⟩
    rw [sendOts_nums, (hp b hbB).length_eq, List.length_range] at this
    exact List.mem_range.mp this
  refine ⟨o.1, hoM, fun u => ?_⟩
  exact stores_get _ _ 0 ((hnd u).nodup_iff.mpr List.nodup_range)
    (fun w hw => by
      rw [List.length_replicate]
      exact List.mem_range.mp ((hnd u).mem_iff.mp (List.mem_map.mpr ⟨w, hw, rfl⟩)))
    (w := (idx, u (d, t, off c load t b + o.1, xs.getD idx 0)))
    (List.mem_flatMap.mpr ⟨t, List.mem_range.mpr ht, List.mem_flatMap.mpr ⟨b, hbt,
      List.mem_filterMap.mpr ⟨o, ho, by rw [hoi]; rfl⟩⟩⟩)

theorem slots (d : Bool) {load : Nat → Nat} {bins perms : Nat → List Nat}
    (xs : List Block) (hT : 0 < c.T) (hov : c.B * c.T < 2 ^ 64) (hb : Holds c bins)
    (hl : ∀ b, b < c.B → (bins b).length ≤ load b)
    (hp : ∀ b, b < c.B → (perms b).Perm (List.range (load b))) :
    ∃ a : Nat → Nat → Nat → Nat, ∀ t b idx, t < c.T → b ∈ c.binsOf t → idx ∈ bins b → a t b idx < load b ∧
      ∀ u : OtPt → Block, (otMasks (Rr17.withOt c u) (fun t k x => u (d, t, k, x)) load xs bins perms).getD idx 0 =
        u (d, t, off c load t b + a t b idx, xs.getD idx 0) := by
  have h1 : ∀ p : Nat × Nat × Nat, ∃ a, p.1 < c.T → p.2.1 ∈ c.binsOf p.1 → p.2.2 ∈ bins p.2.1 → a < load p.2.1 ∧
      ∀ u : OtPt → Block, (otMasks (Rr17.withOt c u) (fun t k x => u (d, t, k, x)) load xs bins perms).getD p.2.2 0 =
        u (d, p.1, off c load p.1 p.2.1 + a, xs.getD p.2.2 0) := by
    rintro ⟨t, b, idx⟩
    by_cases h : t < c.T ∧ b ∈ c.binsOf t ∧ idx ∈ bins b
    · obtain ⟨a, h1, h2⟩ := otMasks_slot d xs hT hov hb hl hp h.1 h.2.1 h.2.2
      exact ⟨a, fun _ _ _ => ⟨h1, h2⟩⟩
    · exact ⟨0, fun h1 h2 h3 => absurd ⟨h1, h2, h3⟩ h⟩
  obtain ⟨a, ha⟩ := Classical.axiomOfChoice h1
  exact ⟨fun t b idx => a (t, b, idx), fun t b idx => ha (t, b, idx)⟩

theorem rowData_perm (load : Nat → Nat) (bins : Nat → List Nat) {o o' : List Nat} (h : o.Perm o') :
    (rowData c load bins o).Perm (rowData c load bins o') := h.flatMap_right _

theorem rowData_length (load : Nat → Nat) (bins : Nat → List Nat) {o : List Nat} (h : o.Perm (List.range c.T)) :
    (rowData c load bins o).length = realCount c load bins := by
  have := allMasks_length c load [] [] bins o h
  rw [allMasks_rowData, List.length_map] at this
  exact this

/-- All masks of a run. -/
theorem run_rows (h : Run c hash X Y sbins rbins sLoad rOwn s) :
    ∃ aS aR : Nat → Nat → Nat → Nat,
      (∀ r ∈ sRows c sbins sLoad rOwn s, aS r.1 r.2.1 r.2.2.1 < sLoad r.2.1) ∧
      (∀ r ∈ rRows c rbins sLoad, aR r.1 r.2.1 r.2.2.1 < rLoadOf sLoad rOwn r.2.1) ∧
      ∀ u : OtPt → Block, ∃ buf mx : List Nat,
        online (Rr17.withOt c u) (otInputs hash c X) (otInputs hash c Y) sbins rbins sLoad rOwn s =
          .ok ((List.range buf.length).filterMap fun r =>
            lookup c (s.inserts (runEntries (Rr17.withOt c u) hash Y rbins sLoad rOwn s)) mx (buf.getD r 0)) ∧
        (∀ e ∈ runEntries (Rr17.withOt c u) hash Y rbins sLoad rOwn s, mx.getD e.2.1 0 = e.2.2) ∧
        buf.length = (sRows c sbins sLoad rOwn s).length + s.extra.toNat ∧
        (∀ k (hk : k < (sRows c sbins sLoad rOwn s).length), buf.getD k 0 =
          cut c.ms (u (ownPt c false sLoad (otInputs hash c X) aS (sRows c sbins sLoad rOwn s)[k]) ^^^
            u (colPt c true (rLoadOf sLoad rOwn) (otInputs hash c X) (sRows c sbins sLoad rOwn s)[k]))) ∧
        (∀ k, (sRows c sbins sLoad rOwn s).length ≤ k → k < buf.length → buf.getD k 0 = s.junk k) ∧
        runEntries (Rr17.withOt c u) hash Y rbins sLoad rOwn s = (rRows c rbins sLoad).map fun r =>
          (cut c.keySize (u (ownPt c true (rLoadOf sLoad rOwn) (otInputs hash c Y) aR r) ^^^ u (colPt c false sLoad (otInputs hash c Y) r)),
            r.2.2.1 * c.M + r.2.2.2,
            cut c.ms (u (ownPt c true (rLoadOf sLoad rOwn) (otInputs hash c Y) aR r) ^^^ u (colPt c false sLoad (otInputs hash c Y) r))) := by
  obtain ⟨aS, haS⟩ := slots false (otInputs hash c X) h.T h.ov (h.S.holds h.B) h.sl h.sp
  obtain ⟨aR, haR⟩ := slots (load := rLoadOf sLoad rOwn) true (otInputs hash c Y) h.T h.ov (h.R.holds h.B) h.rl h.rp
  refine ⟨aS, aR, ?_, ?_, ?_⟩
  · intro r hr
    obtain ⟨h1, h2, h3, _⟩ := mem_rowData h.ord hr
    exact (haS _ _ _ h1 h2 h3).1
  · intro r hr
    obtain ⟨h1, h2, h3, _⟩ := mem_rowData (List.Perm.refl _) hr
    exact (haR _ _ _ h1 h2 h3).1
  intro u
  obtain ⟨buf, mx, h1, h2, h3, h4, h5⟩ := run_eq (h.withOt u)
  have hlen : (sRows c sbins sLoad rOwn s).length = realCount c (rLoadOf sLoad rOwn) sbins := rowData_length _ _ h.ord
  refine ⟨buf, mx, h1, h2, ?_, ?_, ?_, ?_⟩
  · rw [hlen]; exact h3
  · intro k hk
    have hk' := h4 k (by rw [hlen] at hk; exact hk)
    rw [hk', allMasks_rowData]
    have e : rowData (Rr17.withOt c u) (fun b => max (rOwn b) (sLoad b)) sbins s.order = sRows c sbins sLoad rOwn s := rfl
    rw [e, Kkrt.getD_eq (by simpa using hk), List.getElem_map]
    obtain ⟨q1, q2, q3, _⟩ := mem_rowData h.ord (List.getElem_mem hk)
    show cut c.ms (u (colPt c true (rLoadOf sLoad rOwn) (otInputs hash c X) (sRows c sbins sLoad rOwn s)[k]) ^^^
      (otMasks (Rr17.withOt c u) (fun t k x => u (false, t, k, x)) sLoad (otInputs hash c X) sbins s.sPerm).getD (sRows c sbins sLoad rOwn s)[k].2.2.1 0) = _
    rw [(haS _ _ _ q1 q2 q3).2 u, BitVec.xor_comm]
    rfl
  · intro k hk hk'
    exact h5 k (by rw [hlen] at hk; exact hk) hk'
  · unfold runEntries rRows rowData
    rw [List.map_flatMap]
    apply flatMap_congr'
    intro t ht
    rw [List.map_map]
    unfold entries sendRows
    rw [List.map_flatMap]
    apply flatMap_congr'
    intro b hb
    rw [List.map_flatMap]
    apply flatMap_congr'
    intro idx hi
    rw [List.map_map]
    apply List.map_congr_left
    intro l _
    have e := (haR t b idx (List.mem_range.mp ht) hb hi).2 u
    have m : (Rr17.withOt c u).F1 t (off (Rr17.withOt c u) sLoad t b + l) ((otInputs hash (Rr17.withOt c u) Y).getD idx 0) ^^^
        (otMasks (Rr17.withOt c u) (Rr17.withOt c u).F2 (fun b => max (rOwn b) (sLoad b)) (otInputs hash (Rr17.withOt c u) Y) rbins s.rPerm).getD idx 0 =
        u (ownPt c true (rLoadOf sLoad rOwn) (otInputs hash c Y) aR (t, b, idx, l)) ^^^ u (colPt c false sLoad (otInputs hash c Y) (t, b, idx, l)) := by
      rw [BitVec.xor_comm]
      exact congrArg (· ^^^ _) e
    simp only [m]
    rfl

/-- Rows with the same OT have the same bin, the same OT input and the same number in the bin. -/
theorem pt_eq {d d' : Bool} {load : Nat → Nat} {xs ys : List Block} {t b k t' b' k' x y : Nat} (hb : b ∈ c.binsOf t) (hb' : b' ∈ c.binsOf t')
    (hk : k < load b) (hk' : k' < load b')
    (e : ((d, t, off c load t b + k, xs.getD x 0) : OtPt) = (d', t', off c load t' b' + k', ys.getD y 0)) :
    t = t' ∧ b = b' ∧ k = k' ∧ xs.getD x 0 = ys.getD y 0 := by
  simp only [Prod.mk.injEq] at e
  obtain ⟨_, e2, e3, e4⟩ := e
  subst e2
  obtain ⟨e5, e6⟩ := off_inj c load hb hb' hk hk' e3
  exact ⟨rfl, e5, e6, e4⟩

end

end Verif.Grr18
