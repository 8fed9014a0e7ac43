import Verif.Grr18Props
import Verif.CollShiftLemmas
import Verif.XorLemmas
import Verif.DrrnLemmas
/-
Property C148: what the receiver of GRR18 learns besides the sizes of the sender's bins.
-/
namespace Verif.Grr18
open Verif Rr17 MeasureTheory Coll
open scoped ENNReal

/-- The configuration with random values of the OTs in which the PSI receiver is OT receiver; those of the other direction, which the PSI receiver knows
entirely, are fixed. A point is the channel, the number of the OT and the input. -/
def withF2 (c : Cfg) (g : Nat × Nat × Block → Nat) : Cfg := { c with F2 := fun t k x => BitVec.ofNat 128 (g (t, k, x)) }

/-- What a receiver sees that got the OT values at the points of `A`: the sender's masks, the extra rows included, and these values. -/
def Sees (c : Cfg) (xs : List Block) (bins : Nat → List Nat) (sLoad rOwn : Nat → Nat) (s : Sched) (A : List (Nat × Nat × Block))
    (g : Nat × Nat × Block → Nat) (m : List Nat) (va : Nat × Nat × Block → Nat) : Prop :=
  sendBuffer (withF2 c g) (fun b => max (rOwn b) (sLoad b)) bins s.extra s.junk
      (s.writes (sendWrites (withF2 c g) (fun b => max (rOwn b) (sLoad b)) xs (otMasks c c.F1 sLoad xs bins s.sPerm) bins s.order)) = .ok m ∧
    ∀ a ∈ A, g a = va a

/-- The sender's side of a run: all inputs are in bins, no bin larger than its load, no two inputs of a bin with the same OT input. -/
structure Sender (c : Cfg) (xs : List Block) (bins : Nat → List Nat) (sLoad : Nat → Nat) (s : Sched) : Prop where
  holds : ((List.range c.B).flatMap bins).Perm (List.range c.N)
  cap : ∀ b, b < c.B → (bins b).length ≤ sLoad b
  distinct : ∀ b, b < c.B → ((bins b).map fun i => xs.getD i 0).Nodup
  perm : ∀ b, b < c.B → (s.sPerm b).Perm (List.range (sLoad b))
  ord : s.order.Perm (List.range c.T)
  wr : ∀ l, (s.writes l).Perm l
  ex : 0 ≤ s.extra

/-- The receiver has no OT value of input `i`. -/
def Unknown (c : Cfg) (xs : List Block) (bins : Nat → List Nat) (rLoad : Nat → Nat) (A : List (Nat × Nat × Block)) (i : Nat) : Prop :=
  ∀ t b, t < c.T → b ∈ c.binsOf t → i ∈ bins b → ∀ l, l < rLoad b → (t, off c rLoad t b + l, xs.getD i 0) ∉ A

section
variable {c : Cfg} {xs xs' : List Block} {bins : Nat → List Nat} {sLoad rOwn : Nat → Nat} {s : Sched}

/-- The value of the OT in which the sender is OT receiver depends on the input only. -/
theorem otMasks_same (F : Nat → Nat → Block → Block) {load : Nat → Nat} {perms : Nat → List Nat} (hT : 0 < c.T) (hov : c.B * c.T < 2 ^ 64)
    (hb : Holds c bins) (hl : ∀ b, b < c.B → (bins b).length ≤ load b)
    (hp : ∀ b, b < c.B → (perms b).Perm (List.range (load b))) {t b i : Nat} (ht : t < c.T) (hbt : b ∈ c.binsOf t) (hi : i ∈ bins b)
    (e : xs.getD i 0 = xs'.getD i 0) :
    (otMasks c F load xs bins perms).getD i 0 = (otMasks c F load xs' bins perms).getD i 0 := by
  have hbB := binsOf_lt hT hov ht hbt
  have hm : i ∈ (sendOts (bins b) (perms b)).filterMap (·.2) :=
    (sendOts_inputs (hp b hbB) (hl b hbB)).mem_iff.mpr hi
  obtain ⟨o, ho, hoi⟩ := List.mem_filterMap.mp hm
  have key : ∀ xs : List Block, (otMasks c F load xs bins perms).getD i 0 = F t (off c load t b + o.1) (xs.getD i 0) := by
    intro xs
    have hnd : (((List.range c.T).flatMap (threadOts c F load xs bins perms)).map (·.1)).Perm (List.range c.N) := by
      refine List.Perm.trans ?_ (holds_threads hT hov hb)
      rw [List.map_flatMap]
      apply flatMap_perm'
      intro t ht
      unfold threadOts
      rw [List.map_flatMap]
      apply flatMap_perm'
      intro b hbt
      have := binsOf_lt hT hov (List.mem_range.mp ht) hbt
      rw [map_fst_filterMap (sendOts (bins b) (perms b)) fun o idx =>
        F t (off c load t b + o.1) (xs.getD idx 0)]
      exact sendOts_inputs (hp b this) (hl b this)
    exact stores_get _ _ 0 (hnd.nodup_iff.mpr List.nodup_range)
      (fun w hw => by
        rw [List.length_replicate]
        exact List.mem_range.mp (hnd.mem_iff.mp (List.mem_map.mpr ⟨w, hw, rfl⟩)))
      (w := (i, F t (off c load t b + o.1) (xs.getD i 0)))
      (List.mem_flatMap.mpr ⟨t, List.mem_range.mpr ht, List.mem_flatMap.mpr ⟨b, hbt,
        List.mem_filterMap.mpr ⟨o, ho, by rw [hoi]; rfl⟩⟩⟩)
  rw [key, key, e]

/-- The mask buffer, row by row. -/
theorem buffer_iff (h : Sender c xs bins sLoad s) (g : Nat × Nat × Block → Nat) (m : List Nat) (sm : List Block) (rLoad : Nat → Nat) :
    sendBuffer (withF2 c g) rLoad bins s.extra s.junk (s.writes (sendWrites (withF2 c g) rLoad xs sm bins s.order)) = .ok m ↔
      m.length = realCount c rLoad bins + s.extra.toNat ∧
      (∀ r d, (rowData c rLoad bins s.order)[r]? = some d →
        m.getD r 0 = cut c.ms (BitVec.ofNat 128 (g (d.1, off c rLoad d.1 d.2.1 + d.2.2.2, xs.getD d.2.2.1 0)) ^^^ sm.getD d.2.2.1 0)) ∧
      ∀ r, realCount c rLoad bins ≤ r → r < m.length → m.getD r 0 = s.junk r := by
  obtain ⟨buf, h1, h2, h3, h4⟩ := sendBuffer_ok (c := withF2 c g) rLoad xs sm bins h.ord h.ex s.junk (h.wr _)
  have h2 : buf.length = realCount c rLoad bins + s.extra.toNat := h2
  have h3 : ∀ i, i < realCount c rLoad bins → buf.getD i 0 = (allMasks (withF2 c g) rLoad xs sm bins s.order).getD i 0 := h3
  have h4 : ∀ i, realCount c rLoad bins ≤ i → i < buf.length → buf.getD i 0 = s.junk i := h4
  have hlen : (rowData c rLoad bins s.order).length = realCount c rLoad bins := by
    have := allMasks_length c rLoad [] [] bins s.order h.ord
    rw [allMasks_rowData, List.length_map] at this
    exact this
  have h5 : ∀ r d, (rowData c rLoad bins s.order)[r]? = some d →
      buf.getD r 0 = cut c.ms (BitVec.ofNat 128 (g (d.1, off c rLoad d.1 d.2.1 + d.2.2.2, xs.getD d.2.2.1 0)) ^^^ sm.getD d.2.2.1 0) := by
    intro r d hd
    obtain ⟨hr, he⟩ := List.getElem?_eq_some_iff.mp hd
    rw [h3 r (by omega), allMasks_rowData]
    have hr' : r < ((rowData (withF2 c g) rLoad bins s.order).map fun d => sendMask (withF2 c g) rLoad xs sm d.1 d.2.1 d.2.2.1 d.2.2.2).length := by
      rw [List.length_map]; exact hr
    rw [Kkrt.getD_eq hr', List.getElem_map]
    have : (rowData (withF2 c g) rLoad bins s.order)[r]'(by rw [List.length_map] at hr'; exact hr') = d := he
    rw [this]
    rfl
  rw [h1]
  constructor
  · intro e
    injection e with e
    subst e
    exact ⟨h2, h5, h4⟩
  · rintro ⟨e1, e2, e3⟩
    congr 1
    apply List.ext_getElem (by omega)
    intro r hr hr'
    rw [← Kkrt.getD_eq hr (d := 0), ← Kkrt.getD_eq hr' (d := 0)]
    by_cases hlt : r < realCount c rLoad bins
    · have hd : (rowData c rLoad bins s.order)[r]? = some ((rowData c rLoad bins s.order)[r]'(by omega)) := List.getElem?_eq_getElem _
      rw [h5 r _ hd, e2 r _ hd]
    · rw [h4 r (by omega) hr, e3 r (by omega) hr']
end

section
variable {Ω : Type} [MeasurableSpace Ω] {μ : Measure Ω} {g : Ω → Nat × Nat × Block → Nat}

/-- C148: for random OT values, whatever OT values the receiver has, its view has the same distribution for two lists of the sender whose elements are in the
same bins and differ only where the receiver has no OT value. The full property has no condition that the elements are in the same bins (see C123) and
that the elements of a bin have different OT inputs. -/
theorem C148_view_partial (hu : Uniform μ Set.univ (2 ^ 128) g) (c : Cfg) (hT : 0 < c.T) (hov : c.B * c.T < 2 ^ 64) (xs xs' : List Block)
    (bins : Nat → List Nat) (sLoad rOwn : Nat → Nat) (s : Sched) (h : Sender c xs bins sLoad s) (h' : Sender c xs' bins sLoad s)
    (A : List (Nat × Nat × Block))
    (hsame : ∀ i, i < c.N → xs.getD i 0 = xs'.getD i 0 ∨
      (Unknown c xs bins (fun b => max (rOwn b) (sLoad b)) A i ∧ Unknown c xs' bins (fun b => max (rOwn b) (sLoad b)) A i))
    (m : List Nat) (va : Nat × Nat × Block → Nat) :
    μ {ω | Sees c xs bins sLoad rOwn s A (g ω) m va} = μ {ω | Sees c xs' bins sLoad rOwn s A (g ω) m va} := by
  classical
  let rLoad : Nat → Nat := fun b => max (rOwn b) (sLoad b)
  have : Finite {a // a ∈ A} := List.finite_toSet A
  have : Finite {d // d ∈ rowData c rLoad bins s.order} := List.finite_toSet _
  let K : Nat → Prop := fun i => xs.getD i 0 = xs'.getD i 0
  let pts : List Block → {a // a ∈ A} ⊕ {d // d ∈ rowData c rLoad bins s.order} → Nat × Nat × Block := fun xs p => match p with
    | .inl a => a.1
    | .inr d => (d.1.1, off c rLoad d.1.1 d.1.2.1 + d.1.2.2.2, xs.getD d.1.2.2.1 0)
  let sm := otMasks c c.F1 sLoad xs bins s.sPerm
  let sm' := otMasks c c.F1 sLoad xs' bins s.sPerm
  let sh : List Block → {a // a ∈ A} ⊕ {d // d ∈ rowData c rLoad bins s.order} → Nat := fun rm p => match p with
    | .inl _ => 0
    | .inr d => if K d.1.2.2.1 then 0 else (rm.getD d.1.2.2.1 0).toNat
  let P : ({a // a ∈ A} ⊕ {d // d ∈ rowData c rLoad bins s.order} → Nat) → Prop := fun v =>
    (m.length = realCount c rLoad bins + s.extra.toNat ∧
      (∀ r d (hd : (rowData c rLoad bins s.order)[r]? = some d),
        m.getD r 0 = cut c.ms (BitVec.ofNat 128 (v (.inr ⟨d, List.mem_of_getElem? hd⟩)) ^^^ if K d.2.2.1 then sm.getD d.2.2.1 0 else 0)) ∧
      ∀ r, realCount c rLoad bins ≤ r → r < m.length → m.getD r 0 = s.junk r) ∧ ∀ a, v (.inl a) = va a
  have hval : ∀ (n : Nat) (k : Block), BitVec.ofNat 128 (n ^^^ k.toNat) = BitVec.ofNat 128 n ^^^ k := by
    intro n k
    apply BitVec.eq_of_toNat_eq
    rw [BitVec.toNat_xor, BitVec.toNat_ofNat, BitVec.toNat_ofNat, Nat.xor_mod_two_pow, Nat.mod_eq_of_lt k.isLt]
  have hrow : ∀ d ∈ rowData c rLoad bins s.order, d.1 < c.T ∧ d.2.1 ∈ c.binsOf d.1 ∧ d.2.2.1 ∈ bins d.2.1 ∧ d.2.2.2 < rLoad d.2.1 :=
    fun d hd => mem_rowData h.ord hd
  have hN : ∀ d ∈ rowData c rLoad bins s.order, d.2.2.1 < c.N := by
    intro d hd
    obtain ⟨h1, h2, h3, _⟩ := hrow d hd
    have : d.2.2.1 ∈ (List.range c.B).flatMap bins := List.mem_flatMap.mpr ⟨_, List.mem_range.mpr (binsOf_lt hT hov h1 h2), h3⟩
    exact List.mem_range.mp (h.holds.mem_iff.mp this)
  have hgen : ∀ (zs : List Block) (rm : List Block), Sender c zs bins sLoad s →
      (∀ d ∈ rowData c rLoad bins s.order, K d.2.2.1 → rm.getD d.2.2.1 0 = sm.getD d.2.2.1 0) → rm = otMasks c c.F1 sLoad zs bins s.sPerm → ∀ ω,
      Sees c zs bins sLoad rOwn s A (g ω) m va ↔ P fun p => g ω (pts zs p) ^^^ sh rm p := by
    intro zs rm hz hrm erm ω
    unfold Sees
    rw [← erm]
    refine and_congr ((buffer_iff hz (g ω) m rm rLoad).trans (and_congr Iff.rfl (and_congr ?_ Iff.rfl))) ?_
    · refine forall_congr' fun r => forall_congr' fun d => forall_congr' fun hd => ?_
      have e : BitVec.ofNat 128 (g ω (d.1, off c rLoad d.1 d.2.1 + d.2.2.2, zs.getD d.2.2.1 0)) ^^^ rm.getD d.2.2.1 0 =
          BitVec.ofNat 128 (g ω (pts zs (.inr ⟨d, List.mem_of_getElem? hd⟩)) ^^^ sh rm (.inr ⟨d, List.mem_of_getElem? hd⟩)) ^^^
            if K d.2.2.1 then sm.getD d.2.2.1 0 else 0 := by
        simp only [pts, sh]
        by_cases hk : K d.2.2.1
        · rw [if_pos hk, if_pos hk, Nat.xor_zero, hrm d (List.mem_of_getElem? hd) hk]
        · rw [if_neg hk, if_neg hk, hval]
          exact (BitVec.xor_zero).symm
      rw [e]
    · simp only [pts, sh, Nat.xor_zero]
      exact ⟨fun h a => h a.1 a.2, fun h a ha => h ⟨a, ha⟩⟩
  have hsm : ∀ d ∈ rowData c rLoad bins s.order, K d.2.2.1 → sm'.getD d.2.2.1 0 = sm.getD d.2.2.1 0 := by
    intro d hd hk
    obtain ⟨h1, h2, h3, _⟩ := hrow d hd
    exact (otMasks_same c.F1 hT hov h.holds h.cap h.perm h1 h2 h3 hk).symm
  simp only [hgen xs sm h (fun _ _ _ => rfl) rfl, hgen xs' sm' h' hsm rfl]
  have hU : ∀ (d : {d // d ∈ rowData c rLoad bins s.order}) (a : {a // a ∈ A}), ¬ K d.1.2.2.1 →
      a.1 ≠ pts xs (.inr d) ∧ a.1 ≠ pts xs' (.inr d) := by
    intro d a hk
    obtain ⟨h1, h2, h3, h4⟩ := hrow d.1 d.2
    rcases hsame _ (hN d.1 d.2) with e | ⟨u1, u2⟩
    · exact absurd e hk
    · refine ⟨fun e => u1 _ _ h1 h2 h3 _ h4 ?_, fun e => u2 _ _ h1 h2 h3 _ h4 ?_⟩
      · have e : a.1 = (d.1.1, off c rLoad d.1.1 d.1.2.1 + d.1.2.2.2, xs.getD d.1.2.2.1 0) := e
        rw [← e]; exact a.2
      · have e : a.1 = (d.1.1, off c rLoad d.1.1 d.1.2.1 + d.1.2.2.2, xs'.getD d.1.2.2.1 0) := e
        rw [← e]; exact a.2
  have hA : ∀ (d : {d // d ∈ rowData c rLoad bins s.order}) (a : {a // a ∈ A}), a.1 = pts xs (.inr d) ↔ a.1 = pts xs' (.inr d) := by
    intro d a
    by_cases hk : K d.1.2.2.1
    · have hk : xs.getD d.1.2.2.1 0 = xs'.getD d.1.2.2.1 0 := hk
      simp only [pts, hk]
    · exact iff_of_false (hU d a hk).1 (hU d a hk).2
  have hI : ∀ (zs : List Block), Sender c zs bins sLoad s → ∀ d d' : {d // d ∈ rowData c rLoad bins s.order},
      pts zs (.inr d) = pts zs (.inr d') ↔ d = d' := by
    intro zs hz d d'
    constructor
    · intro e
      obtain ⟨h1, h2, h3, h4⟩ := hrow d.1 d.2
      obtain ⟨h1', h2', h3', h4'⟩ := hrow d'.1 d'.2
      simp only [pts, Prod.mk.injEq] at e
      obtain ⟨e1, e2, e3⟩ := e
      rw [← e1] at h2' e2
      obtain ⟨e4, e5⟩ := off_inj c rLoad h2 h2' h4 h4' e2
      rw [← e4] at h3'
      have e6 := List.inj_on_of_nodup_map (hz.distinct _ (binsOf_lt hT hov h1 h2)) h3 h3' e3
      exact Subtype.ext (Prod.ext e1 (Prod.ext e4 (Prod.ext e6 e5)))
    · rintro rfl; rfl
  have hshlt : ∀ (rm : List Block) p, sh rm p < 2 ^ 128 := by
    intro rm p
    rcases p with a | d
    · show 0 < 2 ^ 128
      positivity
    · simp only [sh]
      split
      · positivity
      · exact (rm.getD _ 0).isLt
  refine hu.samePatternXor (pts xs) (pts xs') ?_ (sh sm) (sh sm') (hshlt sm) (hshlt sm') ?_ ?_ P
  · rintro (a | d) (b | d')
    · exact Iff.rfl
    · exact hA d' a
    · exact (eq_comm.trans (hA d b)).trans eq_comm
    · rw [hI xs h, hI xs' h']
  · rintro (a | d) (b | d') e
    · rfl
    · by_cases hk : K d'.1.2.2.1
      · simp only [sh, if_pos hk]
      · exact absurd e (hU d' a hk).1
    · by_cases hk : K d.1.2.2.1
      · simp only [sh, if_pos hk]
      · exact absurd e.symm (hU d b hk).1
    · rw [(hI xs h _ _).mp e]
  · rintro (a | d) (b | d') e
    · rfl
    · by_cases hk : K d'.1.2.2.1
      · simp only [sh, if_pos hk]
      · exact absurd e (hU d' a hk).2
    · by_cases hk : K d.1.2.2.1
      · simp only [sh, if_pos hk]
      · exact absurd e.symm (hU d b hk).2
    · rw [(hI xs' h' _ _).mp e]
end

/-- What an honest receiver asks: OTs of the bins of its inputs, at its inputs. -/
def Asks (c : Cfg) (ys : List Block) (rbins : Nat → List Nat) (rLoad : Nat → Nat) (A : List (Nat × Nat × Block)) : Prop :=
  ∀ a ∈ A, ∃ j t b k, t < c.T ∧ b ∈ c.binsOf t ∧ j ∈ rbins b ∧ k < rLoad b ∧ a = (t, off c rLoad t b + k, ys.getD j 0)

/-- C148, the receiver of the code: what it stores are OT values as in `Asks`. -/
theorem C148_asks (c : Cfg) (hT : 0 < c.T) (hov : c.B * c.T < 2 ^ 64) (ys : List Block) (rbins perms : Nat → List Nat) (rLoad : Nat → Nat)
    (hl : ∀ b, b < c.B → (rbins b).length ≤ rLoad b) (hp : ∀ b, b < c.B → (perms b).Perm (List.range (rLoad b))) {t j : Nat} (ht : t < c.T)
    {v : Block} (hm : (j, v) ∈ threadOts c c.F2 rLoad ys rbins perms t) :
    ∃ b k, b ∈ c.binsOf t ∧ j ∈ rbins b ∧ k < rLoad b ∧ v = c.F2 t (off c rLoad t b + k) (ys.getD j 0) := by
  obtain ⟨b, hb, he⟩ := List.mem_flatMap.mp hm
  obtain ⟨o, ho, he⟩ := List.mem_filterMap.mp he
  have hbB := binsOf_lt hT hov ht hb
  cases hoj : o.2 with
  | none => rw [hoj] at he; cases he
  | some j' =>
    rw [hoj] at he
    simp only [Option.map_some, Option.some.injEq, Prod.mk.injEq] at he
    obtain ⟨rfl, rfl⟩ := he
    have h1 : j' ∈ (sendOts (rbins b) (perms b)).filterMap (·.2) := List.mem_filterMap.mpr ⟨o, ho, hoj⟩
    have h2 : o.1 ∈ (sendOts (rbins b) (perms b)).map (·.1) := List.mem_map.mpr ⟨o, ho, rfl⟩
    rw [sendOts_nums, (hp b hbB).length_eq, List.length_range] at h2
    exact ⟨b, o.1, hb, (sendOts_inputs (hp b hbB) (hl b hbB)).mem_iff.mp h1, List.mem_range.mp h2, rfl⟩

/-- C148, honest receiver: an element of the sender that is not in a bin of the receiver with the same OT input is unknown to it. -/
theorem C148_unknown (c : Cfg) (xs ys : List Block) (bins rbins : Nat → List Nat) (rLoad : Nat → Nat)
    (A : List (Nat × Nat × Block)) (hA : Asks c ys rbins rLoad A) (i : Nat)
    (hn : ∀ b j, i ∈ bins b → j ∈ rbins b → xs.getD i 0 ≠ ys.getD j 0) : Unknown c xs bins rLoad A i := by
  intro t b ht hb hi l hl hm
  obtain ⟨j, t', b', k, _, hb', hj, hk, e⟩ := hA _ hm
  simp only [Prod.mk.injEq] at e
  obtain ⟨rfl, e2, e3⟩ := e
  obtain ⟨rfl, _⟩ := off_inj c rLoad hb hb' hl hk e2
  exact hn b j hi hj e3

/-- Random values as assumed exist. -/
example : ∃ (Ω : Type) (_ : MeasurableSpace Ω) (μ : Measure Ω) (g : Ω → Nat × Nat × Block → Nat), Uniform μ Set.univ (2 ^ 128) g := by
  obtain ⟨μ, hμ⟩ := Coll.exists_uniform_any (Nat × Nat × Block) (2 ^ 128) (by positivity)
  exact ⟨_, _, μ, _, hμ⟩

/-- Runs as assumed: the sender has 4 in bin 0 and 9 or 7 in bin 1; the receiver asks OT 1 of bin 0 at 4 and OT 0 of bin 1 at 3. -/
example : let c : Cfg := ⟨2, 2, 2, 1, 8, fun _ _ x => x, fun _ _ x => x⟩
    let xs : List Block := [4, 9]
    let xs' : List Block := [4, 7]
    let bins : Nat → List Nat := fun b => [[0], [1]].getD b []
    let A : List (Nat × Nat × Block) := [(0, 1, 4), (0, 2, 3)]
    let s : Sched := ⟨[0], id, id, fun _ => [1, 0], fun _ => [0, 1], 1, fun _ => 0⟩
    Sender c xs bins (fun _ => 2) s ∧ Sender c xs' bins (fun _ => 2) s ∧
      ∀ i, i < c.N → xs.getD i 0 = xs'.getD i 0 ∨ (Unknown c xs bins (fun _ => 2) A i ∧ Unknown c xs' bins (fun _ => 2) A i) := by
  intro c xs xs' bins A s
  have hB : ∀ b, b < c.B → b = 0 ∨ b = 1 := by
    intro b hb
    have : b < 2 := hb
    omega
  refine ⟨⟨by decide, ?_, ?_, ?_, by decide, fun l => List.Perm.refl _, by decide⟩, ⟨by decide, ?_, ?_, ?_, by decide, fun l => List.Perm.refl _, by decide⟩, ?_⟩
  · intro b hb; rcases hB b hb with rfl | rfl <;> decide
  · intro b hb; rcases hB b hb with rfl | rfl <;> decide
  · intro b hb; show [1, 0].Perm (List.range 2); decide
  · intro b hb; rcases hB b hb with rfl | rfl <;> decide
  · intro b hb; rcases hB b hb with rfl | rfl <;> decide
  · intro b hb; show [1, 0].Perm (List.range 2); decide
  · intro i hi
    have hi : i < 2 := hi
    interval_cases i
    · exact .inl rfl
    · refine .inr ⟨fun t b _ _ h3 l hl => ?_, fun t b _ _ h3 l hl => ?_⟩
      · simp [A, xs]
      · simp [A, xs']

end Verif.Grr18
