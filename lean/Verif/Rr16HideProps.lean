import Verif.Rr16HideSpec
import Verif.Rr16Props
/-
Property C121: the map that the RR16 receiver sends.
-/
namespace Verif.Rr16
open Verif Part

/-! ### helpers -/

/-- Apply a function to the numbers of a result. -/
def mapO (f : Nat → Nat) (o : Out (List Nat)) : Out (List Nat) := o.bind fun r => .ok (r.map f)

theorem build2_map (f : Nat → Nat) (k : Nat) (os : List Nat) : build2 k (os.map f) = mapO f (build2 k os) := by
  induction k generalizing os with
  | zero => rfl
  | succ k ih =>
    cases os with
    | nil => rfl
    | cons o os =>
      rw [List.map_cons, build2, build2, ih]
      cases build2 k os <;> rfl

/-- Renaming the OTs renames the result. -/
theorem build_map (f : Nat → Nat) (bits : List Bool) (zs os : List Nat) :
    build bits (zs.map f) (os.map f) = mapO f (build bits zs os) := by
  induction bits generalizing zs os with
  | nil => cases zs <;> rfl
  | cons b bits ih =>
    cases zs with
    | nil =>
      have : ∀ os, build (b :: bits) [] os = build2 (bits.length + 1) os := by
        intro os; rw [build]; · rfl
        · intro h; cases h
      rw [List.map_nil, this, this, build2_map]
    | cons z zs =>
      cases b with
      | false =>
        rw [List.map_cons, build, build, ih]
        cases build bits zs os <;> rfl
      | true =>
        cases os with
        | nil => rfl
        | cons o os =>
          rw [List.map_cons, List.map_cons, build, build]
          have := ih (z :: zs) os
          rw [List.map_cons] at this
          rw [this]
          cases build bits (z :: zs) os <;> rfl

/-- The number at place `i` of the arrangement. -/
def at_ {N : Nat} (w : Fin N → Nat) (ω : Equiv.Perm (Fin N)) (i : Nat) : Nat := if h : i < N then w (ω ⟨i, h⟩) else 0

theorem arrange_eq {N : Nat} (w : Fin N → Nat) (ω : Equiv.Perm (Fin N)) : arrange w ω = (List.range N).map (at_ w ω) := by
  apply List.ext_getElem
  · simp [arrange]
  · intro i h1 h2
    simp only [arrange, List.length_ofFn] at h1
    simp [arrange, at_, h1]

/-- A renaming of places that takes one list of places to another. -/
theorem exists_perm {N : Nat} (p q : List Nat) (hl : p.length = q.length) (hp : p.Nodup) (hq : q.Nodup) (hpN : ∀ i ∈ p, i < N)
    (hqN : ∀ i ∈ q, i < N) :
    ∃ σ : Equiv.Perm (Fin N), ∀ (k : Nat) (h : k < p.length), (σ ⟨p[k], hpN _ (List.getElem_mem h)⟩ : Nat) = q[k]'(hl ▸ h) := by
  classical
  have hfp : Function.Injective fun k : Fin p.length => (⟨p[k], hpN _ (List.getElem_mem k.2)⟩ : Fin N) := by
    intro a b hab
    have := (List.Nodup.getElem_inj_iff hp).mp (Fin.mk.inj hab)
    exact Fin.ext this
  have hfq : Function.Injective fun k : Fin p.length => (⟨q[k]'(hl ▸ k.2), hqN _ (List.getElem_mem _)⟩ : Fin N) := by
    intro a b hab
    have := (List.Nodup.getElem_inj_iff hq).mp (Fin.mk.inj hab)
    exact Fin.ext this
  let e : {x // x ∈ Set.range fun k : Fin p.length => (⟨p[k], hpN _ (List.getElem_mem k.2)⟩ : Fin N)} ≃
      {x // x ∈ Set.range fun k : Fin p.length => (⟨q[k]'(hl ▸ k.2), hqN _ (List.getElem_mem _)⟩ : Fin N)} :=
    (Equiv.ofInjective _ hfp).symm.trans (Equiv.ofInjective _ hfq)
  refine ⟨e.extendSubtype, fun k h => ?_⟩
  have hm : (⟨p[k], hpN _ (List.getElem_mem h)⟩ : Fin N) ∈
      Set.range fun k : Fin p.length => (⟨p[k], hpN _ (List.getElem_mem k.2)⟩ : Fin N) := ⟨⟨k, h⟩, rfl⟩
  rw [Equiv.extendSubtype_apply_of_mem e _ hm]
  have : (Equiv.ofInjective _ hfp).symm ⟨⟨p[k], hpN _ (List.getElem_mem h)⟩, ⟨⟨k, h⟩, rfl⟩⟩ = ⟨k, h⟩ := by
    rw [Equiv.symm_apply_eq]
    rfl
  show (((Equiv.ofInjective _ hfq) ((Equiv.ofInjective _ hfp).symm _) : _) : Fin N).1 = _
  rw [this]
  rfl

/-- The places used for a filter do not depend on the order of the OTs. -/
theorem places (hash : Block → List Nat) (bf total N nz : Nat) (R : List Block) (hnz : nz ≤ N) (hbf : bf ≤ N)
    (h1 : setCount hash bf R ≤ N - nz) :
    ∃ p : List Nat, p.length = bf ∧ p.Nodup ∧ (∀ i ∈ p, i < N) ∧ ∀ (w : Fin N → Nat) (ω : Equiv.Perm (Fin N)),
      permute hash bf total ((arrange w ω).take nz) ((arrange w ω).drop nz) R =
        if total > 2 ^ 32 then .throw else .ok (p.map fun i => at_ w ω i % 2 ^ 32) := by
  obtain ⟨p, e, h⟩ := build_ok (bloom hash bf R) ((List.range N).take nz) ((List.range N).drop nz)
    (by rw [bloom_count]; simpa using h1) (by rw [bloom_length]; simp; omega)
  obtain ⟨rest, hp⟩ := h.once
  rw [List.take_append_drop] at hp
  have hmem : ∀ i ∈ p, i < N := fun i hi => List.mem_range.mp (hp.mem_iff.mp (List.mem_append.mpr (.inl hi)))
  refine ⟨p, by rw [h.length, bloom_length], (List.nodup_append.mp (hp.nodup_iff.mpr List.nodup_range)).1, hmem, ?_⟩
  intro w ω
  unfold permute
  split
  · rfl
  · rw [arrange_eq, ← List.map_take, ← List.map_drop, build_map, e]
    show Out.ok _ = _
    rw [List.map_map]
    rfl

/-! ### C121 -/

/-- C121, what is needed: if the OTs with choice 0 followed by those with choice 1 are in a uniformly random order, the vector that
the sender receives has the same distribution for all sets. (The full property would be that the code makes the lists so. libPSI does
not: see C121_descent.) -/
theorem C121_hidden_partial (hash : Block → List Nat) (bf total N nz : Nat) (w : Fin N → Nat) (R R' : List Block) (hnz : nz ≤ N) (hbf : bf ≤ N)
    (h1 : setCount hash bf R ≤ N - nz) (h1' : setCount hash bf R' ≤ N - nz) :
    sentShuffled hash bf total N nz w R = sentShuffled hash bf total N nz w R' := by
  obtain ⟨p, hl, hnd, hN, h⟩ := places hash bf total N nz R hnz hbf h1
  obtain ⟨q, hl', hnd', hN', h'⟩ := places hash bf total N nz R' hnz hbf h1'
  obtain ⟨σ, hσ⟩ := exists_perm q p (hl'.trans hl.symm) hnd' hnd hN' hN
  unfold sentShuffled
  have hmap : (PMF.uniformOfFintype (Equiv.Perm (Fin N))).map (fun ω => ω * σ) = PMF.uniformOfFintype (Equiv.Perm (Fin N)) := by
    classical
    ext ω
    rw [PMF.map_apply, tsum_eq_single (ω * σ⁻¹)]
    · simp
    · intro b hb
      rw [if_neg]
      rintro rfl
      exact hb (by simp)
  conv_rhs => rw [← hmap, PMF.map_comp]
  refine congrArg (fun f => PMF.map f _) (funext fun ω => ?_)
  simp only [Function.comp]
  rw [h, h']
  split
  · rfl
  · congr 1
    apply List.ext_getElem
    · simp [hl, hl']
    · intro k hk1 hk2
      simp only [List.length_map] at hk1 hk2
      have e := hσ k hk2
      simp only [List.getElem_map, at_, hN _ (List.getElem_mem hk1), hN' _ (List.getElem_mem hk2), dif_pos, Equiv.Perm.mul_apply]
      have e' : (⟨p[k], hN _ (List.getElem_mem hk1)⟩ : Fin N) = σ ⟨q[k], hN' _ (List.getElem_mem hk2)⟩ := Fin.ext e.symm
      rw [e']

/-- Every entry is in the list of its bit, at the place given by the number of equal bits before. -/
theorem build_entry (bits : List Bool) (zs os r : List Nat) (hz : bits.count false ≤ zs.length) (h : build bits zs os = .ok r) (i : Nat)
    (hi : i < bits.length) :
    r.length = bits.length ∧ r[i]? = if bits[i] then os[(bits.take i).count true]? else zs[(bits.take i).count false]? := by
  induction bits generalizing zs os r i with
  | nil => simp at hi
  | cons b bits ih =>
    cases zs with
    | nil =>
      -- no zero is needed any more: all bits are set
      have hall : ∀ x ∈ b :: bits, x = true := by
        intro x hx
        cases x with
        | true => rfl
        | false =>
          have := List.count_pos_iff.mpr hx
          simp at hz
          omega
      have hb : build (b :: bits) [] os = build2 (bits.length + 1) os := by
        rw [build]; · rfl
        · intro h; cases h
      rw [hb] at h
      have hlen : bits.length + 1 ≤ os.length := by
        by_contra hlt
        have := (build2_spec (bits.length + 1) os).1 (by omega)
        rw [this] at h
        cases h
      have e := (build2_spec (bits.length + 1) os).2 hlen
      rw [e] at h
      cases h
      have hrep : (b :: bits) = List.replicate (bits.length + 1) true := List.eq_replicate_iff.mpr ⟨by simp, hall⟩
      refine ⟨by simp; omega, ?_⟩
      have hbi : (b :: bits)[i] = true := hall _ (List.getElem_mem hi)
      rw [hbi, if_pos rfl, List.getElem?_take_of_lt (by simpa using hi)]
      congr 1
      rw [hrep, List.take_replicate, List.count_replicate_self]
      simp at hi
      omega
    | cons z zs =>
      cases b with
      | false =>
        rw [build] at h
        cases hr : build bits zs os with
        | ok r' =>
          rw [hr] at h
          cases h
          have hz' : bits.count false ≤ zs.length := by simpa using hz
          cases i with
          | zero =>
            refine ⟨?_, by simp⟩
            cases bits with
            | nil => cases zs <;> (simp [build] at hr; subst hr; rfl)
            | cons b' bits =>
              have := (ih zs os r' hz' hr 0 (by simp)).1
              simp [this]
          | succ i =>
            have := ih zs os r' hz' hr i (by simpa using hi)
            refine ⟨by simp [this.1], ?_⟩
            simpa using this.2
        | throw => rw [hr] at h; cases h
        | ub => rw [hr] at h; cases h
      | true =>
        cases os with
        | nil => cases h
        | cons o os =>
          rw [build] at h
          cases hr : build bits (z :: zs) os with
          | ok r' =>
            rw [hr] at h
            cases h
            have hz' : bits.count false ≤ (z :: zs).length := by simpa using hz
            cases i with
            | zero =>
              refine ⟨?_, by simp⟩
              cases bits with
              | nil => simp [build] at hr; subst hr; rfl
              | cons b' bits =>
                have := (ih (z :: zs) os r' hz' hr 0 (by simp)).1
                simp [this]
            | succ i =>
              have := ih (z :: zs) os r' hz' hr i (by simpa using hi)
              refine ⟨by simp [this.1], ?_⟩
              simpa using this.2
          | throw => rw [hr] at h; cases h
          | ub => rw [hr] at h; cases h

theorem permute_entry (hash : Block → List Nat) (bf total : Nat) (zeros ones : List Nat) (R : List Block) (v : List Nat)
    (hlt : ∀ p ∈ zeros ++ ones, p < total) (hz : (bloom hash bf R).count false ≤ zeros.length)
    (h : permute hash bf total zeros ones R = .ok v) (i : Nat) (hi : i < (bloom hash bf R).length) :
    v[i]? = if (bloom hash bf R)[i] then ones[((bloom hash bf R).take i).count true]?
      else zeros[((bloom hash bf R).take i).count false]? := by
  unfold permute at h
  split at h
  · cases h
  · rename_i htot
    cases hb : build (bloom hash bf R) zeros ones with
    | ok r =>
      rw [hb] at h
      cases h
      have := (build_entry _ _ _ r hz hb i hi).2
      rw [List.getElem?_map, this]
      split
      · cases ho : ones[((bloom hash bf R).take i).count true]? with
        | none => rfl
        | some x =>
          have := hlt x (List.mem_append.mpr (.inr (List.mem_of_getElem? ho)))
          rw [Option.map_some, Nat.mod_eq_of_lt (by omega)]
      · cases ho : zeros[((bloom hash bf R).take i).count false]? with
        | none => rfl
        | some x =>
          have := hlt x (List.mem_append.mpr (.inl (List.mem_of_getElem? ho)))
          rw [Option.map_some, Nat.mod_eq_of_lt (by omega)]
    | throw => rw [hb] at h; cases h
    | ub => rw [hb] at h; cases h

/-- There are fewer equal bits before an earlier place. -/
theorem count_take_lt (bits : List Bool) (i j : Nat) (hij : i < j) (hj : j < bits.length) :
    (bits.take i).count bits[i] < (bits.take j).count bits[i] := by
  have h1 : (bits.take (i + 1)).count bits[i] = (bits.take i).count bits[i] + 1 := by
    rw [← List.take_append_getElem (by omega), List.count_append]
    simp
  have h2 : (bits.take (i + 1)).count bits[i] ≤ (bits.take j).count bits[i] := by
    apply List.Sublist.count_le
    rw [show bits.take (i + 1) = (bits.take j).take (i + 1) by rw [List.take_take, Nat.min_eq_left (by omega)]]
    exact List.take_sublist _ _
  omega

theorem sorted_lt {l : List Nat} (h : l.Pairwise (· < ·)) {a b x y : Nat} (hab : a < b) (ha : l[a]? = some x) (hb : l[b]? = some y) :
    x < y := by
  obtain ⟨ha1, rfl⟩ := List.getElem?_eq_some_iff.mp ha
  obtain ⟨hb1, rfl⟩ := List.getElem?_eq_some_iff.mp hb
  exact List.pairwise_iff_getElem.mp h a b ha1 hb1 hab

/-- C121, in increasing order: if both lists are in increasing order, as they are when they are filled in one pass and not shuffled,
then wherever the vector descends the sender knows that exactly one of the two bits of the filter is set. -/
theorem C121_descent (hash : Block → List Nat) (bf total : Nat) (R : List Block) (v : List Nat) (h : SentSorted hash bf total R v)
    (i j x y : Nat) (hij : i < j) (hj : j < bf) (hx : v[i]? = some x) (hy : v[j]? = some y) (hxy : y < x) :
    (bloom hash bf R)[i]? ≠ (bloom hash bf R)[j]? := by
  obtain ⟨zeros, ones, hz, ho, hlt, hc, hp⟩ := h
  have hjl : j < (bloom hash bf R).length := by rw [bloom_length]; exact hj
  have hil : i < (bloom hash bf R).length := by omega
  have e1 := permute_entry hash bf total zeros ones R v hlt hc hp i hil
  have e2 := permute_entry hash bf total zeros ones R v hlt hc hp j hjl
  have hct := count_take_lt (bloom hash bf R) i j hij hjl
  rw [List.getElem?_eq_getElem hil, List.getElem?_eq_getElem hjl]
  intro he
  have he := Option.some.inj he
  rw [← he] at e2
  rw [hx] at e1
  rw [hy] at e2
  cases hb : (bloom hash bf R)[i] with
  | true =>
    simp only [hb, if_true] at e1 e2 hct
    have := sorted_lt ho hct e1.symm e2.symm
    omega
  | false =>
    simp only [hb, Bool.false_eq_true, if_false] at e1 e2 hct
    have := sorted_lt hz hct e1.symm e2.symm
    omega

/-- One of the two ways of choosing the OTs shows that two bits of the filter differ. -/
theorem C121_shown (hash : Block → List Nat) (bf : Nat) (R : List Block) (i j : Nat) (hij : i < j) (hj : j < bf) (hbf : 2 * bf ≤ 2 ^ 32)
    (hne : (bloom hash bf R)[i]? ≠ (bloom hash bf R)[j]?) :
    ∃ (v : List Nat) (x y : Nat), SentSorted hash bf (2 * bf) R v ∧ v[i]? = some x ∧ v[j]? = some y ∧ y < x := by
  have hjl : j < (bloom hash bf R).length := by rw [bloom_length]; exact hj
  have hil : i < (bloom hash bf R).length := by omega
  rw [List.getElem?_eq_getElem hil, List.getElem?_eq_getElem hjl] at hne
  have hne : (bloom hash bf R)[i] ≠ (bloom hash bf R)[j] := fun h => hne (by rw [h])
  have hcf : (bloom hash bf R).count false ≤ bf := by
    have := List.count_le_length (a := false) (l := bloom hash bf R); rwa [bloom_length] at this
  have hct : setCount hash bf R ≤ bf := by
    have := List.count_le_length (a := true) (l := bloom hash bf R); rwa [bloom_length, bloom_count] at this
  have key : ∀ zeros ones : List Nat, zeros.length = bf → ones.length = bf → zeros.Pairwise (· < ·) → ones.Pairwise (· < ·) →
      (∀ p ∈ zeros ++ ones, p < 2 * bf) → ∃ v : List Nat, SentSorted hash bf (2 * bf) R v ∧
        ∀ k (hk : k < (bloom hash bf R).length), v[k]? = if (bloom hash bf R)[k] then ones[((bloom hash bf R).take k).count true]?
          else zeros[((bloom hash bf R).take k).count false]? := by
    intro zeros ones l1 l2 p1 p2 hlt
    obtain ⟨r, e, -⟩ := build_ok (bloom hash bf R) zeros ones (by rw [bloom_count]; omega) (by rw [bloom_length]; omega)
    have hp : permute hash bf (2 * bf) zeros ones R = .ok (r.map (· % 2 ^ 32)) := by
      unfold permute
      rw [if_neg (by omega), e]
      rfl
    exact ⟨_, ⟨zeros, ones, p1, p2, hlt, by omega, hp⟩, fun k hk => permute_entry hash bf _ zeros ones R _ hlt (by omega) hp k hk⟩
  have hcount : ∀ b k, ((bloom hash bf R).take k).count b ≤ k := fun b k =>
    (List.count_le_length).trans (by simp)
  have hr : (List.range bf).Pairwise (· < ·) := List.pairwise_lt_range
  have hr' : (List.range' bf bf).Pairwise (· < ·) := List.pairwise_lt_range'
  cases hb : (bloom hash bf R)[i] with
  | false =>
    have hb' : (bloom hash bf R)[j] = true := by
      cases h : (bloom hash bf R)[j] with
      | true => rfl
      | false => exact absurd (hb.trans h.symm) hne
    obtain ⟨v, hs, hv⟩ := key (List.range' bf bf) (List.range bf) (by simp) (by simp) hr' hr
      (by intro p hp; simp at hp; omega)
    have a := hcount false i
    have b := hcount true j
    have e1 := hv i hil
    have e2 := hv j hjl
    rw [hb, if_neg (by simp), List.getElem?_range' (by omega)] at e1
    rw [hb', if_pos rfl, List.getElem?_range (by omega)] at e2
    exact ⟨v, _, _, hs, e1, e2, by omega⟩
  | true =>
    have hb' : (bloom hash bf R)[j] = false := by
      cases h : (bloom hash bf R)[j] with
      | false => rfl
      | true => exact absurd (hb.trans h.symm) hne
    obtain ⟨v, hs, hv⟩ := key (List.range bf) (List.range' bf bf) (by simp) (by simp) hr hr'
      (by intro p hp; simp at hp; omega)
    have a := hcount true i
    have b := hcount false j
    have e1 := hv i hil
    have e2 := hv j hjl
    rw [hb, if_pos rfl, List.getElem?_range' (by omega)] at e1
    rw [hb', if_neg (by simp), List.getElem?_range (by omega)] at e2
    exact ⟨v, _, _, hs, e1, e2, by omega⟩

/-- C121, two sets told apart: if two bits are equal in the filter of `R` and different in that of `R'`, there is a vector that is sent
for `R'` and that is never sent for `R`, whatever OTs were opened. -/
theorem C121_told_apart (hash : Block → List Nat) (bf : Nat) (R R' : List Block) (i j : Nat) (hij : i < j) (hj : j < bf)
    (hbf : 2 * bf ≤ 2 ^ 32) (heq : (bloom hash bf R)[i]? = (bloom hash bf R)[j]?) (hne : (bloom hash bf R')[i]? ≠ (bloom hash bf R')[j]?) :
    ∃ v, SentSorted hash bf (2 * bf) R' v ∧ ∀ total, ¬ SentSorted hash bf total R v := by
  obtain ⟨v, x, y, hs, hx, hy, hxy⟩ := C121_shown hash bf R' i j hij hj hbf hne
  exact ⟨v, hs, fun total h => C121_descent hash bf total R v h i j x y hij hj hx hy hxy heq⟩

/-! ### non-vacuity -/

/-- A toy hash: element `x` sets bit `x` of a filter of 4 bits. -/
def toyHash (x : Block) : List Nat := [x.toNat % 4]

/-- The random order: sets {1} and {2}, 6 OTs of which 3 have choice 0. -/
example : sentShuffled toyHash 4 6 6 3 (fun i => i.1) [1] = sentShuffled toyHash 4 6 6 3 (fun i => i.1) [2] :=
  C121_hidden_partial _ _ _ _ _ _ _ _ (by decide) (by decide) (by decide +kernel) (by decide +kernel)

/-- The increasing order: with set {2} and the OTs 0, 1, 2 chosen 1 the vector descends at 1, 2, which never happens for set {3}. -/
example : permute toyHash 4 6 [3, 4, 5] [0, 1, 2] [2] = .ok [3, 4, 0, 5] ∧
    ∀ total, ¬ SentSorted toyHash 4 total [3] [3, 4, 0, 5] :=
  ⟨by decide +kernel, fun total h => C121_descent toyHash 4 total [3] _ h 1 2 4 0 (by decide) (by decide) rfl rfl (by decide) (by decide +kernel)⟩

example : ∃ v, SentSorted toyHash 4 8 [2] v ∧ ∀ total, ¬ SentSorted toyHash 4 total [3] v :=
  C121_told_apart toyHash 4 [3] [2] 1 2 (by decide) (by decide) (by decide) (by decide +kernel) (by decide +kernel)

end Verif.Rr16
