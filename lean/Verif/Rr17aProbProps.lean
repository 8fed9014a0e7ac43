import Verif.Rr17aProbLemmas
import Verif.XorLemmas
import Verif.Rr17MaskProps
/-
Property C125: the probability that RR17a reports a wrong element.
-/
namespace Verif.Rr17
open Verif MeasureTheory Coll
open scoped ENNReal

section
variable {Ω : Type} [MeasurableSpace Ω] {μ : Measure Ω} {u : Ω → OtPt → Block}
variable {c : Cfg} {hash : Option (Block → Block)} {X Y : List Block} {sbins rbins perms : Nat → List Nat} {maskPerm sched : List Nat}

/-- The masks are uniform. -/
theorem masks_uniform {I : Type} (hu : Uniform μ Set.univ (2 ^ 128) fun ω p => (u ω p).toNat) (P Q : I → OtPt) (hQ : Function.Injective Q)
    (hPQ : ∀ i j, P i ≠ Q j) (ms : Nat) (hms : ms ≤ 16) :
    Uniform μ Set.univ (2 ^ (8 * ms)) fun ω i => cut ms (u ω (P i) ^^^ u ω (Q i)) := by
  have h1 := (hu.xor P Q hQ hPQ).mod (by positivity) (2 ^ (8 * ms)) (Nat.pow_dvd_pow 2 (by omega))
  simpa only [cut, BitVec.toNat_xor] using h1

/-- The items of the parties are kept apart by bin and OT input. -/
def Apart (c : Cfg) (hash : Option (Block → Block)) (X Y : List Block) : Prop :=
  ∀ i j, i < c.N → j < c.N → phase c.N c.B ((hashed hash X).getD i 0) = phase c.N c.B ((hashed hash Y).getD j 0) → X.getD i 0 = Y.getD j 0

theorem otInputs_getD (raw : List Block) (i : Nat) (hi : i < raw.length) (c : Cfg) :
    (raw.map fun v => (phase c.N c.B v).2).getD i 0 = (phase c.N c.B (raw.getD i 0)).2 := by
  rw [Kkrt.getD_eq (by simpa using hi), List.getElem_map, Kkrt.getD_eq hi]

theorem hashed_getD_phase {t t' : Nat → Nat} {hash : Option (Block → Block)} {X Y : List Block} {d d' : Bool} {i j k k' : Nat}
    (hX : (hashed hash X).length = c.N) (hY : (hashed hash Y).length = c.N) (h : Threads c (hashed hash X) t) (h' : Threads c (hashed hash Y) t')
    (hi : i < c.N) (hj : j < c.N) (hk : k < c.M) (hk' : k' < c.M)
    (e : otPt c d t (hashed hash X) (otInputs hash c X) i k = otPt c d' t' (hashed hash Y) (otInputs hash c Y) j k') :
    d = d' ∧ k = k' ∧ phase c.N c.B ((hashed hash X).getD i 0) = phase c.N c.B ((hashed hash Y).getD j 0) := by
  obtain ⟨e1, e2, e3, e4⟩ := otPt_inj h h' hi hj hk hk' e
  refine ⟨e1, e3, Prod.ext e2 ?_⟩
  unfold otInputs at e4
  rwa [otInputs_getD _ i (by omega), otInputs_getD _ j (by omega)] at e4

/-- Bound for C125, for OT values read at `f p` instead of `p`. -/
theorem error_via (hu : Uniform μ Set.univ (2 ^ 128) fun ω p => (u ω p).toNat) (S : Setup c hash X Y sbins rbins perms maskPerm sched)
    (f : OtPt → OtPt) (hf : ∀ p, (f p).1 = p.1)
    (ha : ∀ (t t' : Nat → Nat) (d : Bool) (i j k k' : Nat), Threads c (hashed hash X) t → Threads c (hashed hash Y) t' → i < c.N → j < c.N → k < c.M →
      k' < c.M → f (otPt c d t (hashed hash X) (otInputs hash c X) i k) = f (otPt c d t' (hashed hash Y) (otInputs hash c Y) j k') →
        X.getD i 0 = Y.getD j 0) (rnd : Nat → Nat → Nat) :
    μ {ω | Wrong X Y (online (withOt c fun p => u ω (f p)) (otInputs hash c X) (otInputs hash c Y) sbins rbins perms maskPerm rnd sched)} ≤
      ((c.N * c.M) ^ 2 : ℕ) * ((2 ^ (8 * c.ms) : ℕ) : ℝ≥0∞)⁻¹ := by
  classical
  obtain ⟨t, a, t', a', ht, ht', hal, hal', hrun⟩ := run_masks S rnd
  have hlX : X.length = c.N := by have := S.sender.len; simpa [hashed] using this
  have hlY : Y.length = c.N := by have := S.receiver.len; simpa [hashed] using this
  have hM : 0 < c.M := Nat.pos_of_mul_pos_left S.masks
  let sP : Nat → OtPt := fun i => f (otPt c false t (hashed hash X) (otInputs hash c X) i (a i))
  let sQ : Nat → Nat → OtPt := fun i l => f (otPt c true t (hashed hash X) (otInputs hash c X) i l)
  let rP : Nat → OtPt := fun j => f (otPt c true t' (hashed hash Y) (otInputs hash c Y) j (a' j))
  let rQ : Nat → Nat → OtPt := fun j l => f (otPt c false t' (hashed hash Y) (otInputs hash c Y) j l)
  let I := ((Finset.range c.N ×ˢ Finset.range c.M) ×ˢ (Finset.range c.N ×ˢ Finset.range c.M)).filter fun p => X.getD p.1.1 0 ≠ Y.getD p.2.1 0
  have hsub : {ω | Wrong X Y (online (withOt c fun p => u ω (f p)) (otInputs hash c X) (otInputs hash c Y) sbins rbins perms maskPerm rnd sched)} ⊆
      ⋃ p ∈ I, {ω | cut c.ms (u ω (sP p.1.1) ^^^ u ω (sQ p.1.1 p.1.2)) = cut c.ms (u ω (rP p.2.1) ^^^ u ω (rQ p.2.1 p.2.2))} := by
    rintro ω ⟨out, hout, j, hj, hno⟩
    obtain ⟨buf, hb1, hb2, _, hb4⟩ := hrun fun p => u ω (f p)
    unfold online at hout
    rw [if_neg (show ¬ (withOt c fun p => u ω (f p)).ms > 16 from Nat.not_lt.mpr S.size')] at hout
    have hb1' : sendBuffer (withOt c fun p => u ω (f p)) (otInputs hash c X) sbins perms maskPerm (sched.foldl (sendStep sbins) (sendStart (withOt c fun p => u ω (f p)))) = .ok buf := hb1
    rw [hb1'] at hout
    simp only [Out.bind] at hout
    rw [receive_ok (c := withOt c fun p => u ω (f p)) S.masks S.size] at hout
    injection hout with hout
    rw [← hout] at hj
    obtain ⟨th, hth, hj⟩ := List.mem_flatMap.mp hj
    have hth : th < c.T := List.mem_range.mp hth
    obtain ⟨kk, hkk, hj⟩ := List.mem_flatMap.mp hj
    obtain ⟨s, hsr, hj⟩ := List.mem_filterMap.mp hj
    have hc := chunk_pos (c := withOt c fun p => u ω (f p)) S.threads S.masks
    have hs0 : s < c.N * c.M := ((mem_rowsOf hc (List.mem_range.mp (List.mem_filter.mp hkk).1)).mp hsr).1
    obtain ⟨e, he, hm, hq⟩ := lookup_some hj
    rw [hb4 th hth] at he
    obtain ⟨b, hb, he⟩ := List.mem_flatMap.mp he
    obtain ⟨idx, hidx, he⟩ := List.mem_flatMap.mp he
    obtain ⟨l, hl, rfl⟩ := List.mem_map.mp he
    have hl := List.mem_range.mp hl
    have hij : idx = j := by
      rw [← hq]
      show idx = (idx * c.M + l) / c.M
      rw [Nat.mul_comm, Nat.mul_add_div hM, Nat.div_eq_of_lt hl, Nat.add_zero]
    subst hij
    have hjN := (place_addr S.receiver (binsOf_lt S.threads S.small hth hb) hidx).1
    obtain ⟨i, l', hi, hl', hrow⟩ := hb2 s hs0
    have hm : cut c.ms (u ω (rP idx) ^^^ u ω (rQ idx l)) = buf.getD s 0 := hm
    rw [hrow] at hm
    simp only [Set.mem_iUnion]
    refine ⟨((i, l'), (idx, l)), Finset.mem_filter.mpr ⟨?_, ?_⟩, hm.symm⟩
    · simp only [Finset.mem_product, Finset.mem_range]
      exact ⟨⟨hi, hl'⟩, hjN, hl⟩
    · intro hxy
      apply hno
      refine ⟨by omega, ?_⟩
      have hxy : X.getD i 0 = Y.getD idx 0 := hxy
      rw [Kkrt.getD_eq (show i < X.length by omega), Kkrt.getD_eq (show idx < Y.length by omega)] at hxy
      rw [← hxy]
      exact List.getElem_mem _
  have hone : ∀ p ∈ I, μ {ω | cut c.ms (u ω (sP p.1.1) ^^^ u ω (sQ p.1.1 p.1.2)) = cut c.ms (u ω (rP p.2.1) ^^^ u ω (rQ p.2.1 p.2.2))} =
      ((2 ^ (8 * c.ms) : ℕ) : ℝ≥0∞)⁻¹ := by
    rintro ⟨⟨i, l⟩, ⟨j, l'⟩⟩ hp
    obtain ⟨hp1, hp2⟩ := Finset.mem_filter.mp hp
    simp only [Finset.mem_product, Finset.mem_range] at hp1
    obtain ⟨⟨hi, hl⟩, hj, hl'⟩ := hp1
    have hne : ∀ (d : Bool) (k k' : Nat), k < c.M → k' < c.M → f (otPt c d t (hashed hash X) (otInputs hash c X) i k) ≠
        f (otPt c d t' (hashed hash Y) (otInputs hash c Y) j k') := by
      intro d k k' hk hk' e
      exact hp2 (ha t t' d i j k k' ht ht' hi hj hk hk' e)
    let P : Bool → OtPt := fun x => if x then sP i else rP j
    let Q : Bool → OtPt := fun x => if x then sQ i l else rQ j l'
    have hun := masks_uniform (I := Bool) hu P Q
      (by
        intro x y h
        cases x <;> cases y
        · rfl
        · have : rQ j l' = sQ i l := h
          exact absurd (congrArg Prod.fst this) (by simp [rQ, sQ, otPt, hf])
        · have : sQ i l = rQ j l' := h
          exact absurd (congrArg Prod.fst this) (by simp [rQ, sQ, otPt, hf])
        · rfl)
      (by
        intro x y h
        cases x <;> cases y
        · have : rP j = rQ j l' := h
          exact absurd (congrArg Prod.fst this) (by simp [rP, rQ, otPt, hf])
        · have : rP j = sQ i l := h
          exact hne true l (a' j) hl (hal' j hj) this.symm
        · have : sP i = rQ j l' := h
          exact hne false (a i) l' (hal i hi) hl' this
        · have : sP i = sQ i l := h
          exact absurd (congrArg Prod.fst this) (by simp [sP, sQ, otPt, hf]))
      c.ms S.size'
    exact hun.pair (by positivity) (x := true) (y := false) trivial trivial (by decide)
  refine (measure_mono hsub).trans ((measure_biUnion_finset_le I _).trans ?_)
  rw [Finset.sum_congr rfl hone, Finset.sum_const, nsmul_eq_mul]
  gcongr
  refine (Finset.card_filter_le _ _).trans (le_of_eq ?_)
  rw [Finset.card_product, Finset.card_product, Finset.card_range, Finset.card_range, pow_two]

/-- C125, what holds: if the OT values are random and the parties' items are kept apart by bin and OT input, a wrong element is reported with
probability at most `(N M)^2 / 2^(8 ms)`, for every number of threads. The full property is `2^-statSec` for the mask size of the code,
which is false (`C125_default`). -/
theorem C125_error_partial (hu : Uniform μ Set.univ (2 ^ 128) fun ω p => (u ω p).toNat) (S : Setup c hash X Y sbins rbins perms maskPerm sched)
    (ha : Apart c hash X Y) (rnd : Nat → Nat → Nat) :
    μ {ω | Wrong X Y (online (withOt c (u ω)) (otInputs hash c X) (otInputs hash c Y) sbins rbins perms maskPerm rnd sched)} ≤
      ((c.N * c.M) ^ 2 : ℕ) * ((2 ^ (8 * c.ms) : ℕ) : ℝ≥0∞)⁻¹ :=
  error_via hu S id (fun _ => rfl) (fun _ _ _ i j _ _ ht ht' hi hj hk hk' e =>
    ha i j hi hj (hashed_getD_phase S.sender.len S.receiver.len ht ht' hi hj hk hk' e).2.2) rnd

/-- All items have different bins or OT inputs. -/
def AllApart (c : Cfg) (hash : Option (Block → Block)) (X Y : List Block) : Prop :=
  ((hashed hash X ++ hashed hash Y).map (phase c.N c.B)).Nodup

/-- C125: with one thread and disjoint sets a wrong element is reported with at least this probability (`q = N M` masks). -/
theorem C125_lower (hu : Uniform μ Set.univ (2 ^ 128) fun ω p => (u ω p).toNat) (S : Setup c hash X Y sbins rbins perms maskPerm sched)
    (hT : c.T = 1) (ha : AllApart c hash X Y) (hd : ∀ y ∈ Y, y ∉ X) (rnd : Nat → Nat → Nat) (hq : c.N * c.M ≤ 2 ^ 32) :
    ENNReal.ofReal (1 - (c.N * c.M : ℕ) * ((c.N * c.M : ℕ) - 1) / 2 ^ 65) *
        ENNReal.ofReal (1 - Real.exp (-((c.N * c.M : ℕ) * (c.N * c.M : ℕ) / (2 ^ (8 * c.ms) : ℕ)))) ≤
      μ {ω | Wrong X Y (online (withOt c (u ω)) (otInputs hash c X) (otInputs hash c Y) sbins rbins perms maskPerm rnd sched)} := by
  classical
  obtain ⟨t, a, t', a', ht, ht', hal, hal', hrun⟩ := run_masks S rnd
  have hlX : X.length = c.N := by have := S.sender.len; simpa [hashed] using this
  have hlY : Y.length = c.N := by have := S.receiver.len; simpa [hashed] using this
  have hM : 0 < c.M := Nat.pos_of_mul_pos_left S.masks
  have hphX : ∀ i j, i < c.N → j < c.N → phase c.N c.B ((hashed hash X).getD i 0) = phase c.N c.B ((hashed hash X).getD j 0) → i = j := by
    intro i j hi hj h
    have h1 : ((hashed hash X).map (phase c.N c.B)).Nodup := by
      unfold AllApart at ha
      rw [List.map_append] at ha
      exact (List.nodup_append.mp ha).1
    have hi' : i < (hashed hash X).length := by rw [S.sender.len]; exact hi
    have hj' : j < (hashed hash X).length := by rw [S.sender.len]; exact hj
    rw [Kkrt.getD_eq hi', Kkrt.getD_eq hj'] at h
    exact (List.Nodup.getElem_inj_iff h1 (hi := by simpa using hi') (hj := by simpa using hj')).mp (by simpa using h)
  have hphY : ∀ i j, i < c.N → j < c.N → phase c.N c.B ((hashed hash Y).getD i 0) = phase c.N c.B ((hashed hash Y).getD j 0) → i = j := by
    intro i j hi hj h
    have h1 : ((hashed hash Y).map (phase c.N c.B)).Nodup := by
      unfold AllApart at ha
      rw [List.map_append] at ha
      exact (List.nodup_append.mp ha).2.1
    have hi' : i < (hashed hash Y).length := by rw [S.receiver.len]; exact hi
    have hj' : j < (hashed hash Y).length := by rw [S.receiver.len]; exact hj
    rw [Kkrt.getD_eq hi', Kkrt.getD_eq hj'] at h
    exact (List.Nodup.getElem_inj_iff h1 (hi := by simpa using hi') (hj := by simpa using hj')).mp (by simpa using h)
  have hphXY : ∀ i j, i < c.N → j < c.N → phase c.N c.B ((hashed hash X).getD i 0) ≠ phase c.N c.B ((hashed hash Y).getD j 0) := by
    intro i j hi hj h
    unfold AllApart at ha
    rw [List.map_append] at ha
    have hi' : i < (hashed hash X).length := by rw [S.sender.len]; exact hi
    have hj' : j < (hashed hash Y).length := by rw [S.receiver.len]; exact hj
    rw [Kkrt.getD_eq hi', Kkrt.getD_eq hj'] at h
    exact (List.nodup_append.mp ha).2.2 _ (List.mem_map.mpr ⟨_, List.getElem_mem hi', rfl⟩) _ (List.mem_map.mpr ⟨_, List.getElem_mem hj', rfl⟩) h
  let sP : Nat → OtPt := fun i => otPt c false t (hashed hash X) (otInputs hash c X) i (a i)
  let sQ : Nat → Nat → OtPt := fun i l => otPt c true t (hashed hash X) (otInputs hash c X) i l
  let rP : Nat → OtPt := fun j => otPt c true t' (hashed hash Y) (otInputs hash c Y) j (a' j)
  let rQ : Nat → Nat → OtPt := fun j l => otPt c false t' (hashed hash Y) (otInputs hash c Y) j l
  let I := Bool × Fin c.N × Fin c.M
  let P : I → OtPt := fun x => if x.1 then sP x.2.1 else rP x.2.1
  let Q : I → OtPt := fun x => if x.1 then sQ x.2.1 x.2.2 else rQ x.2.1 x.2.2
  have hQ : Function.Injective Q := by
    rintro ⟨x, i, l⟩ ⟨y, j, l'⟩ h
    cases x <;> cases y
    · have h : rQ i l = rQ j l' := h
      obtain ⟨_, h2, h3⟩ := hashed_getD_phase S.receiver.len S.receiver.len ht' ht' i.2 j.2 l.2 l'.2 h
      rw [Fin.ext (hphY _ _ i.2 j.2 h3), Fin.ext h2]
    · have h : rQ i l = sQ j l' := h
      exact absurd (congrArg Prod.fst h) (by simp [rQ, sQ, otPt])
    · have h : sQ i l = rQ j l' := h
      exact absurd (congrArg Prod.fst h) (by simp [rQ, sQ, otPt])
    · have h : sQ i l = sQ j l' := h
      obtain ⟨_, h2, h3⟩ := hashed_getD_phase S.sender.len S.sender.len ht ht i.2 j.2 l.2 l'.2 h
      rw [Fin.ext (hphX _ _ i.2 j.2 h3), Fin.ext h2]
  have hPQ : ∀ x y, P x ≠ Q y := by
    rintro ⟨x, i, l⟩ ⟨y, j, l'⟩ h
    cases x <;> cases y
    · have h : rP i = rQ j l' := h
      exact absurd (congrArg Prod.fst h) (by simp [rQ, rP, otPt])
    · have h : rP i = sQ j l' := h
      exact hphXY _ _ j.2 i.2 (hashed_getD_phase S.sender.len S.receiver.len ht ht' j.2 i.2 l'.2 (hal' _ i.2) h.symm).2.2
    · have h : sP i = rQ j l' := h
      exact hphXY _ _ i.2 j.2 (hashed_getD_phase S.sender.len S.receiver.len ht ht' i.2 j.2 (hal _ i.2) l'.2 h).2.2
    · have h : sP i = sQ j l' := h
      exact absurd (congrArg Prod.fst h) (by simp [sQ, sP, otPt])
  have hun := masks_uniform hu P Q hQ hPQ c.ms S.size'
  have hun64 := masks_uniform hu P Q hQ hPQ 8 (by omega)
  let eqv : Fin (c.N * c.M) ≃ Fin c.N × Fin c.M := finProdFinEquiv.symm
  let A : Fin (c.N * c.M) → I := fun p => (true, eqv p)
  let B : Fin (c.N * c.M) → I := fun p => (false, eqv p)
  have hA : Function.Injective A := fun p q h => eqv.injective (congrArg Prod.snd h)
  have hB : Function.Injective B := fun p q h => eqv.injective (congrArg Prod.snd h)
  have hAB : ∀ p q, A p ≠ B q := fun p q h => absurd (congrArg Prod.fst h) (by simp [A, B])
  let G : (Fin (c.N * c.M) → Nat) → Prop := fun v => Function.Injective fun p => v p % 2 ^ (8 * 8)
  have hG : ∀ v, G v → Function.Injective v := by
    intro v hv p q h
    apply hv
    show v p % _ = v q % _
    rw [h]
  have key := hun.hit A B hA hB hAB (fun _ => trivial) (fun _ => trivial) G hG
  -- the event is in the event of a wrong result
  have hsub : {ω | G (fun p => cut c.ms (u ω (P (B p)) ^^^ u ω (Q (B p)))) ∧ ∃ p q, cut c.ms (u ω (P (A p)) ^^^ u ω (Q (A p))) =
      cut c.ms (u ω (P (B q)) ^^^ u ω (Q (B q)))} ⊆
      {ω | Wrong X Y (online (withOt c (u ω)) (otInputs hash c X) (otInputs hash c Y) sbins rbins perms maskPerm rnd sched)} := by
    rintro ω ⟨hg, p, q, hpq⟩
    obtain ⟨buf, hb1, _, hb3, hb4⟩ := hrun (u ω)
    have hent := hb4 0 (by omega)
    have hb1' : sendBuffer (withOt c (u ω)) (otInputs hash c X) sbins perms maskPerm (sched.foldl (sendStep sbins) (sendStart (withOt c (u ω)))) = .ok buf := hb1
    obtain ⟨s, hs, hsb⟩ := hb3 (eqv p).1 (eqv p).2 (eqv p).1.2 (eqv p).2.2
    have hsb : buf.getD s 0 = cut c.ms (u ω (rP (eqv q).1) ^^^ u ω (rQ (eqv q).1 (eqv q).2)) := hsb.trans hpq
    have hks : c.keySize = 8 := Nat.min_eq_left S.size
    -- the keys are different
    have hbins : c.binsOf 0 = List.range c.B := by
      have := binsOf_flatMap c S.threads S.small
      rw [hT] at this
      simpa using this
    have hperm : ((c.binsOf 0).flatMap rbins).Perm (List.range c.N) := by
      rw [hbins]
      exact S.receiver.holds S.bins
    have hkeys : ((entries (withOt c (u ω)) (otInputs hash c Y) (receiverMasks (withOt c (u ω)) (otInputs hash c Y) rbins rnd) rbins 0).map (·.1)).Nodup := by
      rw [hent, List.map_flatMap]
      have e : ((c.binsOf 0).flatMap fun b => ((rbins b).flatMap fun j => (List.range c.M).map fun l => (cut c.keySize (u ω (rP j) ^^^ u ω (rQ j l)),
              j * c.M + l, u ω (rP j) ^^^ u ω (rQ j l))).map (·.1)) =
          ((c.binsOf 0).flatMap rbins).flatMap fun j => (List.range c.M).map fun l => cut c.keySize (u ω (rP j) ^^^ u ω (rQ j l)) := by
        rw [List.flatMap_assoc]
        apply flatMap_congr'
        intro b _
        rw [List.map_flatMap]
        apply flatMap_congr'
        intro j _
        rw [List.map_map]
        rfl
      refine (List.Perm.nodup_iff (List.Perm.trans (List.Perm.of_eq e) (hperm.flatMap_right _))).mpr ?_
      have hinj : ∀ j l j' l', j < c.N → l < c.M → j' < c.N → l' < c.M →
          cut c.keySize (u ω (rP j) ^^^ u ω (rQ j l)) = cut c.keySize (u ω (rP j') ^^^ u ω (rQ j' l')) → j = j' ∧ l = l' := by
        intro j l j' l' hj hl hj' hl' h
        have h1 := @hg (eqv.symm (⟨j, hj⟩, ⟨l, hl⟩)) (eqv.symm (⟨j', hj'⟩, ⟨l', hl'⟩)) (by
          show cut c.ms _ % 2 ^ (8 * 8) = cut c.ms _ % 2 ^ (8 * 8)
          rw [cut_cut S.size, cut_cut S.size]
          simp only [B, Equiv.apply_symm_apply]
          rw [hks] at h
          exact h)
        have h2 := eqv.symm.injective h1
        simp only [Prod.mk.injEq, Fin.mk.injEq] at h2
        exact h2
      rw [List.nodup_iff_pairwise_ne, List.pairwise_flatMap]
      constructor
      · intro j hj
        rw [List.pairwise_map]
        refine List.Pairwise.imp_of_mem ?_ (List.nodup_iff_pairwise_ne.mp (List.nodup_range (n := c.M)))
        intro l l' hl hl' hne he
        exact hne (hinj j l j l' (List.mem_range.mp hj) (List.mem_range.mp hl) (List.mem_range.mp hj) (List.mem_range.mp hl') he).2
      · refine List.Pairwise.imp_of_mem ?_ (List.nodup_iff_pairwise_ne.mp (List.nodup_range (n := c.N)))
        intro j j' hj hj' hne x hx y hy he
        obtain ⟨l, hl, rfl⟩ := List.mem_map.mp hx
        obtain ⟨l', hl', rfl⟩ := List.mem_map.mp hy
        exact hne (hinj j l j' l' (List.mem_range.mp hj) (List.mem_range.mp hl) (List.mem_range.mp hj') (List.mem_range.mp hl') he).1
    -- the entry that is hit
    have he : (cut c.keySize (u ω (rP (eqv q).1) ^^^ u ω (rQ (eqv q).1 (eqv q).2)), ((eqv q).1 : Nat) * c.M + (eqv q).2,
        u ω (rP (eqv q).1) ^^^ u ω (rQ (eqv q).1 (eqv q).2)) ∈
        entries (withOt c (u ω)) (otInputs hash c Y) (receiverMasks (withOt c (u ω)) (otInputs hash c Y) rbins rnd) rbins 0 := by
      rw [hent]
      have hm : ((eqv q).1 : Nat) ∈ (c.binsOf 0).flatMap rbins := hperm.mem_iff.mpr (List.mem_range.mpr (eqv q).1.2)
      obtain ⟨b, hb, hjb⟩ := List.mem_flatMap.mp hm
      exact List.mem_flatMap.mpr ⟨b, hb, List.mem_flatMap.mpr ⟨_, hjb, List.mem_map.mpr ⟨_, List.mem_range.mpr (eqv q).2.2, rfl⟩⟩⟩
    have hk : ∀ e ∈ entries (withOt c (u ω)) (otInputs hash c Y) (receiverMasks (withOt c (u ω)) (otInputs hash c Y) rbins rnd) rbins 0,
        e.1 = cut (withOt c (u ω)).keySize e.2.2 := by
      intro e he
      obtain ⟨_, _, he⟩ := List.mem_flatMap.mp he
      obtain ⟨_, _, he⟩ := List.mem_flatMap.mp he
      obtain ⟨_, _, rfl⟩ := List.mem_map.mp he
      rfl
    have hlook := lookup_hit (c := withOt c (u ω)) hkeys hk he
    refine ⟨(List.range c.T).flatMap (recvThread (withOt c (u ω)) (otInputs hash c Y)
      (receiverMasks (withOt c (u ω)) (otInputs hash c Y) rbins rnd) rbins buf), ?_, (eqv q).1, ?_, ?_⟩
    · unfold online
      rw [if_neg (show ¬ (withOt c (u ω)).ms > 16 from Nat.not_lt.mpr S.size'), hb1']
      exact receive_ok (c := withOt c (u ω)) S.masks S.size _ _ _ _
    · refine List.mem_flatMap.mpr ⟨0, List.mem_range.mpr S.threads, ?_⟩
      obtain ⟨hc1, hc2⟩ := row_chunk (c := withOt c (u ω)) S.threads hs
      refine List.mem_flatMap.mpr ⟨s / (withOt c (u ω)).chunk, ?_, ?_⟩
      · refine List.mem_filter.mpr ⟨List.mem_range.mpr hc1, ?_⟩
        have : (withOt c (u ω)).T = 1 := hT
        simp [this, Nat.mod_one]
      · refine List.mem_filterMap.mpr ⟨s, hc2, ?_⟩
        rw [hsb]
        refine Eq.trans hlook ?_
        congr 1
        show (((eqv q).1 : Nat) * c.M + (eqv q).2) / c.M = (eqv q).1
        rw [Nat.mul_comm, Nat.mul_add_div hM, Nat.div_eq_of_lt (eqv q).2.2, Nat.add_zero]
    · rintro ⟨h1, h2⟩
      exact hd _ (List.getElem_mem h1) h2
  refine le_trans ?_ (measure_mono hsub)
  refine le_trans ?_ (le_of_eq key.symm)
  refine mul_le_mul' ?_ (hit_lower _ _ _ (by positivity) ?_)
  · have h1 : (1 : ℝ≥0∞) ≤ μ {ω | G fun p => cut c.ms (u ω (P (B p)) ^^^ u ω (Q (B p)))} +
        μ {ω | ∃ p q, p ≠ q ∧ cut 8 (u ω (P (B p)) ^^^ u ω (Q (B p))) = cut 8 (u ω (P (B q)) ^^^ u ω (Q (B q)))} := by
      rw [← hun.univ]
      refine le_trans (measure_mono ?_) (measure_union_le _ _)
      intro ω _
      by_cases hw : G fun p => cut c.ms (u ω (P (B p)) ^^^ u ω (Q (B p)))
      · exact .inl hw
      · refine .inr ?_
        have hw : ¬ Function.Injective fun p => cut c.ms (u ω (P (B p)) ^^^ u ω (Q (B p))) % 2 ^ (8 * 8) := hw
        unfold Function.Injective at hw
        push Not at hw
        obtain ⟨p, q, h1, h2⟩ := hw
        refine ⟨p, q, h2, ?_⟩
        rwa [cut_cut S.size, cut_cut S.size] at h1
    have h2 := hun64.same (by positivity) B hB (fun _ => trivial)
    have h3 : ((c.N * c.M : ℕ) : ℝ) * ((c.N * c.M : ℕ) - 1) / (2 * (2 ^ (8 * 8) : ℕ)) = (c.N * c.M : ℕ) * ((c.N * c.M : ℕ) - 1) / 2 ^ 65 := by
      norm_num
    rw [h3] at h2
    have hpos : (0 : ℝ) ≤ (c.N * c.M : ℕ) * ((c.N * c.M : ℕ) - 1) / 2 ^ 65 := by
      have : (1 : ℝ) ≤ (c.N * c.M : ℕ) := by exact_mod_cast S.masks
      have : (0 : ℝ) ≤ ((c.N * c.M : ℕ) : ℝ) - 1 := by linarith
      positivity
    rw [ENNReal.ofReal_sub _ hpos, ENNReal.ofReal_one, tsub_le_iff_right]
    exact h1.trans (add_le_add le_rfl h2)
  · exact hq.trans (Nat.pow_le_pow_right (by omega) (by have := S.size; omega))

/-- A lower bound without the exponential function. -/
theorem one_sub_exp {x : ℝ} (h0 : 0 ≤ x) : x - x ^ 2 / 2 ≤ 1 - Real.exp (-x) := by
  have h1 := Real.quadratic_le_exp_of_nonneg h0
  have h2 : 0 < 1 + x + x ^ 2 / 2 := by positivity
  rw [Real.exp_neg]
  have h3 : (Real.exp x)⁻¹ ≤ (1 + x + x ^ 2 / 2)⁻¹ := inv_anti₀ h2 h1
  have h4 : (1 + x + x ^ 2 / 2)⁻¹ ≤ 1 - x + x ^ 2 / 2 := by
    rw [inv_le_iff_one_le_mul₀ h2]
    nlinarith [sq_nonneg (x ^ 2)]
  linarith

theorem product_gt (q d statSec : Nat) (hq : (q : ℝ) ≤ 2 ^ 31) (hq1 : 1 ≤ q) (hs : 4 ≤ statSec) (hx : (2 : ℝ) * (1 / 2) ^ statSec < q * q / (d : ℝ)) :
    (2 : ℝ≥0∞)⁻¹ ^ statSec < ENNReal.ofReal (1 - q * (q - 1) / 2 ^ 65) * ENNReal.ofReal (1 - Real.exp (-(q * q / d))) := by
  have hq1 : (1 : ℝ) ≤ q := by exact_mod_cast hq1
  have hl : (7 / 8 : ℝ) ≤ 1 - q * (q - 1) / 2 ^ 65 := by
    have : (q : ℝ) * (q - 1) ≤ 2 ^ 31 * 2 ^ 31 := by nlinarith
    have : (q : ℝ) * (q - 1) / 2 ^ 65 ≤ 2 ^ 31 * 2 ^ 31 / 2 ^ 65 := by gcongr
    norm_num at this ⊢
    linarith
  have hz : (0 : ℝ) < (1 / 2) ^ statSec := by positivity
  have hz1 : ((1 : ℝ) / 2) ^ statSec ≤ (1 / 2) ^ 4 := pow_le_pow_of_le_one (by norm_num) (by norm_num) hs
  have he : Real.exp (-(q * q / d)) ≤ Real.exp (-(2 * (1 / 2) ^ statSec)) := Real.exp_le_exp.mpr (by linarith)
  have h1 := one_sub_exp (x := 2 * (1 / 2) ^ statSec) (by positivity)
  have h2 : (2 : ℝ) * (1 / 2) ^ statSec * (15 / 16) ≤ 1 - Real.exp (-(q * q / d)) := by
    norm_num at hz1
    nlinarith
  rw [← ENNReal.ofReal_mul (by linarith), show (2 : ℝ≥0∞)⁻¹ ^ statSec = ENNReal.ofReal ((1 / 2) ^ statSec) by
      rw [ENNReal.ofReal_pow (by norm_num)]
      congr 1
      rw [one_div, ENNReal.ofReal_inv_of_pos (by norm_num)]
      norm_num,
    ENNReal.ofReal_lt_ofReal_iff_of_nonneg (by positivity)]
  nlinarith

/-- C125, negation: with the mask size of the code and at least `2^12` masks, one thread and disjoint sets, a wrong element is reported with
probability more than `2^-statSec`. -/
theorem C125_default (hu : Uniform μ Set.univ (2 ^ 128) fun ω p => (u ω p).toNat) (S : Setup c hash X Y sbins rbins perms maskPerm sched)
    (hT : c.T = 1) (ha : AllApart c hash X Y) (hd : ∀ y ∈ Y, y ∉ X) (rnd : Nat → Nat → Nat) (hq : c.N * c.M ≤ 2 ^ 31)
    (hq' : 2 ^ 12 ≤ c.N * c.M) (statSec : Nat) (hs : 4 ≤ statSec) (hms : c.ms = maskSize statSec (c.N * c.M)) :
    (2 : ℝ≥0∞)⁻¹ ^ statSec <
      μ {ω | Wrong X Y (online (withOt c (u ω)) (otInputs hash c X) (otInputs hash c Y) sbins rbins perms maskPerm rnd sched)} := by
  refine lt_of_lt_of_le (product_gt (c.N * c.M) (2 ^ (8 * c.ms)) statSec (by exact_mod_cast hq) (by omega) hs ?_)
    (C125_lower hu S hT ha hd rnd (by omega))
  have h1 := C67_short statSec (c.N * c.M) (by omega) hq'
  rw [← hms] at h1
  have hq0 : (0 : ℝ) < (c.N * c.M : ℕ) := by
    have : 0 < c.N * c.M := by omega
    exact_mod_cast this
  have h2 : (2 : ℝ) ^ (8 * (c.ms : ℝ)) < 2 ^ ((statSec : ℝ) + 2 * Real.logb 2 ((c.N * c.M : ℕ) : ℝ) - 1) :=
    Real.rpow_lt_rpow_of_exponent_lt (by norm_num) h1
  have h3 : (2 : ℝ) ^ ((statSec : ℝ) + 2 * Real.logb 2 ((c.N * c.M : ℕ) : ℝ) - 1) = 2 ^ statSec * ((c.N * c.M : ℕ) * (c.N * c.M : ℕ)) / 2 := by
    rw [Real.rpow_sub (by norm_num), Real.rpow_add (by norm_num), Real.rpow_natCast, Real.rpow_one, two_mul, Real.rpow_add (by norm_num),
      Real.rpow_logb (by norm_num) (by norm_num) hq0]
  have h4 : (2 : ℝ) ^ (8 * (c.ms : ℝ)) = ((2 ^ (8 * c.ms) : ℕ) : ℝ) := by
    rw [show (8 * (c.ms : ℝ)) = ((8 * c.ms : ℕ) : ℝ) by push_cast; rfl, Real.rpow_natCast]
    push_cast
    rfl
  rw [h3, h4] at h2
  have hd0 : (0 : ℝ) < ((2 ^ (8 * c.ms) : ℕ) : ℝ) := by positivity
  rw [lt_div_iff₀ hd0, one_div, inv_pow, ← div_eq_mul_inv, div_mul_eq_mul_div, div_lt_iff₀ (by positivity)]
  linarith

/-- The mask size for `2^24` masks (a million items, bins of 16). -/
theorem maskSize_million : maskSize 40 (2 ^ 24) = 9 := by
  rw [maskSize_eq]
  have h1 := Real.log_two_gt_d9
  have h2 := Real.log_two_lt_d9
  have e : ⌊((40 : ℕ) : ℝ) + 2 * Real.log ((2 ^ 24 : ℕ) : ℝ) - 1⌋₊ = 72 := by
    rw [Nat.cast_pow, Real.log_pow, Nat.floor_eq_iff (by push_cast; linarith)]
    push_cast
    constructor <;> linarith
  rw [e]

/-- C125, in numbers: `2^20` items, bins of 16, `statSec = 40`: more than `2^-25`. -/
theorem C125_million (hu : Uniform μ Set.univ (2 ^ 128) fun ω p => (u ω p).toNat) (S : Setup c hash X Y sbins rbins perms maskPerm sched)
    (hT : c.T = 1) (ha : AllApart c hash X Y) (hd : ∀ y ∈ Y, y ∉ X) (rnd : Nat → Nat → Nat) (hN : c.N = 2 ^ 20) (hM : c.M = 2 ^ 4)
    (hms : c.ms = maskSize 40 (c.N * c.M)) :
    (2 : ℝ≥0∞)⁻¹ ^ 25 <
      μ {ω | Wrong X Y (online (withOt c (u ω)) (otInputs hash c X) (otInputs hash c Y) sbins rbins perms maskPerm rnd sched)} := by
  have hq : c.N * c.M = 2 ^ 24 := by rw [hN, hM]; norm_num
  have h0 := C125_lower hu S hT ha hd rnd (by rw [hq]; norm_num)
  rw [hms, hq, maskSize_million] at h0
  have hl : (7 / 8 : ℝ) ≤ 1 - ((2 ^ 24 : ℕ) : ℝ) * (((2 ^ 24 : ℕ) : ℝ) - 1) / 2 ^ 65 := by norm_num
  have hx : ((2 ^ 24 : ℕ) : ℝ) * ((2 ^ 24 : ℕ) : ℝ) / ((2 ^ (8 * 9) : ℕ) : ℝ) = (1 / 2) ^ 24 := by norm_num
  rw [hx] at h0
  refine lt_of_lt_of_le ?_ h0
  have h1 := one_sub_exp (x := ((1 : ℝ) / 2) ^ 24) (by positivity)
  have h2 : ((1 : ℝ) / 2) ^ 24 * (15 / 16) ≤ 1 - Real.exp (-(1 / 2) ^ 24) := by
    refine le_trans ?_ h1
    norm_num
  rw [← ENNReal.ofReal_mul (by linarith), show (2 : ℝ≥0∞)⁻¹ ^ 25 = ENNReal.ofReal ((1 / 2) ^ 25) by
      rw [ENNReal.ofReal_pow (by norm_num)]
      congr 1
      rw [one_div, ENNReal.ofReal_inv_of_pos (by norm_num)]
      norm_num,
    ENNReal.ofReal_lt_ofReal_iff_of_nonneg (by positivity)]
  calc ((1 : ℝ) / 2) ^ 25 < 7 / 8 * ((1 / 2) ^ 24 * (15 / 16)) := by norm_num
    _ ≤ _ := mul_le_mul hl h2 (by positivity) (by linarith)

end

/-! ### non-vacuity -/

/-- Random OT values exist. -/
example : ∃ (Ω : Type) (_ : MeasurableSpace Ω) (μ : Measure Ω) (u : Ω → OtPt → Block), Uniform μ Set.univ (2 ^ 128) fun ω p => (u ω p).toNat := by
  obtain ⟨μ, hμ⟩ := Coll.exists_uniform_any OtPt (2 ^ 128) (by positivity)
  exact ⟨_, _, μ, fun ω p => BitVec.ofFin (ω p), hμ⟩

/-- A setup. -/
example : Setup (exCfg 1) none [2#128, 3#128] [4#128, 5#128] exBins exBins (fun _ => [0]) [1, 0] [0, 0] ∧
    AllApart (exCfg 1) none [2#128, 3#128] [4#128, 5#128] := by
  have h2 : ∀ b, b < 2 → b = 0 ∨ b = 1 := by omega
  refine ⟨⟨by decide, by decide, by decide, by decide, by decide, by decide, ⟨rfl, ?_, ?_⟩, ⟨rfl, ?_, ?_⟩, ?_, by decide, ?_⟩, by unfold AllApart; decide +kernel⟩
  · intro b hb
    rcases h2 b hb with rfl | rfl <;> decide
  · intro b hb
    rcases h2 b hb with rfl | rfl <;> decide
  · intro b hb
    rcases h2 b hb with rfl | rfl <;> decide
  · intro b hb
    rcases h2 b hb with rfl | rfl <;> decide
  · intro b hb
    rcases h2 b hb with rfl | rfl <;> decide
  · intro t ht
    have ht : t < 1 := ht
    rw [show t = 0 by omega]
    decide +kernel

end Verif.Rr17
