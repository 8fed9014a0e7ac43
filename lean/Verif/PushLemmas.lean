import Verif.PushModel
import Verif.ListLemmas
/- Lemmas for the simple hasher: the invariant of concurrent pushes. -/
namespace Verif.Push
open Verif

/-- `ord b`: the calls that have taken a position in bin `b`, in the order of their positions. -/
structure Inv (jobs : List (Nat × Nat)) (nb mx : Nat) (c : Conc) (ord : Nat → List Nat) : Prop where
  cfg : c.sh.binCount = nb ∧ c.sh.maxBin = mx
  size : ∀ b, c.sh.sizes b = (ord b).length
  nodup : ∀ b, (ord b).Nodup
  mem : ∀ b j, j ∈ ord b ↔ c.calls j ≠ .new ∧ (jobs[j]?).map (·.1) = some b
  pos : ∀ b j p, (jobs[j]?).map (·.1) = some b → c.calls j = .took p → (ord b)[p]? = some j
  wrote : ∀ b p j v, (ord b)[p]? = some j → c.calls j = .done → jobs[j]? = some (b, v) →
    c.sh.mem (b * mx + p) = v

/-- The calls for bin `b`. -/
def callsOf (jobs : List (Nat × Nat)) (b : Nat) : List Nat :=
  (List.range jobs.length).filter fun j => (jobs.getD j (0, 0)).1 == b

theorem map_getD_range (jobs : List (Nat × Nat)) :
    (List.range jobs.length).map (fun j => jobs.getD j (0, 0)) = jobs := by
  apply List.ext_getElem
  · simp
  · intro i h1 h2
    simp only [List.getElem_map, List.getElem_range, List.getD, List.getElem?_eq_getElem h2,
      Option.getD_some]

theorem callsOf_values (jobs : List (Nat × Nat)) (b : Nat) :
    (callsOf jobs b).map (fun j => (jobs.getD j (0, 0)).2) =
      (jobs.filter fun p => p.1 == b).map (·.2) := by
  conv => rhs; rw [← map_getD_range jobs, List.filter_map, List.map_map]
  rfl

theorem callsOf_length (jobs : List (Nat × Nat)) (b : Nat) :
    (callsOf jobs b).length = (jobs.filter fun p => p.1 == b).length := by
  have := congrArg List.length (callsOf_values jobs b)
  simpa using this

theorem mem_callsOf {jobs : List (Nat × Nat)} {b j : Nat} :
    j ∈ callsOf jobs b ↔ (jobs[j]?).map (·.1) = some b := by
  simp only [callsOf, List.mem_filter, List.mem_range, beq_iff_eq]
  constructor
  · rintro ⟨h1, h2⟩
    simp only [List.getD, List.getElem?_eq_getElem h1, Option.getD_some] at h2
    rw [List.getElem?_eq_getElem h1, Option.map_some, h2]
  · intro h
    cases h3 : jobs[j]? with
    | none => rw [h3] at h; simp at h
    | some x =>
      rw [h3] at h
      simp only [Option.map_some, Option.some.injEq] at h
      refine ⟨(List.getElem?_eq_some_iff.mp h3).1, ?_⟩
      simp only [List.getD, h3, Option.getD_some, h]

theorem callsOf_nodup (jobs : List (Nat × Nat)) (b : Nat) : (callsOf jobs b).Nodup :=
  List.nodup_range.sublist List.filter_sublist

theorem Inv.sub {jobs nb mx c ord} (h : Inv jobs nb mx c ord) (b : Nat) :
    ∀ j ∈ ord b, j ∈ callsOf jobs b := fun j hj => mem_callsOf.mpr ((h.mem b j).mp hj).2

theorem step_inv {jobs : List (Nat × Nat)} {nb mx : Nat} {c : Conc} {ord : Nat → List Nat}
    (h : Inv jobs nb mx c ord) (hb : ∀ p ∈ jobs, p.1 < nb) (hmx : mx ≤ 255)
    (hload : ∀ b, (jobs.filter fun p => p.1 == b).length ≤ mx) (j : Nat) :
    ∃ c' ord', step jobs c j = .ok c' ∧ Inv jobs nb mx c' ord' ∧
      (c'.calls j = .new → j ≥ jobs.length) ∧
      (∀ p, c.calls j = .took p → j < jobs.length → c'.calls j = .done) ∧
      (∀ j', c.calls j' ≠ .new → c'.calls j' ≠ .new) ∧
      (∀ j', c.calls j' = .done → c'.calls j' = .done) := by
  unfold step
  cases hj : jobs[j]? with
  | none =>
    have : jobs.length ≤ j := List.getElem?_eq_none_iff.mp hj
    exact ⟨c, ord, rfl, h, fun _ => this, fun _ _ h => by omega, fun _ h => h, fun _ h => h⟩
  | some q =>
    obtain ⟨b, v⟩ := q
    have hjl : j < jobs.length := (List.getElem?_eq_some_iff.mp hj).1
    have hjb : (jobs[j]?).map (·.1) = some b := by rw [hj]; rfl
    have hbn : b < nb := hb (b, v) (List.mem_of_getElem? hj)
    cases hc : c.calls j with
    | new =>
      have hnot : j ∉ ord b := fun hm => ((h.mem b j).mp hm).1 hc
      have hlen : (ord b).length + 1 ≤ mx := by
        have h1 : (ord b ++ [j]).Nodup := by
          rw [List.nodup_append]
          refine ⟨h.nodup b, by simp, ?_⟩
          intro x hx y hy e
          rw [List.mem_singleton] at hy
          rw [e, hy] at hx
          exact hnot hx
        have h2 := length_le_of_nodup_subset h1 (l₂ := callsOf jobs b) (by
          intro x hx
          rcases List.mem_append.mp hx with hx | hx
          · exact h.sub b x hx
          · rw [List.mem_singleton] at hx; rw [hx]; exact mem_callsOf.mpr hjb)
        rw [callsOf_length] at h2
        have := hload b
        simp at h2
        omega
      have hf : fetchAdd c.sh b = .ok ((ord b).length, SH.mk c.sh.binCount c.sh.maxBin
          (fun b' => if b' = b then (ord b).length + 1 else c.sh.sizes b') c.sh.mem) := by
        unfold fetchAdd
        rw [h.cfg.1, if_pos hbn, h.size b, Nat.mod_eq_of_lt (by omega)]
      simp only [hf, Out.bind]
      refine ⟨_, fun b' => if b' = b then ord b ++ [j] else ord b', rfl, ⟨h.cfg, ?_, ?_, ?_, ?_, ?_⟩,
        ?_, ?_, ?_, ?_⟩
      · intro b'
        simp only [setCall]
        split
        · simp
        · exact h.size b'
      · intro b'
        split
        · rw [List.nodup_append]
          refine ⟨h.nodup b, by simp, ?_⟩
          intro x hx y hy e
          rw [List.mem_singleton] at hy
          rw [e, hy] at hx
          exact hnot hx
        · exact h.nodup b'
      · intro b' j'
        simp only [setCall]
        by_cases e1 : b' = b
        · subst e1
          simp only [if_true, List.mem_append, List.mem_singleton]
          by_cases e2 : j' = j
          · subst e2; simp [hjb]
          · simp only [e2, or_false, if_false]; exact h.mem b' j'
        · simp only [e1, if_false]
          by_cases e2 : j' = j
          · subst e2
            rw [h.mem b' j', hjb]
            simp only [Option.some.injEq, hc]
            constructor
            · intro h; exact absurd rfl h.1
            · intro h; exact absurd h.2.symm e1
          · simp only [e2, if_false]; exact h.mem b' j'
      · intro b' j' p hjb' hp
        simp only [setCall] at hp ⊢
        by_cases e2 : j' = j
        · subst e2
          rw [if_pos rfl] at hp
          rw [hjb] at hjb'
          injection hjb' with hjb'
          injection hp with hp
          subst hjb' hp
          simp
        · rw [if_neg e2] at hp
          have := h.pos b' j' p hjb' hp
          split
          · rename_i e1
            subst e1
            rw [List.getElem?_append_left (List.getElem?_eq_some_iff.mp this).1]
            exact this
          · exact this
      · intro b' p j' v' hp hd hjv
        simp only [setCall] at hp hd ⊢
        by_cases e2 : j' = j
        · rw [if_pos e2] at hd; simp at hd
        · rw [if_neg e2] at hd
          apply h.wrote b' p j' v' _ hd hjv
          split at hp
          · rename_i e1
            subst e1
            by_cases hpl : p < (ord b').length
            · rw [List.getElem?_append_left hpl] at hp; exact hp
            · rw [List.getElem?_append_right (by omega)] at hp
              have := List.mem_of_getElem? hp
              rw [List.mem_singleton] at this
              exact absurd this e2
          · exact hp
      · intro hn; simp [setCall] at hn
      · intro p hp; simp at hp
      · intro j' hn
        simp only [setCall]
        split
        · simp
        · exact hn
      · intro j' hn
        simp only [setCall]
        split
        · rename_i e; rw [e, hc] at hn; simp at hn
        · exact hn
    | took pos =>
      have hpos := h.pos b j pos hjb hc
      have hpl : pos < (ord b).length := (List.getElem?_eq_some_iff.mp hpos).1
      have hlen : (ord b).length ≤ mx := by
        have h2 := length_le_of_nodup_subset (h.nodup b) (h.sub b)
        rw [callsOf_length] at h2
        have := hload b
        omega
      have hin : b * mx + pos < nb * mx := by
        have : (b + 1) * mx ≤ nb * mx := Nat.mul_le_mul_right _ hbn
        rw [Nat.succ_mul] at this
        omega
      have hf : store c.sh b pos v = .ok (SH.mk c.sh.binCount c.sh.maxBin c.sh.sizes
          (fun a => if a = b * mx + pos then v else c.sh.mem a)) := by
        unfold store
        rw [h.cfg.1, h.cfg.2, if_pos hin]
      simp only [hf, Out.bind]
      refine ⟨_, ord, rfl, ⟨h.cfg, h.size, h.nodup, ?_, ?_, ?_⟩, ?_, ?_, ?_, ?_⟩
      · intro b' j'
        simp only [setCall]
        by_cases e2 : j' = j
        · subst e2
          rw [h.mem b' j', hc]; simp
        · simp only [e2, if_false]; exact h.mem b' j'
      · intro b' j' p hjb' hp
        simp only [setCall] at hp
        by_cases e2 : j' = j
        · rw [if_pos e2] at hp; simp at hp
        · rw [if_neg e2] at hp; exact h.pos b' j' p hjb' hp
      · intro b' p j' v' hp hd hjv
        simp only [setCall] at hd ⊢
        by_cases e2 : j' = j
        · subst e2
          rw [hj] at hjv
          injection hjv with hjv
          injection hjv with hjv1 hjv2
          subst hjv1 hjv2
          have hpe : p = pos := by
            have h1 := List.getElem?_eq_some_iff.mp hp
            have h2 := List.getElem?_eq_some_iff.mp hpos
            exact (List.getElem_inj (h.nodup b)).mp (h1.2.trans h2.2.symm)
          rw [hpe, if_pos rfl]
        · rw [if_neg e2] at hd
          have hw := h.wrote b' p j' v' hp hd hjv
          split
          · rename_i ea
            exfalso
            have hp2 : p < (ord b').length := (List.getElem?_eq_some_iff.mp hp).1
            have hlen' : (ord b').length ≤ mx := by
              have h2 := length_le_of_nodup_subset (h.nodup b') (h.sub b')
              rw [callsOf_length] at h2
              have := hload b'
              omega
            have hbb : b' = b := by
              rcases Nat.lt_trichotomy b' b with hlt | heq | hgt
              · have : (b' + 1) * mx ≤ b * mx := Nat.mul_le_mul_right _ hlt
                rw [Nat.succ_mul] at this
                omega
              · exact heq
              · have : (b + 1) * mx ≤ b' * mx := Nat.mul_le_mul_right _ hgt
                rw [Nat.succ_mul] at this
                omega
            subst hbb
            have : p = pos := by omega
            subst this
            rw [hpos] at hp
            injection hp with hp
            exact e2 hp.symm
          · exact hw
      · intro hn; simp [setCall] at hn
      · intro p _ _; simp [setCall]
      · intro j' hn
        simp only [setCall]
        split
        · simp
        · exact hn
      · intro j' hn
        simp only [setCall]
        split
        · rfl
        · exact hn
    | done =>
      exact ⟨c, ord, rfl, h, fun hn => by rw [hc] at hn; simp at hn, fun p hp => by simp at hp,
        fun _ h => h, fun _ h => h⟩

theorem run_inv {jobs : List (Nat × Nat)} {nb mx : Nat} (hb : ∀ p ∈ jobs, p.1 < nb) (hmx : mx ≤ 255)
    (hload : ∀ b, (jobs.filter fun p => p.1 == b).length ≤ mx) (sched : List Nat) {c : Conc}
    {ord : Nat → List Nat} (h : Inv jobs nb mx c ord) :
    ∃ c' ord', run jobs c sched = .ok c' ∧ Inv jobs nb mx c' ord' ∧
      (∀ j', c.calls j' = .done → c'.calls j' = .done) ∧
      (∀ j, j < jobs.length → c.calls j ≠ .new → 1 ≤ sched.count j → c'.calls j = .done) ∧
      (∀ j, j < jobs.length → 2 ≤ sched.count j → c'.calls j = .done) := by
  induction sched generalizing c ord with
  | nil =>
    exact ⟨c, ord, rfl, h, fun _ h => h, fun j _ _ hc => by simp at hc, fun j _ hc => by simp at hc⟩
  | cons a rest ih =>
    obtain ⟨c1, ord1, h1, hI1, hn, hat, hmono, hdone⟩ := step_inv h hb hmx hload a
    obtain ⟨c', ord', h2, hI2, k1, k2, k3⟩ := ih hI1
    refine ⟨c', ord', by simp only [run, h1, Out.bind, h2], hI2, fun j hj => k1 j (hdone j hj), ?_, ?_⟩
    · intro j hj hnew hcount
      by_cases e : a = j
      · subst e
        cases hc : c.calls a with
        | new => exact absurd hc hnew
        | took p => exact k1 a (hat p hc hj)
        | done => exact k1 a (hdone a hc)
      · rw [List.count_cons_of_ne e] at hcount
        exact k2 j hj (hmono j hnew) hcount
    · intro j hj hcount
      by_cases e : a = j
      · subst e
        rw [List.count_cons_self] at hcount
        exact k2 a hj (fun hx => by have := hn hx; omega) (by omega)
      · rw [List.count_cons_of_ne e] at hcount
        exact k3 j hj hcount

theorem inv_start (jobs : List (Nat × Nat)) {quot mx : Nat} {s : SH} (h : init quot mx = .ok s) :
    Inv jobs s.binCount mx (start s) (fun _ => []) ∧ mx ≤ 255 ∧ s.maxBin = mx := by
  unfold init at h
  split at h
  · simp at h
  · injection h with h
    subst h
    refine ⟨⟨⟨rfl, rfl⟩, fun _ => rfl, fun _ => List.nodup_nil, ?_, ?_, ?_⟩, by omega, rfl⟩
    · intro b j; simp [start]
    · intro b j p _ hp; simp [start] at hp
    · intro b p j v hp; simp at hp

/-- When every call has finished, each bin holds the values pushed to it. -/
theorem final_bins {jobs : List (Nat × Nat)} {nb mx : Nat} {c : Conc} {ord : Nat → List Nat}
    (h : Inv jobs nb mx c ord) (hd : ∀ j, j < jobs.length → c.calls j = .done) (b : Nat) :
    (getBin c.sh b).Perm ((jobs.filter fun p => p.1 == b).map (·.2)) := by
  have hp : (ord b).Perm (callsOf jobs b) := by
    rw [List.perm_iff_count]
    intro j
    rw [(h.nodup b).count, (callsOf_nodup jobs b).count]
    have : j ∈ ord b ↔ j ∈ callsOf jobs b := by
      rw [h.mem, mem_callsOf]
      constructor
      · exact fun h => h.2
      · intro hj
        refine ⟨?_, hj⟩
        have hjl : j < jobs.length := by
          cases h3 : jobs[j]? with
          | none => rw [h3] at hj; simp at hj
          | some x => exact (List.getElem?_eq_some_iff.mp h3).1
        rw [hd j hjl]; simp
    simp [this]
  rw [← callsOf_values]
  have hg : getBin c.sh b = (ord b).map fun j => (jobs.getD j (0, 0)).2 := by
    unfold getBin
    apply List.ext_getElem
    · simp [h.size b]
    · intro p h1 h2
      simp only [List.getElem_map, List.getElem_range, h.cfg.2]
      have hp : p < (ord b).length := by simpa using h2
      have hjm : (ord b)[p] ∈ ord b := List.getElem_mem _
      have hjb := ((h.mem b _).mp hjm).2
      cases h3 : jobs[(ord b)[p]]? with
      | none => rw [h3] at hjb; simp at hjb
      | some q =>
        rw [h3] at hjb
        simp only [Option.map_some, Option.some.injEq] at hjb
        have hjl : (ord b)[p] < jobs.length := (List.getElem?_eq_some_iff.mp h3).1
        rw [h.wrote b p (ord b)[p] q.2 (List.getElem?_eq_getElem hp) (hd _ hjl)
          (by rw [h3, ← hjb])]
        simp only [List.getD, h3, Option.getD_some]
  rw [hg]
  exact hp.map _

end Verif.Push
