import Verif.Rr16Model
import Verif.PartProps
/-
Helper lemmas about the model of the RR16 protocol.
-/
namespace Verif.Rr16
open Verif Part

/-! ### the permutation -/

theorem build2_spec (k : Nat) (os : List Nat) :
    (os.length < k → build2 k os = .ub) ∧
    (k ≤ os.length → build2 k os = .ok (os.take k)) := by
  induction k generalizing os with
  | zero => exact ⟨fun h => by omega, fun _ => by simp [build2]⟩
  | succ k ih =>
    cases os with
    | nil => exact ⟨fun _ => rfl, fun h => by simp at h⟩
    | cons o os =>
      refine ⟨fun h => ?_, fun h => ?_⟩
      · rw [build2, (ih os).1 (by simpa using h)]; rfl
      · rw [build2, (ih os).2 (by simpa using h)]; rfl

/-- What a successful construction gives. -/
structure Built (bits : List Bool) (zs os perm : List Nat) : Prop where
  length : perm.length = bits.length
  ones : ∀ i : Nat, bits[i]? = some true → ∃ o ∈ os, perm[i]? = some o
  once : ∃ rest, (perm ++ rest).Perm (zs ++ os)

theorem build_ok (bits : List Bool) (zs os : List Nat) (h1 : bits.count true ≤ os.length)
    (h2 : bits.length ≤ zs.length + os.length) :
    ∃ perm, build bits zs os = .ok perm ∧ Built bits zs os perm := by
  induction bits generalizing zs os with
  | nil => exact ⟨[], by cases zs <;> rfl, rfl, fun i h => by simp at h, zs ++ os, List.Perm.refl _⟩
  | cons b bits ih =>
    cases zs with
    | nil =>
      refine ⟨os.take (bits.length + 1), ?_, ?_, ?_, ?_⟩
      · rw [build]
        · exact (build2_spec _ os).2 (by simpa using h2)
        · intro h; cases h
      · simp at h2 ⊢; omega
      · intro i hi
        have hlt : i < bits.length + 1 := by
          apply Classical.byContradiction
          intro hh
          rw [List.getElem?_eq_none (by simp; omega)] at hi
          cases hi
        have hlo : i < os.length := by simp at h2; omega
        refine ⟨os[i], List.getElem_mem hlo, ?_⟩
        rw [List.getElem?_take_of_lt hlt, List.getElem?_eq_getElem hlo]
      · exact ⟨os.drop (bits.length + 1), by rw [List.take_append_drop]; exact List.Perm.refl _⟩
    | cons z zs =>
      cases b with
      | false =>
        obtain ⟨r, e, h⟩ := ih zs os (by simpa using h1) (by simp at h2; omega)
        refine ⟨z :: r, ?_, ?_, ?_, ?_⟩
        · rw [build, e]; rfl
        · simp [h.length]
        · intro i hi
          cases i with
          | zero => simp at hi
          | succ i => simpa using h.ones i (by simpa using hi)
        · obtain ⟨rest, hp⟩ := h.once
          exact ⟨rest, by simpa using hp.cons z⟩
      | true =>
        cases os with
        | nil => simp at h1
        | cons o os =>
          obtain ⟨r, e, h⟩ := ih (z :: zs) os (by simpa using h1) (by simp at h2 ⊢; omega)
          refine ⟨o :: r, ?_, ?_, ?_, ?_⟩
          · rw [build, e]; rfl
          · simp [h.length]
          · intro i hi
            cases i with
            | zero => exact ⟨o, by simp, by simp⟩
            | succ i =>
              obtain ⟨o', ho', e'⟩ := h.ones i (by simpa using hi)
              exact ⟨o', List.mem_cons_of_mem _ ho', by simpa using e'⟩
          · obtain ⟨rest, hp⟩ := h.once
            refine ⟨rest, ?_⟩
            rw [List.cons_append]
            exact (hp.cons o).trans List.perm_middle.symm

theorem build_ub (bits : List Bool) (zs os : List Nat)
    (h : ¬(bits.count true ≤ os.length ∧ bits.length ≤ zs.length + os.length)) :
    build bits zs os = .ub := by
  induction bits generalizing zs os with
  | nil => simp at h
  | cons b bits ih =>
    cases zs with
    | nil =>
      rw [build]
      · apply (build2_spec _ os).1
        have := List.count_le_length (a := true) (l := b :: bits)
        simp at h this ⊢
        omega
      · intro h; cases h
    | cons z zs =>
      cases b with
      | false =>
        rw [build, ih zs os]
        · rfl
        · intro h'; apply h; simp at h' ⊢; omega
      | true =>
        cases os with
        | nil => rw [build]
        | cons o os =>
          rw [build, ih (z :: zs) os]
          · rfl
          · intro h'; apply h; simp at h' ⊢; omega

/-! ### the sender's check -/

theorem check_spec (total : Nat) (perm : List Nat) (used : Nat → Bool) (hr : ∀ i ∈ perm, i < total) :
    check total perm used = some (decide (perm.Nodup ∧ ∀ i ∈ perm, used i = false)) := by
  induction perm generalizing used with
  | nil => simp [check]
  | cons a perm ih =>
    have ha := hr a (List.mem_cons_self ..)
    rw [check, if_neg (by omega)]
    by_cases hu : used a
    · rw [if_pos hu]
      simp [hu]
    · rw [if_neg hu, ih _ fun i hi => hr i (List.mem_cons_of_mem _ hi)]
      congr 1
      rw [decide_eq_decide]
      have hu' : used a = false := by simpa using hu
      constructor
      · intro ⟨h1, h2⟩
        have hna : a ∉ perm := fun hm => by
          have := h2 a hm
          simp at this
        refine ⟨List.nodup_cons.mpr ⟨hna, h1⟩, fun i hi => ?_⟩
        cases List.mem_cons.mp hi with
        | inl h => rw [h]; exact hu'
        | inr h =>
          have := h2 i h
          split at this
          · cases this
          · exact this
      · intro ⟨h1, h2⟩
        rw [List.nodup_cons] at h1
        refine ⟨h1.2, fun i hi => ?_⟩
        rw [if_neg (fun h => h1.1 (by rw [← h]; exact hi))]
        exact h2 i (List.mem_cons_of_mem _ hi)

/-! ### masks and tables -/

theorem maskLoop_eq (f : Nat → Block) (ps : List Nat) (acc : Block) :
    maskLoop f ps acc = ps.foldl (fun a p => a ^^^ f p) acc := by
  fun_induction maskLoop f ps acc with
  | case1 acc a b ps ih => rw [ih]; rfl
  | case2 acc a => rfl
  | case3 acc => rfl

theorem find_mem {m : List (Nat × Nat)} {k v : Nat} (h : find m k = some v) : (k, v) ∈ m := by
  unfold find at h
  cases e : m.find? (·.1 == k) with
  | none => rw [e] at h; cases h
  | some p =>
    rw [e] at h
    have h1 := List.mem_of_find?_eq_some e
    have h2 := List.find?_some e
    simp at h h2
    rw [← h, ← h2]
    exact h1

theorem find_ne_none {m : List (Nat × Nat)} {p : Nat × Nat} (h : p ∈ m) : find m p.1 ≠ none := by
  unfold find
  cases e : m.find? (·.1 == p.1) with
  | none =>
    have := List.find?_eq_none.mp e p h
    simp at this
  | some q => simp

theorem table_spec (key : Nat → Nat) (ord : List Nat) (m : List (Nat × Nat)) :
    (∀ p ∈ ord.foldl (fun m i => emplace m (key i) i) m, p ∈ m ∨ (p.2 ∈ ord ∧ p.1 = key p.2)) ∧
    (∀ p ∈ m, p ∈ ord.foldl (fun m i => emplace m (key i) i) m) ∧
    (∀ i ∈ ord, find (ord.foldl (fun m i => emplace m (key i) i) m) (key i) ≠ none) := by
  induction ord generalizing m with
  | nil => exact ⟨fun p h => .inl h, fun p h => h, fun i h => by cases h⟩
  | cons a ord ih =>
    obtain ⟨h1, h2, h3⟩ := ih (emplace m (key a) a)
    have hsub : ∀ p ∈ emplace m (key a) a, p ∈ m ∨ p = (key a, a) := by
      intro p hp
      unfold emplace at hp
      split at hp
      · exact .inl hp
      · simpa using hp
    have hmono : ∀ p ∈ m, p ∈ emplace m (key a) a := by
      intro p hp
      unfold emplace
      split
      · exact hp
      · simp [hp]
    have hself : find (emplace m (key a) a) (key a) ≠ none := by
      unfold emplace
      split
      · rename_i e; rw [e]; simp
      · exact find_ne_none (p := (key a, a)) (by simp)
    refine ⟨?_, fun p hp => h2 p (hmono p hp), ?_⟩
    · intro p hp
      cases h1 p hp with
      | inl h =>
        cases hsub p h with
        | inl h => exact .inl h
        | inr h => rw [h]; exact .inr ⟨List.mem_cons_self .., rfl⟩
      | inr h => exact .inr ⟨List.mem_cons_of_mem _ h.1, h.2⟩
    · intro i hi
      cases List.mem_cons.mp hi with
      | inr h => exact h3 i h
      | inl h =>
        rw [h]
        cases e' : find (emplace m (key a) a) (key a) with
        | none => exact absurd e' hself
        | some v => exact find_ne_none (p := (key a, v)) (h2 _ (find_mem e'))

/-! ### parts -/

theorem flatMap_part (l : List Block) (T : Nat) (hT : 0 < T) (hov : l.length * T < 2 ^ 64) :
    (List.range T).flatMap (part l T) = l := by
  have h := C31_scaled_ranges l.length T hT hov
  have : (List.range T).flatMap (part l T) =
      ((List.range T).flatMap fun t =>
        interval (bound l.length T t) (bound l.length T (t + 1))).map fun i => l.getD i 0 := by
    rw [List.map_flatMap]
    rfl
  rw [this, h]
  apply List.ext_getElem
  · simp
  · intro i h1 h2
    simp [List.getD, List.getElem?_eq_getElem h2]

theorem mem_parts (l : List Block) (T : Nat) (hT : 0 < T) (hov : l.length * T < 2 ^ 64) (tord : List Nat)
    (ht : tord.Perm (List.range T)) (b : Block) : (∃ t ∈ tord, b ∈ part l T t) ↔ b ∈ l := by
  have h := flatMap_part l T hT hov
  constructor
  · intro ⟨t, hm, hb⟩
    rw [← h]
    exact List.mem_flatMap.mpr ⟨t, ht.mem_iff.mp hm, hb⟩
  · intro hb
    rw [← h] at hb
    obtain ⟨t, hm, hb⟩ := List.mem_flatMap.mp hb
    exact ⟨t, ht.mem_iff.mpr hm, hb⟩

/-! ### hashing phase with one thread -/

theorem hash_single (items : List Block) (k : Nat) (st : HSt) (h1 : st.todo 0 = items)
    (h2 : st.written 0 = false) (hk : 2 * items.length ≤ k) :
    let st' := (List.replicate k 0).foldl hashStep st
    st'.todo 0 = [] ∧ st'.got 0 = st.got 0 ++ items := by
  induction items generalizing k st with
  | nil =>
    have : ∀ k, (List.replicate k 0).foldl hashStep st = st := by
      intro k
      induction k with
      | zero => rfl
      | succ k ih =>
        rw [List.replicate_succ, List.foldl_cons]
        have e : hashStep st 0 = st := by unfold hashStep; rw [h1]
        rw [e, ih]
    simp only [this]
    exact ⟨h1, by simp⟩
  | cons x xs ih =>
    obtain ⟨k, rfl⟩ : ∃ k', k = k' + 2 := ⟨k - 2, by simp at hk; omega⟩
    simp only
    rw [List.replicate_succ, List.foldl_cons, List.replicate_succ, List.foldl_cons]
    have e1 : hashStep st 0 = HSt.mk x st.todo (fun u => if u = 0 then true else st.written u) st.got := by
      unfold hashStep
      rw [h1]
      simp only
      rw [if_neg (by rw [h2]; simp)]
    rw [e1]
    have e2 : hashStep (HSt.mk x st.todo (fun u => if u = 0 then true else st.written u) st.got) 0 =
        HSt.mk x (fun u => if u = 0 then xs else st.todo u)
          (fun u => if u = 0 then false else (if u = 0 then true else st.written u))
          (fun u => if u = 0 then st.got 0 ++ [x] else st.got u) := by
      unfold hashStep
      simp only [h1]
      rfl
    rw [e2]
    have := ih k (HSt.mk x (fun u => if u = 0 then xs else st.todo u)
          (fun u => if u = 0 then false else (if u = 0 then true else st.written u))
          (fun u => if u = 0 then st.got 0 ++ [x] else st.got u)) rfl rfl (by simp at hk; omega)
    simp only [if_pos] at this
    refine ⟨this.1, ?_⟩
    rw [this.2]
    simp

/-! ### hashing phase without interleaving -/

/-- Between two items: nothing is written and unread, every thread has used its own items. -/
def Calm (items : List Block) (T : Nat) (st : HSt) : Prop :=
  ∀ t, st.written t = false ∧ st.got t ++ st.todo t = part items T t

theorem calm_pair {items : List Block} {T : Nat} {st : HSt} (h : Calm items T st) (t : Nat) :
    Calm items T (hashStep (hashStep st t) t) := by
  cases e : st.todo t with
  | nil =>
    have e1 : hashStep st t = st := by unfold hashStep; rw [e]
    rw [e1, e1]
    exact h
  | cons x xs =>
    have e1 : hashStep st t = HSt.mk x st.todo (fun u => if u = t then true else st.written u) st.got := by
      unfold hashStep
      rw [e]
      simp only
      rw [if_neg (by rw [(h t).1]; simp)]
    have e2 : hashStep (HSt.mk x st.todo (fun u => if u = t then true else st.written u) st.got) t =
        HSt.mk x (fun u => if u = t then xs else st.todo u)
          (fun u => if u = t then false else (if u = t then true else st.written u))
          (fun u => if u = t then st.got t ++ [x] else st.got u) := by
      unfold hashStep
      simp only [e]
      rw [if_pos (by simp)]
    rw [e1, e2]
    intro u
    by_cases hu : u = t
    · subst hu
      have := (h u).2
      rw [e] at this
      simp [← this]
    · simp only [if_neg hu]
      exact h u

theorem calm_sched {items : List Block} {T : Nat} (ts : List Nat) {st : HSt} (h : Calm items T st) :
    Calm items T ((ts.flatMap fun t => [t, t]).foldl hashStep st) := by
  induction ts generalizing st with
  | nil => exact h
  | cons t ts ih =>
    rw [List.flatMap_cons, List.foldl_append]
    exact ih (calm_pair h t)

end Verif.Rr16
