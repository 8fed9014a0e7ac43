import Verif.PrtyModel
import Verif.Grr18Lemmas
/-!
Helper lemmas for the PRTY helpers: bits of shifted blocks, of the truncation block and of the
OT rows.
-/
namespace Verif.Prty

theorem getLsbD_lanesShl (x : Block) (c k : Nat) :
    (lanesShl x c).getLsbD k =
      (decide (k < 128) && if k < 64 then decide (c ≤ k) && x.getLsbD (k - c)
        else decide (c ≤ k - 64) && x.getLsbD (k - c)) := by
  unfold lanesShl
  rw [BitVec.getLsbD_append]
  by_cases h : k < 64
  · have : k < 128 := by omega
    simp only [h, this, if_true, decide_true, Bool.true_and, BitVec.getLsbD_shiftLeft,
      BitVec.getLsbD_extractLsb']
    by_cases hc : c ≤ k
    · have : k - c < 64 := by omega
      have h2 : ¬ k < c := by omega
      simp [this, h2, hc]
    · have h2 : k < c := by omega
      simp [h2, hc]
  · simp only [h, if_false, BitVec.getLsbD_shiftLeft, BitVec.getLsbD_extractLsb']
    by_cases hk : k < 128
    · have h3 : k - 64 < 64 := by omega
      by_cases hc : c ≤ k - 64
      · have h1 : k - 64 - c < 64 := by omega
        have h2 : ¬ k - 64 < c := by omega
        have h4 : 64 + (k - 64 - c) = k - c := by omega
        simp [h1, h2, h3, h4, hk, hc]
      · have h2 : k - 64 < c := by omega
        simp [h2, h3, hk, hc]
    · have h3 : ¬ k - 64 < 64 := by omega
      simp [hk, h3]

theorem getLsbD_lanesShr (x : Block) (c k : Nat) :
    (lanesShr x c).getLsbD k =
      (decide (k < 128) && if k < 64 then decide (k + c < 64) && x.getLsbD (k + c)
        else decide (k + c < 128) && x.getLsbD (k + c)) := by
  unfold lanesShr
  rw [BitVec.getLsbD_append]
  by_cases h : k < 64
  · have : k < 128 := by omega
    simp only [h, this, if_true, decide_true, Bool.true_and, BitVec.getLsbD_ushiftRight,
      BitVec.getLsbD_extractLsb', Nat.zero_add, Nat.add_comm c k]
  · simp only [h, if_false, BitVec.getLsbD_ushiftRight, BitVec.getLsbD_extractLsb']
    have e : 64 + (c + (k - 64)) = k + c := by omega
    rw [e]
    by_cases hk : k < 128
    · by_cases hc : k + c < 128
      · have h1 : c + (k - 64) < 64 := by omega
        simp [h1, hc, hk]
      · have h1 : ¬ c + (k - 64) < 64 := by omega
        simp [h1, hc, hk]
    · have h1 : ¬ c + (k - 64) < 64 := by omega
      simp [h1, hk]

theorem getLsbD_bytesShl8 (x : Block) (k : Nat) :
    (bytesShl8 x).getLsbD k = (decide (64 ≤ k) && decide (k < 128) && x.getLsbD (k - 64)) := by
  unfold bytesShl8
  rw [BitVec.getLsbD_append]
  by_cases h : k < 64
  · have : ¬ 64 ≤ k := by omega
    simp [h, this]
  · have h1 : 64 ≤ k := by omega
    by_cases hk : k < 128
    · have h2 : k - 64 < 64 := by omega
      simp [h, h1, hk, h2, BitVec.getLsbD_extractLsb']
    · have h2 : ¬ k - 64 < 64 := by omega
      simp [h, h1, hk, h2, BitVec.getLsbD_extractLsb']

theorem getLsbD_bytesShr8 (x : Block) (k : Nat) :
    (bytesShr8 x).getLsbD k = (decide (k < 64) && x.getLsbD (k + 64)) := by
  unfold bytesShr8
  rw [BitVec.getLsbD_append]
  by_cases h : k < 64
  · simp [h, BitVec.getLsbD_extractLsb', Nat.add_comm]
  · simp [h]

theorem fillOneBlock_getD (i : Nat) (h : i < 128) :
    (fillOneBlock 128).getD i 0 = mmBitshiftRight oneBlock i := by
  simp [fillOneBlock, List.getD_eq_getElem?_getD, h]

/-- Bits of a row after processing a list of columns. -/
theorem foldl_columnStep (aes : Nat → Block → Block) (x : Block) (cs : List (Nat × Nat))
    (hone : ∀ i : Nat, i < 128 → ∀ k : Nat,
      ((fillOneBlock 128).getD i 0).getLsbD k = decide (k = i))
    (hnd : cs.Nodup) (hb : ∀ c ∈ cs, c.2 < 128) (r : Row) (j k : Nat) :
    (cs.foldl (columnStep aes x) r j).getLsbD k =
      ((r j).getLsbD k ^^ (decide ((j, k) ∈ cs) && (aes (j * 128 + k) x).getLsbD k)) := by
  induction cs generalizing r with
  | nil => simp
  | cons c cs ih =>
    have hnd' := List.nodup_cons.mp hnd
    rw [List.foldl_cons, ih hnd'.2 (fun c hc => hb c (List.mem_cons_of_mem _ hc))]
    obtain ⟨a, b⟩ := c
    have hb' : b < 128 := hb (a, b) List.mem_cons_self
    unfold columnStep setBlk
    simp only []
    by_cases hj : j = a
    · subst hj
      rw [if_pos rfl, BitVec.getLsbD_xor, BitVec.getLsbD_and, hone b hb']
      by_cases hk : k = b
      · subst hk
        have hm : decide ((j, k) ∈ cs) = false := by simpa using hnd'.1
        have hm2 : decide ((j, k) ∈ (j, k) :: cs) = true := by simp
        rw [hm, hm2]; simp
      · have hm2 : decide ((j, k) ∈ (j, b) :: cs) = decide ((j, k) ∈ cs) := by
          simp [hk]
        rw [hm2]; simp [hk]
    · rw [if_neg hj]
      have hm2 : decide ((j, k) ∈ (a, b) :: cs) = decide ((j, k) ∈ cs) := by
        simp [hj]
      rw [hm2]

theorem mem_columns (n j k : Nat) :
    (j, k) ∈ columns n ↔ (j < 3 ∧ k < 128) ∨ (j = 3 ∧ k < n - 384) := by
  simp only [columns, List.mem_append, List.mem_flatMap, List.mem_range, List.mem_map,
    Prod.mk.injEq]
  constructor
  · rintro (⟨a, ha, b, hb, rfl, rfl⟩ | ⟨a, ha, h, rfl⟩)
    · exact Or.inl ⟨ha, hb⟩
    · exact Or.inr ⟨h.symm, ha⟩
  · rintro (⟨h1, h2⟩ | ⟨h1, h2⟩)
    · exact Or.inl ⟨j, h1, k, h2, rfl, rfl⟩
    · exact Or.inr ⟨k, h2, h1.symm, rfl⟩

theorem columns_nodup (n : Nat) : (columns n).Nodup := by
  unfold columns
  rw [List.nodup_append]
  refine ⟨?_, ?_, ?_⟩
  · refine Grr18.flatMap_nodup List.nodup_range (fun j _ => ?_) ?_
    · exact Grr18.map_nodup List.nodup_range (fun a a' e => congrArg Prod.snd e)
    · intro a _ a' _ hne x hx hx'
      obtain ⟨_, _, rfl⟩ := List.mem_map.mp hx
      obtain ⟨_, _, e⟩ := List.mem_map.mp hx'
      exact hne (congrArg Prod.fst e).symm
  · rw [List.nodup_iff_pairwise_ne, List.pairwise_map]
    exact (List.nodup_iff_pairwise_ne.mp List.nodup_range).imp
      fun h e => h (congrArg Prod.snd e)
  · intro a ha b hb
    simp only [List.mem_flatMap, List.mem_range, List.mem_map] at ha hb
    obtain ⟨j, hj, i, _, rfl⟩ := ha
    obtain ⟨i', _, rfl⟩ := hb
    intro h
    have : j = 3 := congrArg Prod.fst h
    omega

theorem takeWhile_all {α : Type} (p : α → Bool) (l : List α) (h : ∀ x ∈ l, p x = true) :
    l.takeWhile p = l := by
  induction l with
  | nil => rfl
  | cons a l ih =>
    rw [List.takeWhile_cons, if_pos (h a List.mem_cons_self),
      ih fun x hx => h x (List.mem_cons_of_mem _ hx)]

theorem columnsOne_eq (n : Nat) (h : n ≤ 512) : columnsOne n = columns n := by
  have : ∀ m : Nat, n - 384 ≤ m →
      (List.range m).takeWhile (fun i => 384 + i < n) = List.range (n - 384) := by
    intro m hm
    induction m with
    | zero => have : n - 384 = 0 := by omega
              simp [this]
    | succ m ih =>
      rw [List.range_succ]
      by_cases hle : n - 384 ≤ m
      · rw [List.takeWhile_append, ih hle]
        by_cases hlen : (List.range (n - 384)).length = (List.range m).length
        · rw [if_pos hlen]
          have : n - 384 = m := by simpa using hlen
          have hf : decide (384 + m < n) = false := by simp; omega
          simp [List.takeWhile_cons, hf, this]
        · rw [if_neg hlen]
      · have e : n - 384 = m + 1 := by omega
        rw [e, List.range_succ]
        apply takeWhile_all
        intro i hi
        have : i < m + 1 := by rw [← List.range_succ] at hi; simpa using hi
        simp; omega
  unfold columnsOne columns
  rw [this 128 (by omega)]

theorem getLsbD_truncate_fold (m : Nat) (hm : m ≤ 128)
    (hone : ∀ i : Nat, i < 128 → ∀ k : Nat,
      ((fillOneBlock 128).getD i 0).getLsbD k = decide (k = i)) (k : Nat) :
    ((List.range m).foldl (fun b i => b ^^^ (fillOneBlock 128).getD i 0) (0 : Block)).getLsbD k =
      decide (k < m) := by
  induction m with
  | zero => simp
  | succ m ih =>
    rw [List.range_succ, List.foldl_append, List.foldl_cons, List.foldl_nil,
      BitVec.getLsbD_xor, ih (by omega), hone m (by omega)]
    by_cases h1 : k < m
    · have h2 : k ≠ m := by omega
      have h3 : k < m + 1 := by omega
      simp [h1, h2, h3]
    · by_cases h2 : k = m
      · simp [h2]
      · have h3 : ¬ k < m + 1 := by omega
        simp [h1, h2, h3]

/-- A batch over columns with all items inside is a map over items with all columns inside. -/
theorem foldl_zip_map (aes : Nat → Block → Block) (inputs : List Block) (cs : List (Nat × Nat))
    (outs : List Row) (h : outs.length = inputs.length) :
    cs.foldl (fun outs c => (inputs.zip outs).map fun p => columnStep aes p.1 p.2 c) outs =
      (inputs.zip outs).map fun p => cs.foldl (columnStep aes p.1) p.2 := by
  induction cs generalizing outs with
  | nil =>
    simp only [List.foldl_nil]
    rw [List.map_snd_zip (by omega)]
  | cons c cs ih =>
    rw [List.foldl_cons, ih _ (by simp [h])]
    apply List.ext_getElem
    · simp [h]
    · intro i h1 h2
      simp

/-- Inserting masks with different keys keeps all of them. -/
theorem localMasks_nodup (ms : List (Block × Nat))
    (hnd : (ms.map fun p => p.1.setWidth 64).Nodup) :
    localMasks ms = ms.map fun p => (⟨p.1.setWidth 64, p.1, p.2⟩ : Entry) := by
  have gen : ∀ (ms : List (Block × Nat)) (acc : List Entry),
      (acc.map (·.key) ++ ms.map fun p => p.1.setWidth 64).Nodup →
      ms.foldl (fun m p => emplace m ⟨p.1.setWidth 64, p.1, p.2⟩) acc =
        acc ++ ms.map fun p => (⟨p.1.setWidth 64, p.1, p.2⟩ : Entry) := by
    intro ms
    induction ms with
    | nil => intro acc _; simp
    | cons p ms ih =>
      intro acc h
      have hnot : p.1.setWidth 64 ∉ acc.map (·.key) := by
        rw [List.map_cons, List.nodup_append] at h
        intro hm
        exact h.2.2 _ hm _ List.mem_cons_self rfl
      have e : emplace acc ⟨p.1.setWidth 64, p.1, p.2⟩ =
          acc ++ [⟨p.1.setWidth 64, p.1, p.2⟩] := by
        unfold emplace
        rw [if_neg]
        simp only [List.any_eq_true, decide_eq_true_eq, not_exists, not_and]
        intro f hf hk
        exact hnot (List.mem_map.mpr ⟨f, hf, hk⟩)
      rw [List.foldl_cons, e, ih]
      · simp
      · simpa using h
  have := gen ms [] (by simpa using hnd)
  simpa [localMasks] using this

theorem bytesEq_key (n : Nat) (h : 8 ≤ n) (a b : Block) (e : bytesEq n a b = true) :
    a.setWidth 64 = b.setWidth 64 := by
  unfold bytesEq at e
  rw [beq_iff_eq] at e
  have := congrArg (fun v => v.setWidth 64) e
  simpa [BitVec.setWidth_setWidth_of_le, show 64 ≤ 8 * n by omega] using this

/-- Every entry of the map is one of the masks, and every key is there. -/
theorem localMasks_spec (ms : List (Block × Nat)) :
    (∀ e ∈ localMasks ms, e.key = e.mask.setWidth 64 ∧ (e.mask, e.idx) ∈ ms) ∧
    ∀ p ∈ ms, ∃ e ∈ localMasks ms, e.key = p.1.setWidth 64 := by
  have gen : ∀ (ms : List (Block × Nat)) (acc : List Entry),
      (∀ e ∈ ms.foldl (fun m p => emplace m ⟨p.1.setWidth 64, p.1, p.2⟩) acc,
        e ∈ acc ∨ (e.key = e.mask.setWidth 64 ∧ (e.mask, e.idx) ∈ ms)) ∧
      (∀ e ∈ acc, e ∈ ms.foldl (fun m p => emplace m ⟨p.1.setWidth 64, p.1, p.2⟩) acc) ∧
      ∀ p ∈ ms, ∃ e ∈ ms.foldl (fun m p => emplace m ⟨p.1.setWidth 64, p.1, p.2⟩) acc,
        e.key = p.1.setWidth 64 := by
    intro ms
    induction ms with
    | nil => intro acc; simp
    | cons p ms ih =>
      intro acc
      rw [List.foldl_cons]
      obtain ⟨i1, i2, i3⟩ := ih (emplace acc ⟨p.1.setWidth 64, p.1, p.2⟩)
      have sub : ∀ e ∈ acc, e ∈ emplace acc ⟨p.1.setWidth 64, p.1, p.2⟩ := by
        intro e he
        unfold emplace
        split
        · exact he
        · exact List.mem_append_left _ he
      refine ⟨?_, ?_, ?_⟩
      · intro e he
        rcases i1 e he with h | ⟨h1, h2⟩
        · unfold emplace at h
          split at h
          · exact Or.inl h
          · rcases List.mem_append.mp h with h | h
            · exact Or.inl h
            · rw [List.mem_singleton] at h
              subst h
              exact Or.inr ⟨rfl, List.mem_cons_self⟩
        · exact Or.inr ⟨h1, List.mem_cons_of_mem _ h2⟩
      · intro e he; exact i2 e (sub e he)
      · intro q hq
        rcases List.mem_cons.mp hq with rfl | hq
        · have : ∃ e ∈ emplace acc ⟨q.1.setWidth 64, q.1, q.2⟩, e.key = q.1.setWidth 64 := by
            unfold emplace
            split
            · rename_i h
              simp only [List.any_eq_true, decide_eq_true_eq] at h
              exact h
            · exact ⟨_, List.mem_append_right _ List.mem_cons_self, rfl⟩
          obtain ⟨e, he, hk⟩ := this
          exact ⟨e, i2 e he, hk⟩
        · exact i3 q hq
  obtain ⟨g1, _, g3⟩ := gen ms []
  refine ⟨?_, g3⟩
  intro e he
  rcases g1 e he with h | h
  · exact absurd h List.not_mem_nil
  · exact h

theorem out_foldl_ub {α β : Type} (f : α → β → Out α) (l : List β) :
    l.foldl (fun o p => o.bind fun acc => f acc p) (.ub : Out α) = .ub := by
  induction l with
  | nil => rfl
  | cons a l ih => rw [List.foldl_cons]; exact ih

/-- A fold that has a step with undefined behaviour, and otherwise steps that succeed or are
undefined, is undefined. -/
theorem out_foldl_has_ub {α β : Type} (f : α → β → Out α)
    (hnt : ∀ a b, (∃ c, f a b = .ok c) ∨ f a b = .ub) (l : List β) (p : β) (hp : p ∈ l)
    (hub : ∀ a, f a p = .ub) (o : Out α) (ho : o ≠ .throw) :
    l.foldl (fun o p => o.bind fun acc => f acc p) o = .ub := by
  induction l generalizing o with
  | nil => exact absurd hp List.not_mem_nil
  | cons a l ih =>
    rw [List.foldl_cons]
    cases o with
    | throw => exact absurd rfl ho
    | ub => exact out_foldl_ub f l
    | ok v =>
      rcases List.mem_cons.mp hp with rfl | hp'
      · have : (Out.ok v).bind (fun acc => f acc p) = .ub := hub v
        rw [this]; exact out_foldl_ub f l
      · rcases hnt v a with ⟨c, hc⟩ | hc
        · have : (Out.ok v).bind (fun acc => f acc a) = .ok c := hc
          rw [this]; exact ih hp' _ (by simp)
        · have : (Out.ok v).bind (fun acc => f acc a) = .ub := hc
          rw [this]; exact out_foldl_ub f l

theorem flatMap_const_length {α β : Type} (l : List α) (m : List β) :
    (l.flatMap fun _ => m).length = l.length * m.length := by
  induction l with
  | nil => simp
  | cons a l ih => rw [List.flatMap_cons, List.length_append, ih, List.length_cons,
      Nat.add_mul]; omega

end Verif.Prty
