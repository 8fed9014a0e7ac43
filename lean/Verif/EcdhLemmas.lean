import Verif.EcdhModel
import Verif.PartProps
/-
Helper lemmas about the model of the ECDH protocol.
-/
namespace Verif.Ecdh
open Verif Part

variable {P : Type}

theorem seqOut_ok {α β : Type} (l : List β) (f : β → Out α) (g : β → α) (h : ∀ x ∈ l, f x = .ok (g x)) :
    seqOut (l.map f) = .ok (l.map g) := by
  induction l with
  | nil => rfl
  | cons a l ih =>
    rw [List.map_cons, seqOut, h a (List.mem_cons_self ..),
      ih fun x hx => h x (List.mem_cons_of_mem _ hx)]
    rfl

theorem seqOut_throw {α β : Type} (l : List β) (f : β → Out α) (h : ∀ x ∈ l, f x ≠ .ub)
    (ht : ∃ x ∈ l, f x = .throw) : seqOut (l.map f) = .throw := by
  induction l with
  | nil => obtain ⟨x, hx, _⟩ := ht; cases hx
  | cons a l ih =>
    rw [List.map_cons, seqOut]
    cases ha : f a with
    | throw => rfl
    | ub => exact absurd ha (h a (List.mem_cons_self ..))
    | ok v =>
      rw [ih (fun x hx => h x (List.mem_cons_of_mem _ hx))]
      · rfl
      · obtain ⟨x, hx, e⟩ := ht
        cases List.mem_cons.mp hx with
        | inl hh => rw [hh, ha] at e; cases e
        | inr hh => exact ⟨x, hh, e⟩

theorem idxs_flatMap (n T : Nat) (hT : 0 < T) (hov : n * T < 2 ^ 64) :
    (List.range T).flatMap (idxs n T) = List.range n := C31_scaled_ranges n T hT hov

theorem length_flatMap_congr {α : Type} (l : List α) (f g : α → List Nat)
    (h : ∀ x ∈ l, (f x).length = (g x).length) : (l.flatMap f).length = (l.flatMap g).length := by
  induction l with
  | nil => rfl
  | cons a l ih =>
    rw [List.flatMap_cons, List.flatMap_cons, List.length_append, List.length_append,
      h a (List.mem_cons_self ..), ih fun x hx => h x (List.mem_cons_of_mem _ hx)]

theorem exists_length_ne (n m T : Nat) (hT : 0 < T) (hn : n * T < 2 ^ 64) (hm : m * T < 2 ^ 64)
    (h : n ≠ m) : ∃ t ∈ List.range T, (idxs n T t).length ≠ (idxs m T t).length := by
  apply Classical.byContradiction
  intro hc
  apply h
  have := length_flatMap_congr (List.range T) (idxs n T) (idxs m T) (by
    intro x hx
    apply Classical.byContradiction
    intro hh
    exact hc ⟨x, hx, hh⟩)
  rw [idxs_flatMap n T hT hn, idxs_flatMap m T hT hm, List.length_range, List.length_range] at this
  exact this

theorem getD_range (l : List Block) (f : Block → α) :
    (List.range l.length).map (fun i => f (l.getD i 0)) = l.map f := by
  apply List.ext_getElem
  · simp
  · intro i h1 h2
    have : i < l.length := by simpa using h1
    simp [List.getD, List.getElem?_eq_getElem this]

theorem filterMap_zip (l : List Nat) (m : Nat → Nat) (p : Nat → Bool) :
    (l.zip (l.map m)).filterMap (fun q => if p q.2 then some q.1 else none) =
      l.filter fun i => p (m i) := by
  induction l with
  | nil => rfl
  | cons a l ih =>
    rw [List.map_cons, List.zip_cons_cons, List.filterMap_cons, List.filter_cons, ih]
    by_cases h : p (m a) <;> simp [h]

theorem flatten_map_filter (l : List Nat) (f : Nat → List Nat) (p : Nat → Bool) :
    (l.map fun t => (f t).filter p).flatten = (l.flatMap f).filter p := by
  induction l with
  | nil => rfl
  | cons a l ih => rw [List.map_cons, List.flatten_cons, ih, List.flatMap_cons, List.filter_append]

theorem flatten_map_map {α : Type} (l : List Nat) (f : Nat → List Nat) (g : Nat → α) :
    (l.map fun t => (f t).map g).flatten = (l.flatMap f).map g := by
  induction l with
  | nil => rfl
  | cons a l ih => rw [List.map_cons, List.flatten_cons, ih, List.flatMap_cons, List.map_append]

theorem getD_map_range {α : Type} (T t : Nat) (h : t < T) (f : Nat → List α) :
    ((List.range T).map f).getD t [] = f t := by
  simp [List.getD, List.getElem?_eq_getElem, h]

/-! ### the map -/

theorem find_mem {m : List (Nat × Block)} {k : Nat} {b : Block} (h : find m k = some b) : (k, b) ∈ m := by
  unfold find at h
  cases e : m.find? (·.1 == k) with
  | none => rw [e] at h; cases h
  | some p =>
    rw [e] at h
    have h1 := List.mem_of_find?_eq_some e
    have h2 := List.find?_some e
    simp at h h2
    rw [← h, ← h2]
    exact h1

theorem find_ne_none {m : List (Nat × Block)} {p : Nat × Block} (h : p ∈ m) : find m p.1 ≠ none := by
  unfold find
  cases e : m.find? (·.1 == p.1) with
  | none =>
    have := List.find?_eq_none.mp e p h
    simp at this
  | some q => simp

theorem insert_sub {m : List (Nat × Block)} {b : Block} {p : Nat × Block} (h : p ∈ insert m b) :
    p ∈ m ∨ p = (cut 4 b, b) := by
  unfold insert at h
  split at h
  · exact .inl h
  · simpa using h

theorem insert_mono {m : List (Nat × Block)} {b : Block} {p : Nat × Block} (h : p ∈ m) : p ∈ insert m b := by
  unfold insert
  split
  · exact h
  · simp [h]

theorem find_insert (m : List (Nat × Block)) (b : Block) : find (insert m b) (cut 4 b) ≠ none := by
  unfold insert
  split
  · rename_i e; rw [e]; simp
  · exact find_ne_none (p := (cut 4 b, b)) (by simp)

theorem foldl_insert (l : List Block) (m : List (Nat × Block)) :
    (∀ p ∈ l.foldl insert m, p ∈ m ∨ (p.2 ∈ l ∧ p.1 = cut 4 p.2)) ∧
    (∀ p ∈ m, p ∈ l.foldl insert m) ∧
    (∀ b ∈ l, find (l.foldl insert m) (cut 4 b) ≠ none) := by
  induction l generalizing m with
  | nil => exact ⟨fun p h => .inl h, fun p h => h, fun b h => by cases h⟩
  | cons a l ih =>
    obtain ⟨h1, h2, h3⟩ := ih (insert m a)
    refine ⟨?_, fun p hp => h2 p (insert_mono hp), ?_⟩
    · intro p hp
      cases h1 p hp with
      | inl h =>
        cases insert_sub h with
        | inl h => exact .inl h
        | inr h => rw [h]; exact .inr ⟨List.mem_cons_self .., rfl⟩
      | inr h => exact .inr ⟨List.mem_cons_of_mem _ h.1, h.2⟩
    · intro b hb
      cases List.mem_cons.mp hb with
      | inr h => exact h3 b h
      | inl h =>
        rw [h]
        have e := find_insert m a
        cases e' : find (insert m a) (cut 4 a) with
        | none => exact absurd e' e
        | some v => exact find_ne_none (p := (cut 4 a, v)) (h2 _ (find_mem e'))

theorem cut_cut {mb : Nat} (h : 4 ≤ mb) (b : Block) : cut mb b % 2 ^ 32 = cut 4 b := by
  unfold cut
  rw [show (2 : Nat) ^ 32 = 256 ^ 4 by decide]
  exact Nat.mod_mod_of_dvd _ (Nat.pow_dvd_pow 256 h)

/-- A hit means that a received block has the mask. -/
theorem hit_sound {order : List Block} {mb mask : Nat} (h : hit (mapOf order) mb mask = true) :
    ∃ b ∈ order, cut mb b = mask := by
  unfold hit at h
  split at h
  · rename_i b e
    cases (foldl_insert order []).1 _ (find_mem e) with
    | inl h => cases h
    | inr h' => exact ⟨b, h'.1, by simpa using h⟩
  · cases h

/-- Without prefix collisions every received block is hit. -/
theorem hit_complete {order : List Block} {mb : Nat} (hmb : 4 ≤ mb) {b : Block} (hb : b ∈ order)
    (hc : ∀ b' ∈ order, cut 4 b' = cut 4 b → b' = b) : hit (mapOf order) mb (cut mb b) = true := by
  unfold hit
  rw [cut_cut hmb]
  cases e : find (mapOf order) (cut 4 b) with
  | none => exact absurd e ((foldl_insert order []).2.2 b hb)
  | some b' =>
    cases (foldl_insert order []).1 _ (find_mem e) with
    | inl h => cases h
    | inr h =>
      have : b' = b := hc b' h.1 h.2.symm
      simp [this]

theorem maskBytes_ge (n : Nat) : 5 ≤ maskBytes n := by unfold maskBytes; omega

theorem maskBytes_le {n : Nat} (h : n < 2 ^ 44) : maskBytes n ≤ 16 := by
  unfold maskBytes
  by_cases h0 : n * n = 0
  · rw [h0]; decide
  · have : Nat.log2 (n * n) < 88 := by
      rw [Nat.log2_lt h0]
      calc n * n < 2 ^ 44 * 2 ^ 44 := Nat.mul_lt_mul'' h h
        _ = 2 ^ 88 := by decide
    omega

/-- The run for sets of equal size. -/
theorem run_eq (E : Env P) (S R : List Block) (T : Nat) (merge : List (List Block) → List Block)
    (hn : S.length = R.length) (h0 : 0 < R.length) (hmax : R.length < 2 ^ 44) (hT : 0 < T)
    (hov : R.length * T < 2 ^ 64) (hmerge : ∀ l, (merge l).Perm l.flatten) :
    ∃ order, order.Perm (S.map fun x => E.ro (E.mulB (E.mulA (E.hs x)))) ∧
      run E S R T merge = .ok ((List.range R.length).filter fun i =>
        hit (mapOf order) (maskBytes R.length)
          (cut (maskBytes R.length) (E.ro (E.mulA (E.mulB (E.hr (R.getD i 0))))))) := by
  refine ⟨merge ((List.range T).map fun t => (idxs S.length T t).map
    fun i => E.ro (E.mulB (E.mulA (E.hs (S.getD i 0))))), ?_, ?_⟩
  · refine (hmerge _).trans ?_
    rw [flatten_map_map, idxs_flatMap _ _ hT (by rw [hn]; exact hov),
      getD_range S fun x => E.ro (E.mulB (E.mulA (E.hs x)))]
  · unfold run
    rw [if_neg (by omega), if_neg (by omega), if_neg (by rw [hn]; have := maskBytes_le hmax; omega)]
    rw [seqOut_ok _ _ (fun t => (idxs R.length T t).map fun i =>
      cut (maskBytes R.length) (E.ro (E.mulA (E.mulB (E.hr (R.getD i 0))))))]
    · show Out.bind (seqOut _) _ = _
      rw [seqOut_ok _ _ (fun t => (idxs S.length T t).map fun i =>
        E.ro (E.mulB (E.mulA (E.hs (S.getD i 0)))))]
      · show Out.bind (seqOut _) _ = _
        rw [seqOut_ok _ _ (fun t => (idxs R.length T t).filter fun i =>
          hit (mapOf (merge ((List.range T).map fun t => (idxs S.length T t).map
              fun i => E.ro (E.mulB (E.mulA (E.hs (S.getD i 0))))))) (maskBytes R.length)
            (cut (maskBytes R.length) (E.ro (E.mulA (E.mulB (E.hr (R.getD i 0)))))))]
        · show Out.ok _ = _
          rw [flatten_map_filter, idxs_flatMap _ _ hT hov]
        · intro t ht
          rw [getD_map_range _ _ (List.mem_range.mp ht)]
          unfold receiverSecond
          rw [if_neg (by simp), filterMap_zip]
      · intro t _
        unfold receiverBlocks senderFirst
        rw [if_neg (by simp [hn]), List.map_map]
        rfl
    · intro t _
      unfold senderSecond receiverFirst
      rw [if_neg (by simp [hn]), List.map_map, hn]
      rfl

end Verif.Ecdh
