import Verif.HasherDebugLemmas
/-
Property theorems C182: what the debug build of `CuckooHasher` adds.

Specification vocabulary: that of HasherProps.lean (`Params`, `Good`, `stored`). A word of a row that nothing was written to is
`2^64 - 1`.
-/
namespace Verif.Hasher
open Verif Verif.Cuckoo

/-- C182. As long as every index is used once, the debug build and the release build do the same: for every new table and every
history of single and batched insertions with distinct indices the outcome is the same table, or the same failure. -/
theorem C182_debug_is_release (n nh nb ss : Nat) (calls : List Call) (hg : Good n nh calls) :
    runCallsChecked (init n nh nb ss) calls = runCalls (init n nh nb ss) calls := by
  apply runCallsChecked_eq calls hg.nodup
  · intro p hp
    simpa [init] using hg.len p hp
  · intro p hp
    have := hg.lt p hp
    unfold Untouched
    simp [init, this]

/-- C182. A batch of the debug build throws when one of its indices has a row in which some word has been written (with anything
but all ones), whatever the table and the other items are. -/
theorem C182_repeat_noticed (c : Hasher) (hrow : ∀ row ∈ c.rows, row.length = c.numHashes) (items : List (Nat × List Nat))
    (ws : Nat) (hws : items.length ≤ ws) (hlt : ∀ p ∈ items, p.1 < c.rows.length)
    (hlen : ∀ p ∈ items, c.numHashes ≤ p.2.length) (p : Nat × List Nat) (hp : p ∈ items)
    (hw : ∃ w ∈ c.rows.getD p.1 [], w ≠ 2 ^ 64 - 1) : insertBatchChecked c items ws = .throw := by
  unfold insertBatchChecked
  rw [if_pos hws, loadRowsChecked_throw items hrow hlt hlen hp hw]
  rfl

/-- C182. A batch of the debug build throws when it has the same index twice, unless the hash values of the first occurrence are
all ones. -/
theorem C182_twice_noticed (c : Hasher) (hrow : ∀ row ∈ c.rows, row.length = c.numHashes) (a rest : List (Nat × List Nat))
    (i : Nat) (hs hs' : List Nat) (ws : Nat) (hws : (a ++ (i, hs) :: rest).length ≤ ws)
    (hlt : ∀ p ∈ a ++ (i, hs) :: rest, p.1 < c.rows.length)
    (hlen : ∀ p ∈ a ++ (i, hs) :: rest, c.numHashes ≤ p.2.length) (hm : (i, hs') ∈ rest)
    (hw : ∃ w ∈ hs.take c.numHashes, w ≠ 2 ^ 64 - 1) :
    insertBatchChecked c (a ++ (i, hs) :: rest) ws = .throw := by
  unfold insertBatchChecked
  rw [if_pos hws, loadRowsChecked_twice a hrow hlt hlen hm hw]
  rfl

/-- C182. The insertion of one item throws, in both builds, when the first word of its row has been written (with anything but all
ones). -/
theorem C182_single_noticed (c : Hasher) (i : Nat) (hs : List Nat) (hi : i < c.rows.length) (hn : 0 < c.numHashes)
    (hl : c.numHashes ≤ hs.length) (w : Nat) (row : List Nat) (hr : c.rows.getD i [] = w :: row) (hw : w ≠ 2 ^ 64 - 1) :
    runCall c (.single i hs) = .throw ∧ runCallChecked c (.single i hs) = .throw := by
  have h : insert c i hs = .throw := by
    unfold insert
    rw [if_pos ⟨hi, hn, hl⟩, hr, if_pos]
    simpa [emptyVal] using hw
  exact ⟨h, h⟩

/-- C182. A batch with an index that the table was not made for never succeeds in the debug build. -/
theorem C182_outside (c : Hasher) (items : List (Nat × List Nat)) (ws : Nat) (p : Nat × List Nat) (hp : p ∈ items)
    (hb : c.rows.length ≤ p.1) (d : Hasher) : insertBatchChecked c items ws ≠ .ok d := by
  have key : ∀ (items : List (Nat × List Nat)) (c : Hasher), p ∈ items → c.rows.length ≤ p.1 →
      ∀ d, loadRowsChecked c items ≠ .ok d := by
    intro items
    induction items with
    | nil => intro c hp; simp at hp
    | cons q items ih =>
      intro c hp hb d
      obtain ⟨i, hs⟩ := q
      unfold loadRowsChecked
      split
      · rename_i h
        cases e : copyWords (c.rows.getD i []) hs with
        | ok r =>
          rcases List.mem_cons.mp hp with rfl | hp
          · simp only at hb; omega
          · exact ih { c with rows := c.rows.set i r } hp (by simpa using hb) d
        | throw => simp [Out.bind]
        | ub => simp [Out.bind]
      · simp
  unfold insertBatchChecked
  split
  · cases e : loadRowsChecked c items with
    | ok c' => exact absurd e (key items c hp hb c')
    | throw => simp [Out.bind]
    | ub => simp [Out.bind]
  · simp

/-- How often item 0 is stored in the result. -/
def zeros : Out Hasher → Option Nat
  | .ok c => some (stored (c.bins ++ c.stash) 0)
  | _ => none

/-- C182, what the release build does: index 0 inserted in two batches is stored twice, while the debug build throws. -/
theorem C182_release_twice :
    zeros (runCalls (init 1 2 5 0) [.batch [(0, [1, 2])] 1, .batch [(0, [3, 4])] 1]) = some 2 ∧
      runCallsChecked (init 1 2 5 0) [.batch [(0, [1, 2])] 1, .batch [(0, [3, 4])] 1] = .throw := by decide +kernel

/-- The full statement of C182 for repeated indices: no build inserts an index a second time. -/
def RepeatAlwaysNoticed : Prop :=
  ∀ (n nh nb ss : Nat), Params n nh nb → ∀ (x y : Call) (c : Hasher), Good n nh [x] → Good n nh [y] →
    runCallChecked (init n nh nb ss) x = .ok c → (∃ p ∈ y.items, p.1 ∈ x.items.map (·.1)) → ∀ d, runCallChecked c y ≠ .ok d

/-- C182, false in the debug build too: `insert` of one item looks at the first word of the row only. When it was all ones, index
0 is inserted a second time. -/
theorem C182_first_word_only : ¬ RepeatAlwaysNoticed ∧
    zeros (runCallsChecked (init 1 2 5 0) [.single 0 [2 ^ 64 - 1, 2], .single 0 [3, 4]]) = some 2 := by
  refine ⟨fun h => ?_, by decide +kernel⟩
  refine h 1 2 5 0 ⟨by decide, by decide, by decide, by decide⟩ (.single 0 [2 ^ 64 - 1, 2]) (.single 0 [3, 4])
    ⟨2, [[2 ^ 64 - 1, 2]], [pack 0 0, emptyVal, emptyVal, emptyVal, emptyVal], []⟩ ⟨by decide, by decide, by decide, by decide⟩
    ⟨by decide, by decide, by decide, by decide⟩ (by decide +kernel) ⟨(0, [3, 4]), by decide, by decide⟩
    ⟨2, [[3, 4]], [pack 0 0, emptyVal, emptyVal, pack 0 0, emptyVal], []⟩ (by decide +kernel)

/-- C182, the matrix of hashes. With as many columns as the table has hash functions, both builds take row `i` for item `i`. -/
theorem C182_matrix (c : Hasher) (idxs : List Nat) (M : List (List Nat)) (hM : ∀ r ∈ M, r.length = c.numHashes)
    (hlen : M.length = idxs.length) (ws : Nat) :
    insertMatrix false c idxs c.numHashes M.flatten ws = insertBatch c (idxs.zip M) ws ∧
      insertMatrix true c idxs c.numHashes M.flatten ws = insertBatchChecked c (idxs.zip M) ws := by
  have h : flatItems c.numHashes idxs M.flatten = idxs.zip M := by
    apply List.ext_getElem
    · simp [flatItems, hlen]
    · intro k h1 h2
      have hk : k < idxs.length := by simpa [flatItems] using h1
      have hk' : k < M.length := by omega
      simp only [flatItems, List.getElem_map, List.getElem_range, List.getElem_zip]
      rw [flatRow_flatten _ M hM k hk']
      simp [List.getD, hk, hk']
  unfold insertMatrix
  simp [h]

/-- C182, a matrix with fewer columns: the debug build throws, the release build reads past the end of the matrix. -/
theorem C182_narrow (c : Hasher) (idxs : List Nat) (cols : Nat) (data : List Nat) (ws : Nat) (hc : cols < c.numHashes)
    (hd : data.length = idxs.length * cols) (hne : idxs ≠ []) :
    insertMatrix true c idxs cols data ws = .throw ∧ insertMatrix false c idxs cols data ws = .ub := by
  have hk : 0 < idxs.length := List.length_pos_iff.mpr hne
  constructor
  · unfold insertMatrix
    rw [if_pos rfl, if_pos (by omega)]
  · unfold insertMatrix insertBatch
    rw [if_neg (by simp)]
    split
    · rw [loadRows_short _ (p := (idxs.getD (idxs.length - 1) 0, flatRow c.numHashes data (idxs.length - 1)))]
      · rfl
      · exact List.mem_map.mpr ⟨idxs.length - 1, by simp; omega, rfl⟩
      · simp only [flatRow, List.length_take, List.length_drop, hd]
        have h1 : idxs.length * cols < idxs.length * c.numHashes := Nat.mul_lt_mul_of_pos_left hc hk
        have h2 : (idxs.length - 1) * c.numHashes = idxs.length * c.numHashes - c.numHashes := by
          rw [Nat.sub_mul, Nat.one_mul]
        omega
    · rfl

/-- What `find` returns in the result. -/
def findIn (hs : List Nat) : Out Hasher → Option (Option Nat)
  | .ok c => match find c hs with
    | .ok r => some r
    | _ => none
  | _ => none

/-- C182, a matrix with more columns: the release build takes the wrong words. Two items with hashes (1, 2) and (4, 5) in a matrix
with three columns: the second is not found. -/
theorem C182_wide : insertMatrix true (init 2 2 7 0) [0, 1] 3 [1, 2, 3, 4, 5, 6] 2 = .throw ∧
    findIn [1, 2] (insertMatrix false (init 2 2 7 0) [0, 1] 3 [1, 2, 3, 4, 5, 6] 2) = some (some 0) ∧
    findIn [4, 5] (insertMatrix false (init 2 2 7 0) [0, 1] 3 [1, 2, 3, 4, 5, 6] 2) = some none := by decide +kernel

/-! Non-vacuity. -/

/-- A history with both kinds of calls. -/
example : Good 4 2 [.single 0 [1, 2], .batch [(2, [1, 3]), (1, [2, 2])] 2] ∧
    zeros (runCallsChecked (init 4 2 5 1) [.single 0 [1, 2], .batch [(2, [1, 3]), (1, [2, 2])] 2]) = some 1 := by
  exact ⟨⟨by decide, by decide, by decide, by decide⟩, by decide +kernel⟩

/-- A table with a written row. -/
example : (∀ row ∈ [[1, 2], [2 ^ 64 - 1, 2 ^ 64 - 1]], row.length = 2) ∧ ∃ w ∈ [1, 2], w ≠ 2 ^ 64 - 1 := by decide

end Verif.Hasher
