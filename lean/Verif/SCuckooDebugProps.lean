import Verif.SCuckooDebugModel
import Verif.SCuckooBoundProps
import Verif.HasherDebugLemmas
/-
Property theorems C183: the builds of SimpleCuckoo, and the matrix of hashes.
-/
namespace Verif.SCuckoo
open Verif Verif.Cuckoo

/-- C183. With as many columns as the table has hash functions both builds take row `i` of the matrix for item `i`. -/
theorem C183_matrix (debug : Bool) (c : Table) (idxs : List Nat) (M : List (List Nat)) (hM : ∀ r ∈ M, r.length = c.numHashes)
    (hlen : idxs.length ≤ M.length) (ws : Nat) :
    insertMatrix debug c idxs c.numHashes M.flatten ws = insertBatch c (idxs.zip M) ws := by
  have h : flatItems c.numHashes idxs M.flatten = idxs.zip M := by
    apply List.ext_getElem
    · simp [flatItems, hlen]
    · intro k h1 h2
      have hk : k < idxs.length := by simpa [flatItems] using h1
      have hk' : k < M.length := by omega
      simp only [flatItems, List.getElem_map, List.getElem_range, List.getElem_zip]
      rw [Hasher.flatRow_flatten _ M hM k hk']
      simp [List.getD, hk, hk']
  unfold insertMatrix
  cases debug <;> simp [h]

/-- C183. A matrix with fewer columns: the debug build throws, the release build reads past the end of the matrix. -/
theorem C183_narrow (c : Table) (idxs : List Nat) (cols : Nat) (data : List Nat) (ws : Nat) (hc : cols < c.numHashes)
    (hd : data.length = idxs.length * cols) (hne : idxs ≠ []) :
    insertMatrix true c idxs cols data ws = .throw ∧ insertMatrix false c idxs cols data ws = .ub := by
  have hk : 0 < idxs.length := List.length_pos_iff.mpr hne
  constructor
  · unfold insertMatrix
    rw [if_pos rfl, if_pos (by omega)]
  · unfold insertMatrix
    rw [if_neg (by simp)]
    refine C97_bad_batch c _ ws (idxs.getD (idxs.length - 1) 0, Hasher.flatRow c.numHashes data (idxs.length - 1))
      (List.mem_map.mpr ⟨idxs.length - 1, by simp; omega, rfl⟩) (.inr ?_)
    simp only [Hasher.flatRow, List.length_take, List.length_drop, hd]
    have h1 : idxs.length * cols < idxs.length * c.numHashes := Nat.mul_lt_mul_of_pos_left hc hk
    have h2 : (idxs.length - 1) * c.numHashes = idxs.length * c.numHashes - c.numHashes := by
      rw [Nat.sub_mul, Nat.one_mul]
    omega

/-- Is this item stored? -/
def holds (i : Nat) : Out Table → Bool
  | .ok c => (c.bins ++ c.stash).any fun v => v ≠ emptyVal && v % 2 ^ 56 == i
  | _ => false

/-- What `findBatch` returns for one query. -/
def findIn (hs : List Nat) : Out Table → Option (List (Option Nat))
  | .ok c => match findBatch c [hs] with
    | .ok r => some r
    | _ => none
  | _ => none

/-- C183. A matrix with more columns: the debug build throws, the release build takes the wrong words. Two items with hashes (1, 2)
and (4, 5) in a matrix with three columns: the second is stored, but not found. -/
theorem C183_wide : insertMatrix true (init new 2 2 7) [0, 1] 3 [1, 2, 3, 4, 5, 6] 2 = .throw ∧
    holds 1 (insertMatrix false (init new 2 2 7) [0, 1] 3 [1, 2, 3, 4, 5, 6] 2) = true ∧
    findIn [1, 2] (insertMatrix false (init new 2 2 7) [0, 1] 3 [1, 2, 3, 4, 5, 6] 2) = some [some 0] ∧
    findIn [4, 5] (insertMatrix false (init new 2 2 7) [0, 1] 3 [1, 2, 3, 4, 5, 6] 2) = some [none] := by decide +kernel

/-- C183. The `insert` that takes blocks always makes a matrix of the right width: in both builds, for all arguments, item `i` gets
the words of hash `i`; with fewer hashes than indices there is undefined behaviour. -/
theorem C183_insert (debug : Bool) (aes : Block → Block → Block) (c : Table) (idxs : List Nat) (hashs : List Block) :
    (idxs.length ≤ hashs.length → insertFlat debug aes c idxs hashs =
      insertBatch c (idxs.zip (hashs.map fun h => (List.range c.numHashes).map fun j =>
        (aes h (BitVec.ofNat 128 j)).toNat % 2 ^ 64)) idxs.length) ∧
    (hashs.length < idxs.length → insertFlat debug aes c idxs hashs = .ub) := by
  have hM : ∀ r ∈ hashs.map (rowOf aes c.numHashes), r.length = c.numHashes := by
    intro r hr
    obtain ⟨h, _, rfl⟩ := List.mem_map.mp hr
    simp [rowOf]
  have e : hashMatrix aes c.numHashes hashs = (hashs.map (rowOf aes c.numHashes)).flatten := by
    unfold hashMatrix
    rw [List.flatMap_def]
  constructor
  · intro h
    unfold insertFlat
    rw [e, C183_matrix debug c idxs _ hM (by simpa using h)]
    rfl
  · intro h
    have hflat : insertFlat debug aes c idxs hashs =
        insertBatch c (flatItems c.numHashes idxs (hashMatrix aes c.numHashes hashs)) idxs.length := by
      unfold insertFlat insertMatrix
      cases debug <;> simp
    rw [hflat]
    by_cases hz : c.numHashes = 0
    · unfold insertBatch
      rw [if_pos (by simp [flatItems])]
      cases el : loadRows c (flatItems c.numHashes idxs (hashMatrix aes c.numHashes hashs)) with
      | throw =>
        exfalso
        have : ∀ (l : List (Nat × List Nat)) (c : Table), loadRows c l ≠ .throw := by
          intro l
          induction l with
          | nil => intro c; simp [loadRows]
          | cons q l ih =>
            intro c
            unfold loadRows
            split
            · exact ih _
            · simp
        exact this _ _ el
      | ub => rfl
      | ok c' =>
        have hn : ∀ (l : List (Nat × List Nat)) (c c' : Table), loadRows c l = .ok c' → c'.numHashes = c.numHashes := by
          intro l
          induction l with
          | nil => intro c c' h; simp only [loadRows, Out.ok.injEq] at h; subst h; rfl
          | cons q l ih =>
            intro c c' h
            unfold loadRows at h
            split at h
            · have := ih _ _ h
              exact this
            · simp at h
        have h0 := hn _ _ _ el
        simp only [Out.bind]
        unfold rounds
        rw [if_neg, if_neg]
        · intro ⟨_, h1⟩
          exact h1 (h0.trans hz)
        · intro hnil
          have := congrArg List.length hnil
          simp [flatItems] at this
          simp [this] at h
    · have hlen : (hashMatrix aes c.numHashes hashs).length = hashs.length * c.numHashes := by
        rw [e, List.length_flatten, List.map_map]
        have : (List.length ∘ rowOf aes c.numHashes) = fun _ => c.numHashes := by
          funext x; simp [rowOf]
        rw [this]
        simp [List.map_const']
      refine C97_bad_batch c _ _ (idxs.getD hashs.length 0, Hasher.flatRow c.numHashes (hashMatrix aes c.numHashes hashs) hashs.length)
        (List.mem_map.mpr ⟨hashs.length, by simpa using h, rfl⟩) (.inr ?_)
      simp only [Hasher.flatRow, List.length_take, List.length_drop, hlen]
      omega

/-! Non-vacuity. -/

example : holds 1 (insertFlat true (fun k x => k + x) (init new 2 2 7) [0, 1] [5, 6]) = true ∧
    insertFlat false (fun k x => k + x) (init new 2 2 7) [0, 1] [5] = .ub ∧
    insertMatrix false (init new 2 2 7) [0, 1] 1 [3, 4] 2 = .ub := by decide +kernel

end Verif.SCuckoo
