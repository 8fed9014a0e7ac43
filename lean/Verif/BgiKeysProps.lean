import Verif.BgiKeysModel
import Verif.BgiProps
import Mathlib.Tactic.Ring
/-
Property theorems C135: keys that are given to `MultiKey` as one matrix, and `getK`.

Specification vocabulary: `flat key` is the row `k[0] … k[depth] g[0] …`.
-/
namespace Verif.Bgi
open Verif

/-- A key as one row. -/
def flat (key : Key) : List Block := key.k ++ key.g

theorem setFlat_eq (m : Multi) (i : Nat) (key : Key) (h1 : key.k.length = m.kSize)
    (h2 : key.g.length = m.gSize) : multiSetFlat m i (flat key) = multiSetKey m i key := by
  unfold multiSetFlat flat
  rw [if_neg (by simp; omega), ← h1, ← h2]
  simp

theorem setKey_keeps (m m' : Multi) (i : Nat) (key : Key) (h : multiSetKey m i key = .ok m') :
    m'.kSize = m.kSize ∧ m'.gSize = m.gSize ∧ m'.numKeys = m.numKeys := by
  unfold multiSetKey at h
  by_cases hb : key.k.length ≠ m.kSize ∨ key.g.length ≠ m.gSize
  · rw [if_pos hb] at h; cases h
  · rw [if_neg hb] at h; cases h; exact ⟨rfl, rfl, rfl⟩

theorem setRows_eq (keys : List Key) (m : Multi) (i : Nat)
    (hk : ∀ key ∈ keys, key.k.length = m.kSize ∧ key.g.length = m.gSize) :
    multiSetRows m i (keys.map flat) = multiSetKeys m i keys := by
  induction keys generalizing m i with
  | nil => rfl
  | cons key rest ih =>
    obtain ⟨h1, h2⟩ := hk key (by simp)
    simp only [List.map_cons, multiSetRows, multiSetKeys]
    rw [setFlat_eq m i key h1 h2]
    cases h : multiSetKey m i key with
    | ok m' =>
      obtain ⟨e1, e2, _⟩ := setKey_keeps m m' i key h
      exact ih m' (i + 1) fun x hx => by rw [e1, e2]; exact hk x (by simp [hx])
    | throw => rfl
    | ub => rfl

/-! ### C135 -/

/-- C135. Keys given as the rows of one matrix: `yeild` returns the bits of the keys in order. -/
theorem C135_matrix_stream (aes : Bool → Block → Block) (depth groupSize : Nat) (keys : List Key)
    (old : Multi) (hne : keys ≠ []) (hk : ∀ key ∈ keys, Shape depth groupSize key)
    (hg : 0 < groupSize) :
    ∃ m, multiSetMatrix (multiInit old keys.length (depth + 1) groupSize) (keys.map flat) = .ok m ∧
      ∀ n, n < domain depth groupSize →
        (multiYield aes (multiAfter aes n m)).1 =
          .ok (keys.map fun key => asByte (evalOne aes n key)) := by
  obtain ⟨m, hm, hy⟩ := C04_multikey_stream aes depth groupSize keys old hne hk hg
  refine ⟨m, ?_, hy⟩
  cases keys with
  | nil => exact absurd rfl hne
  | cons k0 rest =>
    obtain ⟨a, b⟩ := hk k0 (by simp)
    unfold multiInitKeys at hm
    simp only [a, b] at hm
    unfold multiSetMatrix
    rw [if_neg (by simp [multiInit]), setRows_eq]
    · exact hm
    · intro key hkey; exact hk key hkey

example : ∀ key ∈ [(⟨[1#128, 2#128], [3#128]⟩ : Key), ⟨[4#128, 5#128], [6#128]⟩],
    Shape 1 1 key := by decide
example : flat ⟨[1#128, 2#128], [3#128]⟩ = [1#128, 2#128, 3#128] := by decide

/-- C135. A matrix with another number of rows, or with rows of another length, is rejected. -/
theorem C135_rejects (m : Multi) (rows : List (List Block))
    (h : rows.length ≠ m.numKeys ∨ ∃ kg ∈ rows, kg.length ≠ m.kSize + m.gSize) :
    multiSetMatrix m rows = .throw := by
  unfold multiSetMatrix
  by_cases hr : rows.length ≠ m.numKeys
  · rw [if_pos hr]
  · rw [if_neg hr]
    have aux : ∀ (rows : List (List Block)) (m : Multi) (i : Nat),
        (∃ kg ∈ rows, kg.length ≠ m.kSize + m.gSize) → multiSetRows m i rows = .throw := by
      intro rows
      induction rows with
      | nil => rintro m i ⟨_, h, _⟩; cases h
      | cons kg rest ih =>
        rintro m i ⟨x, hx, hb⟩
        simp only [multiSetRows]
        by_cases hc : m.gSize + m.kSize ≠ kg.length
        · unfold multiSetFlat; rw [if_pos hc]; rfl
        · have hx' : x ∈ rest := by
            rcases List.mem_cons.mp hx with rfl | hx
            · omega
            · exact hx
          cases hs : multiSetFlat m i kg with
          | ok m' =>
            unfold multiSetFlat at hs
            rw [if_neg hc] at hs
            obtain ⟨e1, e2, _⟩ := setKey_keeps m m' i _ hs
            exact ih m' (i + 1) ⟨x, hx', by rw [e1, e2]; exact hb⟩
          | throw => rfl
          | ub =>
            exfalso
            unfold multiSetFlat multiSetKey at hs
            rw [if_neg hc] at hs
            split at hs <;> cases hs
    exact aux rows m 0 (by tauto)

theorem readRow_ok (m : Multi) (p n i : Nat) (hp : p < m.kSize)
    (hi : i + n ≤ (m.numKeys + 7) / 8 * 8) :
    readRow m p n i = .ok ((List.range' i n).map fun j => m.cw p j) := by
  induction n generalizing i with
  | zero => rfl
  | succ n ih =>
    have hlt : i < (m.numKeys + 7) / 8 * 8 := by omega
    have hr : readK m p i = .ok (m.cw p i) := by
      unfold readK
      simp only []
      generalize (m.numKeys + 7) / 8 * 8 = cols at hlt
      have h1 : (p * cols + i) / cols = p := by
        rw [Nat.mul_comm, Nat.mul_add_div (by omega), Nat.div_eq_of_lt hlt, Nat.add_zero]
      have h2 : (p * cols + i) % cols = i := by
        rw [Nat.mul_comm, Nat.mul_add_mod, Nat.mod_eq_of_lt hlt]
      have h3 : p * cols + i < m.kSize * cols := by
        have : (p + 1) * cols ≤ m.kSize * cols := Nat.mul_le_mul_right _ hp
        rw [Nat.add_mul] at this; omega
      rw [if_pos h3, h1, h2]
    simp only [readRow, hr, Out.bind, ih (i + 1) (by omega)]
    simp [List.range'_succ]

/-- C135, what `getK(p)` returns when there are at least as many columns as key words: not the key
number `p` but the correction words of level `p` of the keys number 0, 1, …. -/
theorem C135_getK (depth groupSize : Nat) (keys : List Key) (old : Multi) (hne : keys ≠ [])
    (hk : ∀ key ∈ keys, Shape depth groupSize key) (hn : depth + 1 ≤ keys.length) (p : Nat)
    (hp : p < depth) :
    ∃ m, multiInitKeys old keys = .ok m ∧
      multiGetK m p = .ok ((keys.take (depth + 1)).map fun key => key.k.getD (p + 1) 0) := by
  cases keys with
  | nil => exact absurd rfl hne
  | cons k0 rest =>
    obtain ⟨a, b⟩ := hk k0 (by simp)
    obtain ⟨m, e, n1, n2, n3, -, -, -, -, -, hc⟩ := multiSetKeys_ok (k0 :: rest) depth groupSize
      (fun x hx => (hk x hx).1) (fun x hx => (hk x hx).2) 0
      (multiInit old (k0 :: rest).length (depth + 1) groupSize) rfl rfl
    have n1' : m.numKeys = (k0 :: rest).length := n1
    have n2' : m.kSize = depth + 1 := n2
    refine ⟨m, ?_, ?_⟩
    · unfold multiInitKeys; simp only [a, b]; exact e
    · unfold multiGetK
      rw [readRow_ok m p _ 0 (by omega) (by rw [n2', n1']; omega), n2']
      congr 1
      apply List.ext_getElem
      · simp only [List.length_map, List.length_range', List.length_take]; omega
      · intro i h1 h2
        have hi : i < (k0 :: rest).length := by
          simp only [List.length_map, List.length_range'] at h1; omega
        have := (hc i hi).2.1 p hp
        simp only [List.getElem_map, List.getElem_range', List.getElem_take]
        simpa using this

/-- Two keys for the witness. -/
def getKKeys : List Key := [⟨[1#128, 2#128], [3#128]⟩, ⟨[4#128, 5#128], [6#128]⟩]

/-- C135, negation: `getK(0)` is not the first key, nor its correction words. -/
theorem C135_getK_wrong (old : Multi) :
    ∃ m, multiInitKeys old getKKeys = .ok m ∧ multiGetK m 0 = .ok [2#128, 5#128] ∧
      [2#128, 5#128] ≠ (⟨[1#128, 2#128], [3#128]⟩ : Key).k := by
  obtain ⟨m, e, h⟩ := C135_getK 1 1 getKKeys old (by decide) (by decide) (by decide) 0 (by decide)
  exact ⟨m, e, h, by decide⟩

/-- C135, negation: with a deep key and few keys, `getK` of the last level reads outside of the
matrix. -/
theorem C135_getK_outside (m : Multi) (h1 : m.numKeys = 1) (h2 : m.kSize = 10) :
    multiGetK m 9 = .ub := by
  unfold multiGetK
  rw [h2]
  simp [readRow, readK, h1, h2, Out.bind]

end Verif.Bgi
