import Verif.BgiStreamModel
import Verif.BgiDomain
/-
Lemmas about the streaming interfaces.
-/
namespace Verif.Bgi
open Verif

/-! ### MultiKey -/

/-- Seed of lane `j` at level `l`, prefix `q`, for arbitrary root seeds and correction words. -/
def nodeG (aes : Bool → Block → Block) (cw : Nat → Nat → Block) (root : Nat → Block) (j : Nat) :
    Nat → Nat → Block
  | 0, _ => root j
  | l + 1, q => traverseOne aes (nodeG aes cw root j l (q / 2)) (cw l j) (q % 2 == 1)

theorem nodeG_path (aes : Bool → Block → Block) (cw : Nat → Nat → Block) (root : Nat → Block)
    (j : Nat) (k : List Block) (D : Nat) (h0 : root j = k.getD 0 0)
    (h : ∀ d, d < D → cw d j = k.getD (d + 1) 0) (l q : Nat) (hl : l ≤ D) :
    nodeG aes cw root j l q = traversePath aes l q k := by
  induction l generalizing q with
  | zero => exact h0
  | succ l ih => rw [nodeG, traversePath_succ, ih _ (by omega), h l (by omega)]

/-- The static part of a loaded `MultiKey`: column `j` holds `keys[j]`. -/
structure Loaded (aes : Bool → Block → Block) (keys : List Key) (D G : Nat)
    (root : Nat → Block) (m : Multi) : Prop where
  numKeys : m.numKeys = keys.length
  kSize : m.kSize = D + 1
  gSize : m.gSize = G
  root_eq : ∀ j (h : j < keys.length), root j = (keys[j]).k.getD 0 0
  cw_eq : ∀ j (h : j < keys.length), ∀ d, d < D → m.cw d j = (keys[j]).k.getD (d + 1) 0
  g_eq : ∀ j (h : j < keys.length), ∀ x, x < G → m.g x j = (keys[j]).g.getD x 0

/-- State after `n` calls. -/
structure MInv (aes : Bool → Block → Block) (keys : List Key) (D G : Nat) (root : Nat → Block)
    (n : Nat) (m : Multi) : Prop where
  loaded : Loaded aes keys D G root m
  leaf_le : m.walk.leaf ≤ 2 ^ D
  g_pos : 0 < m.gIdx
  g_le : m.gIdx ≤ G
  b_pos : 0 < m.bIdx
  b_le : m.bIdx ≤ 128
  count : n + G * 128 + 128 = (m.walk.leaf * G + m.gIdx) * 128 + m.bIdx
  start : m.walk.leaf = 0 → m.gIdx = G ∧ m.bIdx = 128
  walk : m.walk.leaf < 2 ^ D → WalkInv D (nodeG aes m.cw root) m.walk
  seed : 0 < m.walk.leaf → ∀ j, m.walk.ss D j = nodeG aes m.cw root j D (m.walk.leaf - 1)
  buf : 0 < m.walk.leaf → ∀ r, r < 128 → ∀ j (h : j < keys.length),
    m.buff r j = bitByte (evalOne aes (n - m.bIdx + r) keys[j])

theorem walkNext_leaf (aes : Bool → Block → Block) (cw : Nat → Nat → Block) (dEnd : Nat)
    (w : Walk) : (walkNext aes cw dEnd w).2.leaf = w.leaf + 1 := rfl

theorem walkNext_ss (aes : Bool → Block → Block) (cw : Nat → Nat → Block) (dEnd : Nat)
    (w : Walk) : (walkNext aes cw dEnd w).2.ss dEnd = (walkNext aes cw dEnd w).1 := rfl

theorem fill_eq (aes : Bool → Block → Block) (keys : List Key) (D G : Nat) (root : Nat → Block)
    (m : Multi) (hl : Loaded aes keys D G root m)
    (hk : ∀ key ∈ keys, key.k.length = D + 1) (hg : ∀ key ∈ keys, key.g.length = G)
    (L : Nat) (hseed : ∀ j, m.walk.ss D j = nodeG aes m.cw root j D L) (hgi : m.gIdx < G)
    (r : Nat) (hr : r < 128) (j : Nat) (hj : j < keys.length) :
    multiFill aes m r j = bitByte (evalOne aes ((L * G + m.gIdx) * 128 + r) keys[j]) := by
  have hk' := hk _ (List.getElem_mem hj)
  have hg' := hg _ (List.getElem_mem hj)
  unfold multiFill
  rw [if_pos ⟨hr, by rw [hl.numKeys]; exact hj⟩]
  simp only [hl.kSize, Nat.add_sub_cancel]
  rw [hseed, nodeG_path aes m.cw root j keys[j].k D (hl.root_eq j hj) (hl.cw_eq j hj) D L
    (Nat.le_refl _), expandBytes_eq, evalOne_eq _ _ _ (by omega), hk', hg', Nat.add_sub_cancel]
  have e : (L * G + m.gIdx) * 128 + r = (G * 128) * L + (m.gIdx * 128 + r) := by
    rw [Nat.add_mul, Nat.mul_right_comm, Nat.mul_comm (L * 128), ← Nat.mul_assoc, Nat.add_assoc]
    ac_rfl
  have hlt : m.gIdx * 128 + r < G * 128 := by omega
  have h1 : ((L * G + m.gIdx) * 128 + r) / (G * 128) = L := by
    rw [e, Nat.mul_add_div (by omega), Nat.div_eq_of_lt hlt, Nat.add_zero]
  have h2 : ((L * G + m.gIdx) * 128 + r) % (G * 128) = m.gIdx * 128 + r := by
    rw [e, Nat.mul_add_mod, Nat.mod_eq_of_lt hlt]
  rw [h1, h2, leafBit]
  have h3 : (m.gIdx * 128 + r) / 128 = m.gIdx := by omega
  have h4 : bitPos (m.gIdx * 128 + r) = bitPos r := by unfold bitPos; omega
  rw [h3, h4, hl.g_eq j hj _ hgi]
  simp [hr]

theorem multiYield_step (aes : Bool → Block → Block) (keys : List Key) (D G : Nat)
    (root : Nat → Block) (hG : 0 < G)
    (hk : ∀ key ∈ keys, key.k.length = D + 1) (hg : ∀ key ∈ keys, key.g.length = G)
    (n : Nat) (hn : n < 2 ^ D * (G * 128)) (m : Multi) (h : MInv aes keys D G root n m) :
    (multiYield aes m).1 = .ok (keys.map fun key => bitByte (evalOne aes n key)) ∧
      MInv aes keys D G root (n + 1) (multiYield aes m).2 := by
  have hemit : ∀ (m' : Multi), Loaded aes keys D G root m' →
      (∀ j (h : j < keys.length), m'.buff m'.bIdx j = bitByte (evalOne aes n keys[j])) →
      (List.range m'.numKeys).map (m'.buff m'.bIdx) =
        keys.map fun key => bitByte (evalOne aes n key) := by
    intro m' hl' hb
    apply List.ext_getElem
    · simp [hl'.numKeys]
    · intro i h1 h2
      simp only [List.length_map, List.length_range] at h1 h2
      simp [hb i h2]
  have hrefill : ∀ (m' : Multi) (L : Nat), Loaded aes keys D G root m' →
      m'.walk.leaf = L + 1 → m'.walk.leaf ≤ 2 ^ D → m'.gIdx < G → n = (L * G + m'.gIdx) * 128 →
      (m'.walk.leaf < 2 ^ D → WalkInv D (nodeG aes m'.cw root) m'.walk) →
      (∀ j, m'.walk.ss D j = nodeG aes m'.cw root j D L) →
      Out.ok ((List.range m'.numKeys).map (multiFill aes m' 0)) =
          .ok (keys.map fun key => bitByte (evalOne aes n key)) ∧
        MInv aes keys D G root (n + 1)
          { m' with bIdx := 1, buff := multiFill aes m', gIdx := m'.gIdx + 1 } := by
    intro m' L hl' hL hle hgi hnn hw hs
    have hf := fill_eq aes keys D G root m' hl' hk hg L hs hgi
    refine ⟨?_, ?_⟩
    · congr 1
      refine hemit { m' with bIdx := 0, buff := multiFill aes m' }
        ⟨hl'.1, hl'.2, hl'.3, hl'.4, hl'.5, hl'.6⟩ ?_
      intro j hj
      show multiFill aes m' 0 j = _
      rw [hf 0 (by omega) j hj, hnn]; rfl
    · constructor
      · exact ⟨hl'.1, hl'.2, hl'.3, hl'.4, hl'.5, hl'.6⟩
      · exact hle
      · exact Nat.succ_pos _
      · exact hgi
      · exact Nat.one_pos
      · show 1 ≤ 128; omega
      · show n + 1 + G * 128 + 128 = (m'.walk.leaf * G + (m'.gIdx + 1)) * 128 + 1
        rw [hL, Nat.succ_mul, hnn]; omega
      · intro h0
        have h0 : m'.walk.leaf = 0 := h0
        omega
      · exact hw
      · intro _ j
        show m'.walk.ss D j = nodeG aes m'.cw root j D (m'.walk.leaf - 1)
        rw [hs, hL]; rfl
      · intro _ r hr j hj
        show multiFill aes m' r j = _
        rw [hf r hr j hj]
        show _ = bitByte (evalOne aes (n + 1 - 1 + r) keys[j])
        rw [Nat.add_sub_cancel, hnn]
  have hl := h.loaded
  unfold multiYield
  simp only []
  by_cases hb : m.bIdx = 128
  · rw [if_pos hb]
    by_cases hgi : m.gIdx = m.gSize
    · rw [if_pos hgi]
      have hgG : m.gIdx = G := by rw [hgi, hl.gSize]
      have hnn : n = m.walk.leaf * G * 128 := by have := h.count; rw [hb, hgG] at this; omega
      have hlt : m.walk.leaf < 2 ^ D := by
        rcases Nat.lt_or_ge m.walk.leaf (2 ^ D) with h1 | h1
        · exact h1
        · exfalso
          have := Nat.mul_le_mul_right (G * 128) h1
          rw [Nat.mul_assoc] at hnn; omega
      have hD : m.kSize - 1 = D := by rw [hl.kSize]; rfl
      rw [if_neg (by rw [hD]; omega), hD]
      refine hrefill { m with gIdx := 0, walk := (walkNext aes m.cw D m.walk).2 } m.walk.leaf
        ⟨hl.1, hl.2, hl.3, hl.4, hl.5, hl.6⟩ rfl hlt hG (by rw [hnn]; simp) ?_ ?_
      · intro h1
        exact walkNext_inv aes m.cw D _ (fun j l q _ => rfl) m.walk (h.walk hlt) h1
      · intro j
        exact walkNext_out aes m.cw D _ (fun j l q _ => rfl) m.walk (h.walk hlt) j
    · rw [if_neg hgi]
      have hgG : m.gIdx ≠ G := by rw [← hl.gSize]; exact hgi
      have hpos : 0 < m.walk.leaf := by
        rcases Nat.eq_zero_or_pos m.walk.leaf with h0 | h0
        · exact absurd (h.start h0).1 hgG
        · exact h0
      obtain ⟨L, hL⟩ : ∃ L, m.walk.leaf = L + 1 := ⟨m.walk.leaf - 1, by omega⟩
      refine hrefill m L hl hL h.leaf_le (by have := h.g_le; omega) ?_ h.walk ?_
      · have := h.count
        rw [hL, Nat.succ_mul, hb] at this; omega
      · intro j
        rw [h.seed hpos j, hL]; rfl
  · rw [if_neg hb]
    have hpos : 0 < m.walk.leaf := by
      rcases Nat.eq_zero_or_pos m.walk.leaf with h0 | h0
      · exact absurd (h.start h0).2 hb
      · exact h0
    have hble := h.b_le
    have hgpos := h.g_pos
    have hnb : m.bIdx ≤ n := by
      have h1 := h.count
      have h2 : G ≤ m.walk.leaf * G := Nat.le_mul_of_pos_left G hpos
      omega
    refine ⟨?_, ?_⟩
    · refine congrArg Out.ok (hemit m hl ?_)
      intro j hj
      rw [h.buf hpos m.bIdx (by omega) j hj]
      congr 2; omega
    · constructor
      · exact ⟨hl.1, hl.2, hl.3, hl.4, hl.5, hl.6⟩
      · exact h.leaf_le
      · exact h.g_pos
      · exact h.g_le
      · exact Nat.succ_pos _
      · show m.bIdx + 1 ≤ 128; omega
      · show n + 1 + G * 128 + 128 = (m.walk.leaf * G + m.gIdx) * 128 + (m.bIdx + 1)
        have := h.count; omega
      · intro h0
        have h0 : m.walk.leaf = 0 := h0
        omega
      · exact h.walk
      · exact h.seed
      · intro _ r hr j hj
        show m.buff r j = bitByte (evalOne aes (n + 1 - (m.bIdx + 1) + r) keys[j])
        rw [h.buf hpos r hr j hj]
        congr 2; omega

theorem multiAfter_inv (aes : Bool → Block → Block) (keys : List Key) (D G : Nat)
    (root : Nat → Block) (hG : 0 < G)
    (hk : ∀ key ∈ keys, key.k.length = D + 1) (hg : ∀ key ∈ keys, key.g.length = G)
    (m : Multi) (h : MInv aes keys D G root 0 m) (n : Nat) (hn : n ≤ 2 ^ D * (G * 128)) :
    MInv aes keys D G root n (multiAfter aes n m) := by
  induction n with
  | zero => exact h
  | succ n ih => exact (multiYield_step aes keys D G root hG hk hg n hn _ (ih (by omega))).2

/-- Contents after `multiSetKeys`. -/
theorem multiSetKeys_ok (keys : List Key) (D G : Nat)
    (hk : ∀ key ∈ keys, key.k.length = D + 1) (hg : ∀ key ∈ keys, key.g.length = G)
    (start : Nat) (m : Multi) (hmk : m.kSize = D + 1) (hmg : m.gSize = G) :
    ∃ m', multiSetKeys m start keys = .ok m' ∧ m'.numKeys = m.numKeys ∧ m'.kSize = m.kSize ∧
      m'.gSize = m.gSize ∧ m'.walk.leaf = m.walk.leaf ∧ m'.walk.d = m.walk.d ∧ m'.gIdx = m.gIdx ∧
      m'.bIdx = m.bIdx ∧
      (∀ j, j < start → m'.walk.ss 0 j = m.walk.ss 0 j ∧ (∀ d, m'.cw d j = m.cw d j) ∧
        (∀ x, m'.g x j = m.g x j)) ∧
      (∀ j (h : j < keys.length), m'.walk.ss 0 (start + j) = keys[j].k.getD 0 0 ∧
        (∀ d, d < D → m'.cw d (start + j) = keys[j].k.getD (d + 1) 0) ∧
        (∀ x, x < G → m'.g x (start + j) = keys[j].g.getD x 0)) := by
  induction keys generalizing start m with
  | nil =>
    refine ⟨m, rfl, rfl, rfl, rfl, rfl, rfl, rfl, rfl, ?_, ?_⟩
    · intro j _; exact ⟨rfl, fun _ => rfl, fun _ => rfl⟩
    · intro j h; simp at h
  | cons key rest ih =>
    have h1 : key.k.length = m.kSize := by rw [hmk]; exact hk key (List.mem_cons_self ..)
    have h2 : key.g.length = m.gSize := by rw [hmg]; exact hg key (List.mem_cons_self ..)
    obtain ⟨m', e, a1, a2, a3, a4, a5, a6, a7, a8, a9⟩ :=
      ih (fun x hx => hk x (List.mem_cons_of_mem _ hx)) (fun x hx => hg x (List.mem_cons_of_mem _ hx))
        (start + 1)
        { m with
          walk := { m.walk with
            ss := fun d j => if d = 0 ∧ j = start then key.k.getD 0 0 else m.walk.ss d j }
          cw := fun d j => if d < m.kSize - 1 ∧ j = start then key.k.getD (d + 1) 0 else m.cw d j
          g := fun x j => if x < m.gSize ∧ j = start then key.g.getD x 0 else m.g x j } hmk hmg
    refine ⟨m', ?_, a1, a2, a3, a4, a5, a6, a7, ?_, ?_⟩
    · unfold multiSetKeys multiSetKey
      rw [if_neg (by simp [h1, h2])]
      exact e
    · intro j hj
      obtain ⟨b1, b2, b3⟩ := a8 j (by omega)
      have hne : j ≠ start := by omega
      refine ⟨?_, ?_, ?_⟩
      · rw [b1]; simp [hne]
      · intro d; rw [b2]; simp [hne]
      · intro d; rw [b3]; simp [hne]
    · intro j hj
      cases j with
      | zero =>
        obtain ⟨b1, b2, b3⟩ := a8 start (by omega)
        refine ⟨?_, ?_, ?_⟩
        · rw [Nat.add_zero, b1]; simp
        · intro d hd; rw [Nat.add_zero, b2]
          simp only [hmk, Nat.add_sub_cancel, hd, and_self, if_true]; rfl
        · intro x hx; rw [Nat.add_zero, b3]; simp only [hmg, hx, and_self, if_true]; rfl
      | succ j =>
        have := a9 j (by simpa using hj)
        rw [show start + (j + 1) = start + 1 + j by omega]
        exact this

theorem multiInitKeys_inv (aes : Bool → Block → Block) (old : Multi) (keys : List Key) (D G : Nat)
    (hne : keys ≠ []) (hG : 0 < G)
    (hk : ∀ key ∈ keys, key.k.length = D + 1) (hg : ∀ key ∈ keys, key.g.length = G) :
    ∃ m root, multiInitKeys old keys = .ok m ∧ MInv aes keys D G root 0 m := by
  obtain ⟨key, rest, rfl⟩ := List.exists_cons_of_ne_nil hne
  have h1 := hk key (List.mem_cons_self ..)
  have h2 := hg key (List.mem_cons_self ..)
  obtain ⟨m', e, a1, a2, a3, a4, a5, a6, a7, a8, a9⟩ := multiSetKeys_ok (key :: rest) D G hk hg 0
    (multiInit old (key :: rest).length key.k.length key.g.length) h1 h2
  refine ⟨m', fun j => m'.walk.ss 0 j, e, ?_⟩
  have hleaf : m'.walk.leaf = 0 := a4
  have hgi : m'.gIdx = G := by rw [a6]; exact h2
  have hbi : m'.bIdx = 128 := a7
  have hld : Loaded aes (key :: rest) D G (fun j => m'.walk.ss 0 j) m' := by
    constructor
    · rw [a1]; rfl
    · rw [a2]; exact h1
    · rw [a3]; exact h2
    · intro j hj; have := (a9 j hj).1; rwa [Nat.zero_add] at this
    · intro j hj; have := (a9 j hj).2.1; rwa [Nat.zero_add] at this
    · intro j hj; have := (a9 j hj).2.2; rwa [Nat.zero_add] at this
  constructor
  · exact hld
  · rw [hleaf]; exact Nat.zero_le _
  · omega
  · omega
  · omega
  · omega
  · rw [hleaf, hgi, hbi]; omega
  · intro _; exact ⟨hgi, hbi⟩
  · intro _
    constructor
    · rw [a5]; exact Nat.zero_le _
    · intro l hl j
      have hl0 : l = 0 := by
        have hd : m'.walk.d = 0 := a5
        omega
      subst hl0; rfl
  · intro h; omega
  · intro h; omega

theorem multi_end (aes : Bool → Block → Block) (keys : List Key) (D G : Nat)
    (root : Nat → Block) (hG : 0 < G) (m : Multi)
    (h : MInv aes keys D G root (2 ^ D * (G * 128)) m) :
    m.bIdx = 128 ∧ m.gIdx = m.gSize ∧ m.walk.leaf = 2 ^ (m.kSize - 1) := by
  have h1 := h.count
  have h2 := h.leaf_le
  have h3 := h.g_le
  have h4 := h.b_le
  have hl : m.walk.leaf = 2 ^ D := by
    rcases Nat.lt_or_ge m.walk.leaf (2 ^ D) with h5 | h5
    · exfalso
      have h6 : (m.walk.leaf + 1) * G ≤ 2 ^ D * G := Nat.mul_le_mul_right _ h5
      rw [Nat.succ_mul] at h6
      rw [← Nat.mul_assoc] at h1
      have : m.walk.leaf * G + G ≤ 2 ^ D * G := h6
      have h7 := h.b_pos
      have h8 := h.g_pos
      omega
    · omega
  rw [hl, ← Nat.mul_assoc] at h1
  rw [h.loaded.gSize, h.loaded.kSize, Nat.add_sub_cancel]
  refine ⟨?_, ?_, hl⟩ <;> omega

/-! ### FullDomainGenerator -/

/-- Positions and bits of leaf `n`, as reported by the generator. -/
def leafPairs (aes : Bool → Block → Block) (key : Key) (n : Nat) : Nat × List (BitVec 8) :=
  (n * (key.g.length * 128), (List.range (key.g.length * 128)).map fun i =>
    bitByte (evalOne aes (n * (key.g.length * 128) + i) key))

theorem leafBytes_eval (aes : Bool → Block → Block) (key : Key) (hg : 0 < key.g.length) (n : Nat) :
    leafBytes aes (traversePath aes (key.k.length - 1) n key.k) key.g =
      (List.range (key.g.length * 128)).map fun i =>
        bitByte (evalOne aes (n * (key.g.length * 128) + i) key) := by
  rw [leafBytes_eq]
  apply List.map_congr_left
  intro i hi
  rw [List.mem_range] at hi
  rw [evalOne_eq _ _ _ hg]
  have h1 : (n * (key.g.length * 128) + i) / (key.g.length * 128) = n := by
    rw [Nat.mul_comm, Nat.mul_add_div (by omega), Nat.div_eq_of_lt hi, Nat.add_zero]
  have h2 : (n * (key.g.length * 128) + i) % (key.g.length * 128) = i := by
    rw [Nat.mul_comm, Nat.mul_add_mod, Nat.mod_eq_of_lt hi]
  rw [h1, h2]

/-- Number of calls of `yeild` that a key allows. -/
def genCount (key : Key) : Nat :=
  if key.k.length - 1 < 3 then 2 ^ (key.k.length - 1) else 2 ^ (key.k.length - 1 - 3)

/-- What call number `m` returns. -/
def genOut (aes : Bool → Block → Block) (key : Key) (m : Nat) : List (Nat × List (BitVec 8)) :=
  if key.k.length - 1 < 3 then [leafPairs aes key m]
  else (List.range 8).map fun j => leafPairs aes key (j * 2 ^ (key.k.length - 1 - 3) + m)

/-- Lane nodes of the eight-lane walker (lanes above 7 do not exist in the code). -/
def laneAll (aes : Bool → Block → Block) (k : List Block) (j l q : Nat) : Block :=
  if j < 8 then lane8 aes k j l q else traversePath aes l q (0 :: k.drop 4)

theorem laneAll_succ (aes : Bool → Block → Block) (k : List Block) (j l q : Nat) :
    laneAll aes k j (l + 1) q =
      traverseOne aes (laneAll aes k j l (q / 2)) (k.getD (l + 4) 0) (q % 2 == 1) := by
  unfold laneAll
  by_cases hj : j < 8
  · simp only [hj, if_true]; exact lane8_succ aes k j l q
  · simp only [hj, if_false]; rw [traversePath_succ]
    congr 1
    simp [List.getD]
    congr 2; omega

structure GInv (aes : Bool → Block → Block) (key : Key) (m : Nat) (s : Gen) : Prop where
  key_eq : s.key = key
  prev_eq : s.prev = firstLevels aes key.k (min 3 (key.k.length - 1))
  leaf_eq : s.walk.leaf = m
  more : s.hasMore = decide (m < genCount key)
  walk : 3 ≤ key.k.length - 1 → m < genCount key →
    WalkInv (key.k.length - 1 - 3) (laneAll aes key.k) s.walk

theorem genInit_inv (aes : Bool → Block → Block) (key : Key) :
    GInv aes key 0 (genInit aes Gen.fresh key) := by
  have hpos : 0 < genCount key := by
    unfold genCount; split <;> exact Nat.pow_pos (by omega)
  have hprev : (genInit aes Gen.fresh key).prev =
      firstLevels aes key.k (min 3 (key.k.length - 1)) := rfl
  constructor
  · rfl
  · exact hprev
  · rfl
  · show true = _; simp [hpos]
  · intro h3 _
    constructor
    · exact Nat.zero_le _
    · intro l hl j
      have hl0 : l = 0 := Nat.le_zero.mp hl
      subst hl0
      show (if key.k.length - 1 < 3 then Gen.fresh.walk.ss else fun d j =>
        if d = 0 then (genInit aes Gen.fresh key).prev.getD j 0 else Gen.fresh.walk.ss d j) 0 j = _
      rw [if_neg (by omega), hprev]
      simp only [if_true]
      have hz : (0 : Nat) / 2 ^ (key.k.length - 1 - 3 - 0) = 0 := Nat.zero_div _
      show _ = laneAll aes key.k j 0 (0 / 2 ^ (key.k.length - 1 - 3 - 0))
      rw [hz, show min 3 (key.k.length - 1) = 3 by omega, firstLevels_eq]
      unfold laneAll
      by_cases hj : j < 8
      · rw [if_pos hj, getD_map_range _ _ _ hj]; simp [lane8]
      · rw [if_neg hj]; simp [List.getD, traversePath_zero, hj]

theorem genYield_step (aes : Bool → Block → Block) (key : Key) (hg : 0 < key.g.length) (m : Nat)
    (hm : m < genCount key) (s : Gen) (h : GInv aes key m s) :
    (genYield aes s).1 = .ok (genOut aes key m) ∧ GInv aes key (m + 1) (genYield aes s).2 := by
  unfold genYield genOut
  have hprevlen : s.prev.length = 2 ^ (min 3 (key.k.length - 1)) := by
    rw [h.prev_eq, firstLevels_eq]; simp
  simp only [h.key_eq]
  by_cases hd : key.k.length - 1 < 3
  · have hmin : min 3 (key.k.length - 1) = key.k.length - 1 := by omega
    have hcount : genCount key = 2 ^ (key.k.length - 1) := by unfold genCount; rw [if_pos hd]
    rw [hcount] at hm
    rw [if_pos hd, if_pos (by rw [hprevlen, hmin, h.leaf_eq]; exact hm), if_pos hd]
    refine ⟨?_, ?_⟩
    · simp only []
      rw [h.leaf_eq, h.prev_eq, hmin, firstLevels_eq, getD_map_range _ _ _ hm,
        leafBytes_eval aes key hg, Nat.mul_assoc]
      rfl
    · constructor
      · rfl
      · exact h.prev_eq
      · show s.walk.leaf + 1 = m + 1; rw [h.leaf_eq]
      · show decide _ = decide _
        rw [hprevlen, hmin, h.leaf_eq, hcount]
      · intro h3; omega
  · have hcount : genCount key = 2 ^ (key.k.length - 1 - 3) := by unfold genCount; rw [if_neg hd]
    have hmax : max (key.k.length - 1) 3 - 3 = key.k.length - 1 - 3 := by omega
    have hw := h.walk (by omega) hm
    rw [hcount] at hm
    rw [if_neg hd, hmax, if_pos (by rw [h.leaf_eq]; omega), if_neg hd]
    refine ⟨?_, ?_⟩
    · simp only []
      congr 1
      apply List.map_congr_left
      intro j hj
      rw [List.mem_range] at hj
      rw [walkNext_out aes _ _ (laneAll aes key.k) (fun j l q _ => laneAll_succ aes key.k j l q)
        s.walk hw j, h.leaf_eq]
      unfold laneAll lane8
      rw [if_pos hj, show 3 + (key.k.length - 1 - 3) = key.k.length - 1 by omega,
        leafBytes_eval aes key hg, Nat.shiftLeft_eq, Nat.mul_assoc (j * 2 ^ (key.k.length - 1 - 3) + m)]
      rfl
    · constructor
      · rfl
      · exact h.prev_eq
      · show s.walk.leaf + 1 = m + 1; rw [h.leaf_eq]
      · show decide _ = decide _
        rw [h.leaf_eq, hcount]
        congr 1
        apply propext
        omega
      · intro _ hlt
        rw [hcount] at hlt
        exact walkNext_inv aes _ _ (laneAll aes key.k)
          (fun j l q _ => laneAll_succ aes key.k j l q) s.walk hw (by rw [h.leaf_eq]; exact hlt)

theorem genYield_end (aes : Bool → Block → Block) (key : Key) (s : Gen)
    (h : GInv aes key (genCount key) s) : genYield aes s = (.throw, s) := by
  unfold genYield
  have hprevlen : s.prev.length = 2 ^ (min 3 (key.k.length - 1)) := by
    rw [h.prev_eq, firstLevels_eq]; simp
  simp only [h.key_eq]
  by_cases hd : key.k.length - 1 < 3
  · have hcount : genCount key = 2 ^ (key.k.length - 1) := by unfold genCount; rw [if_pos hd]
    have hmin : min 3 (key.k.length - 1) = key.k.length - 1 := by omega
    rw [if_pos hd, if_neg (by rw [hprevlen, hmin, h.leaf_eq, hcount]; omega)]
  · have hcount : genCount key = 2 ^ (key.k.length - 1 - 3) := by unfold genCount; rw [if_neg hd]
    have hmax : max (key.k.length - 1) 3 - 3 = key.k.length - 1 - 3 := by omega
    rw [if_neg hd, hmax, if_neg (by rw [h.leaf_eq, hcount]; simp)]

theorem genCalls_succ (aes : Bool → Block → Block) (n : Nat) (s : Gen) :
    genCalls aes (n + 1) s = ((genCalls aes n s).1 ++ [(genYield aes (genCalls aes n s).2).1],
      (genYield aes (genCalls aes n s).2).2) := by
  unfold genCalls; rw [List.range_succ, List.foldl_append]; rfl

theorem genCalls_inv (aes : Bool → Block → Block) (key : Key) (hg : 0 < key.g.length) (n : Nat)
    (hn : n ≤ genCount key) :
    (genCalls aes n (genInit aes Gen.fresh key)).1 =
        (List.range n).map (fun m => .ok (genOut aes key m)) ∧
      GInv aes key n (genCalls aes n (genInit aes Gen.fresh key)).2 := by
  induction n with
  | zero => exact ⟨rfl, genInit_inv aes key⟩
  | succ n ih =>
    obtain ⟨ih1, ih2⟩ := ih (by omega)
    obtain ⟨h1, h2⟩ := genYield_step aes key hg n hn _ ih2
    rw [genCalls_succ]
    refine ⟨?_, h2⟩
    simp only [ih1, h1, List.range_succ, List.map_append, List.map_cons, List.map_nil]

theorem genCalls_over (aes : Bool → Block → Block) (key : Key) (hg : 0 < key.g.length) (e : Nat) :
    GInv aes key (genCount key)
      (genCalls aes (genCount key + e) (genInit aes Gen.fresh key)).2 := by
  induction e with
  | zero => exact (genCalls_inv aes key hg _ (Nat.le_refl _)).2
  | succ e ih => rw [← Nat.add_assoc, genCalls_succ, genYield_end aes key _ ih]; exact ih

theorem perm_flatMap_append {α β : Type} (l : List α) (f g : α → List β) :
    (l.flatMap fun a => f a ++ g a).Perm (l.flatMap f ++ l.flatMap g) := by
  induction l with
  | nil => exact .refl _
  | cons a l ih =>
    simp only [List.flatMap_cons]
    have h1 : (f a ++ g a ++ (l.flatMap fun a => f a ++ g a)).Perm
        (f a ++ g a ++ (l.flatMap f ++ l.flatMap g)) := ih.append_left _
    refine h1.trans ?_
    simp only [List.append_assoc]
    apply List.Perm.append_left
    rw [← List.append_assoc, ← List.append_assoc]
    exact List.perm_append_comm.append_right _

theorem perm_flatMap_swap {α β γ : Type} (l : List α) (l' : List β) (f : α → β → List γ) :
    (l.flatMap fun a => l'.flatMap fun b => f a b).Perm
      (l'.flatMap fun b => l.flatMap fun a => f a b) := by
  induction l with
  | nil => simp
  | cons a l ih =>
    simp only [List.flatMap_cons]
    exact (ih.append_left _).trans (perm_flatMap_append l' (fun b => f a b) _).symm

/-- Turn an (offset, bytes) pair into the list of (position, byte) pairs it announces. -/
def spread (p : Nat × List (BitVec 8)) : List (Nat × BitVec 8) :=
  (List.range p.2.length).map fun i => (p.1 + i, p.2.getD i 0)

theorem spread_leafPairs (aes : Bool → Block → Block) (key : Key) (n : Nat) :
    spread (leafPairs aes key n) = (List.range (key.g.length * 128)).map fun i =>
      (n * (key.g.length * 128) + i, bitByte (evalOne aes (n * (key.g.length * 128) + i) key)) := by
  unfold spread leafPairs
  simp only [List.length_map, List.length_range]
  apply List.map_congr_left
  intro i hi
  rw [List.mem_range] at hi
  simp [hi]

theorem genOut_cover (aes : Bool → Block → Block) (key : Key) :
    ((List.range (genCount key)).flatMap fun m => (genOut aes key m).flatMap spread).Perm
      ((List.range (2 ^ (key.k.length - 1) * (key.g.length * 128))).map fun p =>
        (p, bitByte (evalOne aes p key))) := by
  have hleaf : ∀ N, (List.range (N * (key.g.length * 128))).map (fun p =>
      (p, bitByte (evalOne aes p key))) =
      (List.range N).flatMap fun n => spread (leafPairs aes key n) := by
    intro N
    rw [range_mul, List.map_flatMap]
    apply flatMap_congr'
    intro n _
    rw [spread_leafPairs, List.map_map]
    rfl
  rw [hleaf]
  unfold genCount genOut
  by_cases hd : key.k.length - 1 < 3
  · simp only [hd, if_true]
    simp [List.flatMap_cons]
  · simp only [hd, if_false]
    simp only [List.flatMap_map]
    refine (perm_flatMap_swap _ _ _).trans ?_
    have : 2 ^ (key.k.length - 1) = 8 * 2 ^ (key.k.length - 1 - 3) := by
      rw [show key.k.length - 1 = 3 + (key.k.length - 1 - 3) by omega, Nat.pow_add]
      simp
    rw [this, range_mul, List.flatMap_assoc]
    simp only [List.flatMap_map]
    exact .refl _

end Verif.Bgi
