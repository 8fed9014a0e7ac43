import Verif.DrrnFullModel
import Verif.DrrnLemmas
import Verif.DrrnSpec
import Verif.BgiProps
import Verif.KkrtRecv
/-
Helper lemmas for the whole DRRN protocol.
-/
namespace Verif.Drrn
open Verif

/-! ### sizes -/

theorem groupSize_pos {c : Params} (hS : 0 < c.S) (hb : 0 < c.bb) : 0 < c.groupSize := by
  have h1 := leafBlocks_le c
  have h2 := slotsPerBin_le (c := c) hb
  have h3 : 0 < c.slotsPerBin := by
    unfold Params.slotsPerBin
    exact Nat.div_pos (by omega) hS
  rcases Nat.eq_zero_or_pos c.groupSize with h | h
  · rw [h, Nat.mul_zero] at h1
    rw [Nat.le_zero.mp h1, Nat.zero_mul] at h2
    omega
  · exact h

theorem srvStart_mul (c : Params) (b : Nat) : c.srvStart b = divCeil (c.binOff b) c.bb * c.bb := rfl

theorem divCeil_add_mul (a k b : Nat) (hb : 0 < b) : divCeil (a + k * b) b = divCeil a b + k := by
  unfold divCeil
  rw [show a + k * b + b - 1 = (a + b - 1) + k * b by omega, Nat.add_mul_div_right _ _ hb]

theorem divCeil_mono {a a' b : Nat} (h : a ≤ a') : divCeil a b ≤ divCeil a' b := by
  unfold divCeil
  exact Nat.div_le_div_right (by omega)

theorem divCeil_mul (k b : Nat) (hb : 0 < b) : divCeil (k * b) b = k := by
  have := divCeil_add_mul 0 k b hb
  rw [Nat.zero_add] at this
  rw [this]
  have : divCeil 0 b = 0 := by unfold divCeil; exact Nat.div_eq_of_lt (by omega)
  omega

/-- The number of bits that are asked for fits the keys. -/
theorem region_blocks {c : Params} (hS : 0 < c.S) (hb : 0 < c.bb) (b : Nat) :
    (c.srvStart (b + 1) - c.srvStart b) % c.bb = 0 ∧
      divCeil (c.srvStart (b + 1) - c.srvStart b) c.bb ≤ 2 ^ c.kDepth * c.groupSize * 128 := by
  have he : c.srvStart (b + 1) - c.srvStart b =
      (divCeil (c.binOff (b + 1)) c.bb - divCeil (c.binOff b) c.bb) * c.bb := by
    rw [srvStart_mul, srvStart_mul, Nat.sub_mul]
  rw [he]
  refine ⟨Nat.mul_mod_left _ _, ?_⟩
  rw [divCeil_mul _ _ hb]
  have h1 := binOff_succ (c := c) hS b
  have h2 := slotsPerBin_le (c := c) hb
  have h3 := Nat.mul_le_mul_right 128 (leafBlocks_le c)
  have h4 : c.binOff (b + 1) ≤ c.binOff b + c.leafBlocks * 128 * c.bb := by
    rw [Nat.mul_assoc]; omega
  have h5 := divCeil_mono (b := c.bb) h4
  rw [divCeil_add_mul _ _ _ hb] at h5
  omega

/-! ### the keys arrive -/

theorem flatMap_length {α : Type} (n K : Nat) (f : Nat → List α) (hf : ∀ k, k < n → (f k).length = K) :
    ((List.range n).flatMap f).length = n * K := by
  induction n with
  | zero => simp
  | succ n ih =>
    rw [List.range_succ, List.flatMap_append, List.length_append, ih fun k hk => hf k (by omega)]
    simp [hf n (by omega), Nat.succ_mul]

theorem row_of {α : Type} (n K : Nat) (f : Nat → List α) (hf : ∀ k, k < n → (f k).length = K) (rest : List α)
    (j : Nat) (hj : j < n) : ((((List.range n).flatMap f) ++ rest).drop (j * K)).take K = f j := by
  induction n generalizing rest with
  | zero => omega
  | succ n ih =>
    rw [List.range_succ, List.flatMap_append, List.append_assoc]
    by_cases h : j < n
    · exact ih (fun k hk => hf k (by omega)) _ h
    · have hjn : j = n := by omega
      subst hjn
      have hl := flatMap_length j K f fun k hk => hf k (by omega)
      rw [← hl, List.drop_left]
      simp only [List.flatMap_cons, List.flatMap_nil, List.append_nil]
      have := hf j (by omega)
      rw [← this, List.take_left]

/-- Which key a server evaluates in place `j`. -/
def keyAt (c : Params) (aes : Bool → Block → Block) (slot : Block → Nat → Nat) (xs : List Block)
    (seeds : Nat → Nat → Block × Block) (side : Bool) (b j : Nat) : Bgi.Key :=
  if j < (bin c slot xs b).length then
    (if side then (keyPair c aes slot xs seeds b j).2 else (keyPair c aes slot xs seeds b j).1)
  else ⟨List.replicate (c.kDepth + 1) 0, List.replicate c.groupSize 0⟩

theorem keyAt_shape (c : Params) (aes : Bool → Block → Block) (slot : Block → Nat → Nat) (xs : List Block)
    (seeds : Nat → Nat → Block × Block) (side : Bool) (b j : Nat) :
    Bgi.Shape c.kDepth c.groupSize (keyAt c aes slot xs seeds side b j) := by
  unfold keyAt
  split
  · have := Bgi.C01_key_shape aes c.kDepth c.groupSize (target c slot xs b ((bin c slot xs b).getD j (0, 0)))
      (seeds b j).1 (seeds b j).2
    unfold keyPair
    split
    · exact this.2
    · exact this.1
  · exact ⟨List.length_replicate, List.length_replicate⟩

theorem keyRow_length {c : Params} {key : Bgi.Key} (h : Bgi.Shape c.kDepth c.groupSize key) :
    (keyRow key).length = c.keySize := by
  unfold keyRow Params.keySize
  rw [List.length_append, h.1, h.2]

theorem keyMsg_rows (c : Params) (aes : Bool → Block → Block) (slot : Block → Nat → Nat) (xs : List Block)
    (seeds : Nat → Nat → Block × Block) (side : Bool) (b : Nat) :
    keyMsg c aes slot xs seeds side b =
      ((List.range (bin c slot xs b).length).flatMap fun k => keyRow (keyAt c aes slot xs seeds side b k)) ++
        List.replicate ((c.L - (bin c slot xs b).length) * c.keySize) 0 := by
  unfold keyMsg
  congr 1
  apply flatMap_congr'
  intro k hk
  unfold keyAt
  rw [if_pos (List.mem_range.mp hk)]

theorem keyMsg_length (c : Params) (aes : Bool → Block → Block) (slot : Block → Nat → Nat) (xs : List Block)
    (seeds : Nat → Nat → Block × Block) (side : Bool) (b : Nat) (hfit : (bin c slot xs b).length ≤ c.L) :
    (keyMsg c aes slot xs seeds side b).length = c.L * c.keySize := by
  rw [keyMsg_rows, List.length_append, List.length_replicate,
    flatMap_length _ c.keySize _ fun k _ => keyRow_length (keyAt_shape ..), ← Nat.add_mul]
  congr 1; omega

theorem srvKey_at (c : Params) (aes : Bool → Block → Block) (slot : Block → Nat → Nat) (xs : List Block)
    (seeds : Nat → Nat → Block × Block) (side : Bool) (b j : Nat) (hfit : (bin c slot xs b).length ≤ c.L)
    (hj : j < c.L) :
    srvKey c (keyMsg c aes slot xs seeds side b) j = keyAt c aes slot xs seeds side b j := by
  have hrow : ((keyMsg c aes slot xs seeds side b).drop (j * c.keySize)).take c.keySize =
      keyRow (keyAt c aes slot xs seeds side b j) := by
    rw [keyMsg_rows]
    by_cases h : j < (bin c slot xs b).length
    · exact row_of _ _ _ (fun k _ => keyRow_length (keyAt_shape ..)) _ _ h
    · have hl := flatMap_length (bin c slot xs b).length c.keySize
        (fun k => keyRow (keyAt c aes slot xs seeds side b k)) fun k _ => keyRow_length (keyAt_shape ..)
      rw [List.drop_append, List.drop_eq_nil_of_le (by rw [hl]; exact Nat.mul_le_mul_right _ (by omega)),
        List.nil_append, hl, List.drop_replicate, List.take_replicate]
      have e : keyAt c aes slot xs seeds side b j =
          ⟨List.replicate (c.kDepth + 1) 0, List.replicate c.groupSize 0⟩ := by unfold keyAt; rw [if_neg h]
      rw [e]
      unfold keyRow
      simp only [List.replicate_append_replicate]
      congr 1
      have : c.keySize ≤ (c.L - j) * c.keySize := Nat.le_mul_of_pos_left _ (by omega)
      rw [← Nat.sub_mul, ← Nat.sub_mul,
        show c.L - (bin c slot xs b).length - (j - (bin c slot xs b).length) = c.L - j by omega]
      have : c.keySize = c.kDepth + 1 + c.groupSize := rfl
      omega
  unfold srvKey
  rw [hrow]
  have hs := keyAt_shape c aes slot xs seeds side b j
  unfold keyRow
  rw [← hs.1, List.take_left, List.drop_left]

/-! ### the bits -/

theorem bitsOf_bytes (l : List Bool) : bitsOf (l.map Bgi.asByte) = .ok l := by
  induction l with
  | nil => rfl
  | cons a l ih =>
    rw [List.map_cons, bitsOf, ih]
    cases a <;> rfl

theorem yields_ok (aes : Bool → Block → Block) (keys : List Bgi.Key) (m : Bgi.Multi) (dom : Nat)
    (hm : ∀ n, n < dom → (Bgi.multiYield aes (Bgi.multiAfter aes n m)).1 =
      .ok (keys.map fun key => Bgi.asByte (Bgi.evalOne aes n key))) (n s : Nat) (hn : s + n ≤ dom) :
    yields aes n (Bgi.multiAfter aes s m) =
      .ok ((List.range n).map fun i => keys.map (Bgi.evalOne aes (s + i))) := by
  induction n generalizing s with
  | zero => rfl
  | succ n ih =>
    have h1 : (keys.map fun key => Bgi.asByte (Bgi.evalOne aes s key)) =
        (keys.map (Bgi.evalOne aes s)).map Bgi.asByte := by rw [List.map_map]; rfl
    rw [yields, hm s (by omega), Out.bind, h1, bitsOf_bytes, Out.bind]
    rw [show (Bgi.multiYield aes (Bgi.multiAfter aes s m)).2 = Bgi.multiAfter aes (s + 1) m from rfl,
      ih (s + 1) (by omega), Out.bind]
    congr 1
    rw [List.range_succ_eq_map, List.map_cons, List.map_map]
    congr 1
    apply List.map_congr_left
    intro i _
    simp only [Function.comp]
    rw [show s + 1 + i = s + (i + 1) by omega]

theorem regionBits_ok {c : Params} (hS : 0 < c.S) (hb : 0 < c.bb) (hL : 0 < c.L) (aes : Bool → Block → Block)
    (old : Bgi.Multi) (slot : Block → Nat → Nat) (xs : List Block) (seeds : Nat → Nat → Block × Block) (side : Bool)
    (b ni : Nat) (hfit : (bin c slot xs b).length ≤ c.L) :
    ∃ r, regionBits c aes old (keyMsg c aes slot xs seeds side b) ni (c.srvStart (b + 1) - c.srvStart b) = .ok r ∧
      (ni ≠ 0 → ∀ j i : Nat, j < c.L → i < divCeil (c.srvStart (b + 1) - c.srvStart b) c.bb →
        r j i = Bgi.evalOne aes i (keyAt c aes slot xs seeds side b j)) := by
  obtain ⟨h1, h2⟩ := region_blocks hS hb b
  unfold regionBits
  rw [if_neg (by omega), if_neg (by rw [keyMsg_length c aes slot xs seeds side b hfit]; simp)]
  by_cases hn : ni = 0
  · rw [if_pos hn]
    exact ⟨_, rfl, fun h => absurd hn h⟩
  · rw [if_neg hn]
    have hkeys : (List.range c.L).map (srvKey c (keyMsg c aes slot xs seeds side b)) =
        (List.range c.L).map (keyAt c aes slot xs seeds side b) := by
      apply List.map_congr_left
      intro j hj
      exact srvKey_at c aes slot xs seeds side b j hfit (List.mem_range.mp hj)
    rw [hkeys]
    have hne : (List.range c.L).map (keyAt c aes slot xs seeds side b) ≠ [] := by
      intro h
      have := congrArg List.length h
      simp at this
      omega
    obtain ⟨m, e, hm⟩ := Bgi.C04_multikey_stream aes c.kDepth c.groupSize _ old hne
      (by intro key hk; obtain ⟨j, _, rfl⟩ := List.mem_map.mp hk; exact keyAt_shape ..) (groupSize_pos hS hb)
    have he : Bgi.multiSetKeys (Bgi.multiInit old c.L (c.kDepth + 1) c.groupSize) 0
        ((List.range c.L).map (keyAt c aes slot xs seeds side b)) = .ok m := by
      rw [← e]
      obtain ⟨l, hl⟩ : ∃ l, c.L = l + 1 := ⟨c.L - 1, by omega⟩
      have h0 := keyAt_shape c aes slot xs seeds side b 0
      have hlen : ((List.range c.L).map (keyAt c aes slot xs seeds side b)).length = c.L := by simp
      have hcons : ∃ t, (List.range c.L).map (keyAt c aes slot xs seeds side b) =
          keyAt c aes slot xs seeds side b 0 :: t := by
        rw [hl, List.range_succ_eq_map]; exact ⟨_, rfl⟩
      obtain ⟨t, ht⟩ := hcons
      rw [ht] at hlen ⊢
      rw [Bgi.multiInitKeys, hlen, h0.1, h0.2]
    rw [he, Out.bind]
    have hy := yields_ok aes _ m _ hm (divCeil (c.srvStart (b + 1) - c.srvStart b) c.bb) 0
      (by unfold Bgi.domain; omega)
    rw [Bgi.multiAfter] at hy
    rw [hy, Out.bind]
    refine ⟨_, rfl, fun _ j i hj hi => ?_⟩
    unfold bitAt
    rw [getD_map_range _ _ _ _ hi, Nat.zero_add, List.map_map, getD_map_range _ _ _ _ hj]
    rfl

theorem allBits_ok (f : Nat → Out (Nat → Nat → Bool)) (P : Nat → (Nat → Nat → Bool) → Prop) (n b : Nat)
    (hf : ∀ k, b ≤ k → k < b + n → ∃ r, f k = .ok r ∧ P k r) :
    ∃ r, allBits f n b = .ok r ∧ ∀ k, b ≤ k → k < b + n → P k (r k) := by
  induction n generalizing b with
  | zero => exact ⟨_, rfl, fun k h1 h2 => by omega⟩
  | succ n ih =>
    obtain ⟨r, e, hr⟩ := hf b (by omega) (by omega)
    obtain ⟨rest, e', hrest⟩ := ih (b + 1) fun k h1 h2 => hf k (by omega) (by omega)
    refine ⟨fun b' => if b' = b then r else rest b', ?_, ?_⟩
    · rw [allBits, e, Out.bind, e', Out.bind]
    · intro k h1 h2
      by_cases hk : k = b
      · subst hk; simpa using hr
      · simp only [if_neg hk]
        exact hrest k (by omega) (by omega)

/-- The bits that the keys of one server stand for. -/
def idealBits (c : Params) (aes : Bool → Block → Block) (slot : Block → Nat → Nat) (xs : List Block)
    (seeds : Nat → Nat → Block × Block) (side : Bool) (b j i : Nat) : Bool :=
  Bgi.evalOne aes i (keyAt c aes slot xs seeds side b j)

theorem serverBits_ok {c : Params} (hS : 0 < c.S) (hb : 0 < c.bb) (hL : 0 < c.L) (aes : Bool → Block → Block)
    (old : Bgi.Multi) (slot : Block → Nat → Nat) (xs : List Block) (seeds : Nat → Nat → Block × Block) (side : Bool)
    (tbl : List (Nat × Block)) (hfit : ∀ b : Nat, b < c.S → (bin c slot xs b).length ≤ c.L) :
    ∃ r, serverBits c aes old tbl (keyMsg c aes slot xs seeds side) = .ok r ∧
      ∀ b j i : Nat, b < c.S → regionItems c tbl b ≠ [] → j < c.L →
        i < divCeil (c.srvStart (b + 1) - c.srvStart b) c.bb →
        r b j i = idealBits c aes slot xs seeds side b j i := by
  obtain ⟨r, e, h⟩ := allBits_ok (fun b => regionBits c aes old (keyMsg c aes slot xs seeds side b)
      (regionItems c tbl b).length (c.srvStart (b + 1) - c.srvStart b))
    (fun b r => (regionItems c tbl b).length ≠ 0 → ∀ j i : Nat, j < c.L →
      i < divCeil (c.srvStart (b + 1) - c.srvStart b) c.bb →
        r j i = Bgi.evalOne aes i (keyAt c aes slot xs seeds side b j)) c.S 0
    (fun k _ hk => regionBits_ok hS hb hL aes old slot xs seeds side k _ (hfit k (by omega)))
  refine ⟨r, e, fun b j i hbS hne hj hi => ?_⟩
  exact h b (by omega) (by omega) (by intro h0; exact hne (List.length_eq_zero_iff.mp h0)) j i hj hi

theorem target_lt {c : Params} (hS : 0 < c.S) (hb : 0 < c.bb) {slot : Block → Nat → Nat} {xs : List Block}
    (hslot : ∀ x ∈ xs, ∀ j : Nat, j < c.h → slot x j < c.N) {b k : Nat} (hk : k < (bin c slot xs b).length) :
    target c slot xs b ((bin c slot xs b).getD k (0, 0)) < Bgi.domain c.kDepth c.groupSize := by
  have hm : (bin c slot xs b).getD k (0, 0) ∈ bin c slot xs b := by
    rw [Kkrt.getD_eq hk]; exact List.getElem_mem _
  generalize (bin c slot xs b).getD k (0, 0) = e at hm
  unfold bin at hm
  obtain ⟨h1, h2⟩ := List.mem_filter.mp hm
  obtain ⟨hj, hi⟩ := mem_insertions.mp h1
  have hr : c.region (slot (xs.getD e.2 0) e.1) = b := by simpa using h2
  have hx : xs.getD e.2 0 ∈ xs := by rw [Kkrt.getD_eq hi]; exact List.getElem_mem _
  have := dpf_lt hS hb (hslot _ hx _ hj)
  rw [hr] at this
  exact this

theorem idealBits_ok {c : Params} (hS : 0 < c.S) (hb : 0 < c.bb) (aes : Bool → Block → Block) (slot : Block → Nat → Nat) (xs : List Block)
    (seeds : Nat → Nat → Block × Block) (hslot : ∀ x ∈ xs, ∀ j : Nat, j < c.h → slot x j < c.N) :
    BitsOk c slot xs (idealBits c aes slot xs seeds false) (idealBits c aes slot xs seeds true) where
  real b k _ hk i hi := by
    unfold idealBits keyAt
    rw [if_pos hk, if_pos hk, if_pos rfl, if_neg (by simp)]
    exact Bgi.C01_point_function aes _ _ _ i _ _ (groupSize_pos hS hb) (target_lt hS hb hslot hk) hi
  unused b k _ hk _ i _ := by
    unfold idealBits keyAt
    rw [if_neg (by omega), if_neg (by omega)]

/-! ### only these bits matter -/

theorem evalLoop_block (step bb : Nat) (n i e : Nat) (items : List (Nat × Block)) :
    ∀ x ∈ evalLoop step bb n i e items, x.1 < i + n := by
  induction n generalizing i e items with
  | zero => intro x hx; simp [evalLoop] at hx
  | succ n ih =>
    intro x hx
    simp only [evalLoop, List.mem_append, List.mem_map] at hx
    rcases hx with ⟨y, _, rfl⟩ | hx
    · simp only; omega
    · have := ih _ _ _ x hx; omega

theorem placements_block (c : Params) (items : List (Nat × Block)) (size : Nat) :
    ∀ x ∈ placements c items size, x.1 < divCeil size c.bb := by
  intro x hx
  cases items with
  | nil => simp [placements] at hx
  | cons a rest =>
    have := evalLoop_block _ _ _ _ _ _ x hx
    omega

theorem shares_congr (c : Params) (tbl : List (Nat × Block)) (bits bits' : Nat → Nat → Nat → Bool)
    (h : ∀ b j i : Nat, b < c.S → regionItems c tbl b ≠ [] → j < c.L →
      i < divCeil (c.srvStart (b + 1) - c.srvStart b) c.bb → bits b j i = bits' b j i) :
    shares c tbl bits = shares c tbl bits' := by
  unfold shares
  apply flatMap_congr'
  intro b hb
  apply List.map_congr_left
  intro q _
  unfold outAt
  congr 1
  apply List.map_congr_left
  intro x hx
  by_cases hq : x.2.1 ≤ q ∧ q < x.2.1 + c.L
  · have hne : regionItems c tbl b ≠ [] := by
      intro h0; rw [h0] at hx; simp [placements] at hx
    rw [h b (q - x.2.1) x.1 (List.mem_range.mp hb) hne (by omega) (placements_block c _ _ x hx)]
  · rw [if_neg (by intro hh; exact hq ⟨hh.1, hh.2.1⟩), if_neg (by intro hh; exact hq ⟨hh.1, hh.2.1⟩)]

theorem serverValues_congr (c : Params) (slot : Block → Nat → Nat) (xs : List Block) (tbl : List (Nat × Block))
    (w : Rand) (b0 b1 b0' b1' : Nat → Nat → Nat → Bool) (h0 : shares c tbl b0 = shares c tbl b0')
    (h1 : shares c tbl b1 = shares c tbl b1') :
    serverValues c slot xs tbl w b0 b1 = serverValues c slot xs tbl w b0' b1' := by
  unfold serverValues
  rw [h0, h1]

/-- `psi` gives the positions of the receiver's values that the sender has. -/
def ExactOn (psi : List Block → List Block → Out (List Nat)) (S R : List Block) : Prop :=
  ∃ out, psi S R = .ok out ∧ ∀ k : Nat, k ∈ out ↔ ∃ x, R[k]? = some x ∧ x ∈ S

/-- With an exact PSI the whole protocol reports what `run` reports for the bits of the keys. -/
theorem fullRun_run {c : Params} (hS : 0 < c.S) (hb : 0 < c.bb) (hL : 0 < c.L) (aes : Bool → Block → Block)
    (old : Bgi.Multi) (psi : List Block → List Block → Out (List Nat)) (slot : Block → Nat → Nat)
    (seeds : Nat → Nat → Block × Block) (w : Rand) (xs : List Block) (tbl : List (Nat × Block))
    (hfit : ∀ b : Nat, b < c.S → (bin c slot xs b).length ≤ c.L)
    (hpsi : ExactOn psi (serverValues c slot xs tbl w (idealBits c aes slot xs seeds false)
      (idealBits c aes slot xs seeds true)) (clientShares c slot xs w.r)) :
    ∃ out res, fullRun c aes old psi slot seeds w xs tbl = .ok out ∧
      run c slot xs tbl w (idealBits c aes slot xs seeds false) (idealBits c aes slot xs seeds true) = .ok res ∧
      ∀ i : Nat, i ∈ out ↔ i ∈ res := by
  obtain ⟨r0, e0, h0⟩ := serverBits_ok hS hb hL aes old slot xs seeds false tbl hfit
  obtain ⟨r1, e1, h1⟩ := serverBits_ok hS hb hL aes old slot xs seeds true tbl hfit
  obtain ⟨out, ep, hp⟩ := hpsi
  have hall : (List.range c.S).all (fun b => decide ((bin c slot xs b).length ≤ c.L)) = true := by
    simp only [List.all_eq_true, List.mem_range, decide_eq_true_eq]
    exact hfit
  refine ⟨out.map fun k => ((queries c slot xs).getD k (0, 0, 0)).2.2,
    ((queries c slot xs).zip (clientShares c slot xs w.r)).filterMap fun q =>
      if (serverValues c slot xs tbl w (idealBits c aes slot xs seeds false)
        (idealBits c aes slot xs seeds true)).contains q.2 then some q.1.2.2 else none, ?_, ?_, ?_⟩
  · unfold fullRun
    rw [if_pos hall, e0, Out.bind, e1, Out.bind,
      serverValues_congr c slot xs tbl w r0 r1 _ _ (shares_congr c tbl _ _ h0) (shares_congr c tbl _ _ h1), ep, Out.bind]
  · unfold run
    rw [if_pos hall]
  · intro i
    simp only [List.mem_map, List.mem_filterMap]
    constructor
    · rintro ⟨k, hk, rfl⟩
      obtain ⟨x, hx, hm⟩ := (hp k).mp hk
      obtain ⟨hlt, hxe⟩ := List.getElem?_eq_some_iff.mp hx
      have hlen : (clientShares c slot xs w.r).length = (queries c slot xs).length := by simp [clientShares]
      refine ⟨((queries c slot xs)[k]'(by omega), x), ?_, ?_⟩
      · rw [List.mem_iff_getElem]
        refine ⟨k, by rw [List.length_zip]; omega, ?_⟩
        rw [List.getElem_zip, hxe]
      · rw [if_pos (by simpa using hm)]
        simp [List.getD, List.getElem?_eq_getElem (show k < (queries c slot xs).length by omega)]
    · rintro ⟨⟨q, v⟩, hz, hif⟩
      obtain ⟨k, hk, hkz⟩ := List.mem_iff_getElem.mp hz
      rw [List.length_zip] at hk
      rw [List.getElem_zip] at hkz
      simp only [Prod.mk.injEq] at hkz
      simp only at hif
      split at hif
      · rename_i hc
        simp only [Option.some.injEq] at hif
        refine ⟨k, (hp k).mpr ⟨v, List.getElem?_eq_some_iff.mpr ⟨by omega, hkz.2⟩, by simpa using hc⟩, ?_⟩
        rw [← hif, ← hkz.1]
        simp [List.getD, List.getElem?_eq_getElem (show k < (queries c slot xs).length by omega)]
      · simp at hif

/-! ### the table -/

theorem cuckooData_mem (cells : List Nat) (ys : List Block) (p : Nat) (v : Block) :
    (p, v) ∈ cuckooData cells ys ↔ p < cells.length ∧ cells.getD p Cuckoo.emptyVal ≠ Cuckoo.emptyVal ∧
      v = ys.getD (Cuckoo.idxOf (cells.getD p Cuckoo.emptyVal)) 0 := by
  unfold cuckooData
  simp only [List.mem_filterMap, List.mem_range, cellData]
  constructor
  · rintro ⟨k, hk, hif⟩
    split at hif
    · simp at hif
    · rename_i hne
      simp only [Option.some.injEq, Prod.mk.injEq] at hif
      obtain ⟨rfl, rfl⟩ := hif
      exact ⟨hk, hne, rfl⟩
  · rintro ⟨hk, hne, rfl⟩
    exact ⟨p, hk, by rw [if_neg hne]⟩

theorem cuckooData_sorted (cells : List Nat) (ys : List Block) :
    ((cuckooData cells ys).map (·.1)).Pairwise (· < ·) := by
  unfold cuckooData
  rw [List.map_filterMap]
  apply List.Pairwise.filterMap (R := (· < ·)) (S := (· < ·)) _ _ List.pairwise_lt_range
  intro a a' h b hb b' hb'
  have aux : ∀ (k v : Nat), Option.map (·.1) (cellData cells ys k) = some v → v = k := by
    intro k v hh
    unfold cellData at hh
    split at hh
    · simp at hh
    · simpa using hh.symm
  rw [aux a b hb, aux a' b' hb']
  exact h

theorem table_ok {aesH : Block → Block} {cu cu' : Cuckoo.Cuckoo} {n l : Nat} {c : Params} {ys : List Block}
    (hcu : Cuckoo.Start cu n c.N 0 3 l) (hy : ys.length ≤ n) (hins : Cuckoo.insertItems aesH cu ys 0 = .ok cu')
    (hh : c.h = 3) :
    TableOk c (slotOf aesH c.N) (cuckooData cu'.bins ys) ∧
      ∀ x : Block, (∃ p : Nat, (p, x) ∈ cuckooData cu'.bins ys) ↔ x ∈ ys := by
  have hP := Kkrt.placed hcu hy hins
  refine ⟨⟨cuckooData_sorted _ _, ?_, ?_⟩, ?_⟩
  · rintro ⟨p, v⟩ hx
    have := ((cuckooData_mem ..).mp hx).1
    rw [hP.len] at this
    exact this
  · rintro ⟨p, v⟩ hx
    obtain ⟨h1, h2, rfl⟩ := (cuckooData_mem ..).mp hx
    obtain ⟨_, j, hj, he⟩ := hP.bins p (by rw [← hP.len]; exact h1) h2
    exact ⟨j, by omega, he.symm⟩
  · intro x
    constructor
    · rintro ⟨p, hx⟩
      obtain ⟨h1, h2, rfl⟩ := (cuckooData_mem ..).mp hx
      have hlt := (hP.bins p (by rw [← hP.len]; exact h1) h2).1
      rw [List.getD, List.getElem?_eq_getElem hlt]
      exact List.getElem_mem _
    · intro hx
      obtain ⟨i, hi, rfl⟩ := List.mem_iff_getElem.mp hx
      obtain ⟨b, hb, hne, he⟩ := hP.all i hi
      refine ⟨b, (cuckooData_mem ..).mpr ⟨by rw [hP.len]; exact hb, hne, ?_⟩⟩
      rw [he, List.getD, List.getElem?_eq_getElem hi]
      rfl

end Verif.Drrn
