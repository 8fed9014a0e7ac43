import Verif.BalancedModel
import Verif.CuckooLemmas
/-
Lemmas on `BalancedIndex`: invariant of the two loops.
-/
namespace Verif.Balanced
open Verif

/-- All items of a bin. -/
def itemsOf (v : Values) : List Item := v.flatMap (·.2)

/-- Item `e` is stored under key `k`. -/
def Has (v : Values) (k : Nat) (e : Item) : Prop := ∃ l, (k, l) ∈ v ∧ e ∈ l

theorem mem_itemsOf {v : Values} {e : Item} : e ∈ itemsOf v ↔ ∃ k, Has v k e := by
  simp only [itemsOf, List.mem_flatMap, Has]
  constructor
  · rintro ⟨⟨k, l⟩, h1, h2⟩; exact ⟨k, l, h1, h2⟩
  · rintro ⟨k, l, h1, h2⟩; exact ⟨(k, l), h1, h2⟩

theorem lookup_mem {v : Values} {k : Nat} {l : List Item} (h : lookup v k = some l) :
    (k, l) ∈ v := by
  induction v with
  | nil => simp [lookup] at h
  | cons p v ih =>
    obtain ⟨k', l'⟩ := p
    unfold lookup at h
    split at h
    · rename_i e; simp at h; subst h e; exact List.mem_cons_self ..
    · exact List.mem_cons_of_mem _ (ih h)

theorem lookup_none {v : Values} {k : Nat} (h : lookup v k = none) : k ∉ v.map (·.1) := by
  induction v with
  | nil => simp
  | cons p v ih =>
    obtain ⟨k', l'⟩ := p
    unfold lookup at h
    split at h
    · simp at h
    · rename_i e
      intro hm
      rcases List.mem_cons.mp hm with hm | hm
      · exact e hm.symm
      · exact ih h hm

theorem update_keys (v : Values) (k : Nat) (l : List Item) :
    (update v k l).map (·.1) = v.map (·.1) := by
  induction v with
  | nil => rfl
  | cons p v ih =>
    obtain ⟨k', l'⟩ := p
    unfold update
    split
    · rfl
    · rw [List.map_cons, ih]; rfl

theorem push_keys (v : Values) (k : Nat) (it : Item) :
    ∀ x, x ∈ (push v k it).map (·.1) ↔ x ∈ v.map (·.1) ∨ x = k := by
  intro x
  unfold push
  split
  · rename_i l h
    rw [update_keys]
    constructor
    · exact Or.inl
    · rintro (h' | rfl)
      · exact h'
      · exact List.mem_map_of_mem (f := (·.1)) (lookup_mem h)
  · simp

theorem update_has {v : Values} {k : Nat} {l' : List Item} {k0 : Nat} {e : Item}
    (h : Has (update v k l') k0 e) : Has v k0 e ∨ (k0 = k ∧ e ∈ l') := by
  induction v with
  | nil => obtain ⟨m, hm, _⟩ := h; simp [update] at hm
  | cons p v ih =>
    obtain ⟨k', l0⟩ := p
    unfold update at h
    by_cases he : k' = k
    · rw [if_pos he] at h
      obtain ⟨m, hm, hem⟩ := h
      rcases List.mem_cons.mp hm with hm | hm
      · simp at hm
        obtain ⟨rfl, rfl⟩ := hm
        exact Or.inr ⟨he, hem⟩
      · exact Or.inl ⟨m, List.mem_cons_of_mem _ hm, hem⟩
    · rw [if_neg he] at h
      obtain ⟨m, hm, hem⟩ := h
      rcases List.mem_cons.mp hm with hm | hm
      · exact Or.inl ⟨m, by rw [hm]; exact List.mem_cons_self .., hem⟩
      · rcases ih ⟨m, hm, hem⟩ with ⟨m', h1, h2⟩ | h'
        · exact Or.inl ⟨m', List.mem_cons_of_mem _ h1, h2⟩
        · exact Or.inr h'

/-- Replacing an entry changes the items accordingly. -/
theorem update_items {v : Values} {k : Nat} {l l' x y : List Item} (hl : lookup v k = some l)
    (hp : (x ++ l).Perm (y ++ l')) : (x ++ itemsOf v).Perm (y ++ itemsOf (update v k l')) := by
  induction v with
  | nil => simp [lookup] at hl
  | cons p v ih =>
    obtain ⟨k', l0⟩ := p
    unfold lookup at hl
    unfold update
    by_cases he : k' = k
    · rw [if_pos he] at hl ⊢
      simp at hl
      subst hl
      simp only [itemsOf, List.flatMap_cons]
      rw [← List.append_assoc, ← List.append_assoc]
      exact List.Perm.append_right _ hp
    · rw [if_neg he] at hl ⊢
      have := ih hl
      simp only [itemsOf, List.flatMap_cons] at this ⊢
      rw [← List.append_assoc, ← List.append_assoc]
      refine (List.Perm.append_right _ List.perm_append_comm).trans ?_
      refine List.Perm.trans ?_ (List.Perm.append_right _ List.perm_append_comm)
      rw [List.append_assoc, List.append_assoc]
      exact List.Perm.append_left _ this

theorem push_items (v : Values) (k : Nat) (it : Item) :
    (itemsOf (push v k it)).Perm (it :: itemsOf v) := by
  unfold push
  split
  · rename_i l h
    have := update_items (x := [it]) (y := []) (l' := l ++ [it]) h (by
      simp only [List.nil_append]
      exact List.perm_append_comm)
    exact this.symm
  · simp only [itemsOf, List.flatMap_append, List.flatMap_cons, List.flatMap_nil, List.append_nil]
    exact List.perm_append_comm

theorem push_has {v : Values} {k k0 : Nat} {it e : Item} (h : Has (push v k it) k0 e) :
    Has v k0 e ∨ (k0 = k ∧ e = it) := by
  unfold push at h
  split at h
  · rename_i l hl
    rcases update_has h with h | ⟨rfl, hm⟩
    · exact Or.inl h
    · rcases List.mem_append.mp hm with hm | hm
      · exact Or.inl ⟨l, lookup_mem hl, hm⟩
      · simp at hm; exact Or.inr ⟨rfl, hm⟩
  · obtain ⟨m, hm, hem⟩ := h
    rcases List.mem_append.mp hm with hm | hm
    · exact Or.inl ⟨m, hm, hem⟩
    · simp at hm
      obtain ⟨rfl, rfl⟩ := hm
      simp at hem
      exact Or.inr ⟨rfl, hem⟩

theorem perm_eraseIdx {α : Type} (l : List α) (ix : Nat) (h : ix < l.length) :
    l.Perm (l[ix] :: l.eraseIdx ix) := by
  induction l generalizing ix with
  | nil => simp at h
  | cons a l ih =>
    cases ix with
    | zero => exact List.Perm.refl _
    | succ ix =>
      simp only [List.getElem_cons_succ, List.eraseIdx_cons_succ]
      exact ((ih ix (by simpa using h)).cons a).trans (List.Perm.swap _ _ _)

/-- Removing the item at position `ix` of the entry. -/
theorem erase_items {v : Values} {k ix : Nat} {l : List Item} (hl : lookup v k = some l)
    (hix : ix < l.length) :
    (itemsOf v).Perm (l.getD ix (0, 0) :: itemsOf (update v k (l.eraseIdx ix))) := by
  have hp : l.Perm (l.getD ix (0, 0) :: l.eraseIdx ix) := by
    have : l.getD ix (0, 0) = l[ix] := by simp [List.getD, hix]
    rw [this]
    exact perm_eraseIdx l ix hix
  exact update_items (x := []) (y := [l.getD ix (0, 0)]) hl (by simpa using hp)

/-! ### Sums over bins -/

def sumTo (nb : Nat) (f : Nat → Nat) : Nat := ((List.range nb).map f).sum

theorem sumTo_succ (nb : Nat) (f : Nat → Nat) : sumTo (nb + 1) f = sumTo nb f + f nb := by
  simp [sumTo, List.range_succ]

theorem sumTo_congr {nb : Nat} {f g : Nat → Nat} (h : ∀ b, b < nb → f b = g b) :
    sumTo nb f = sumTo nb g := by
  unfold sumTo
  congr 1
  apply List.map_congr_left
  intro b hb
  exact h b (List.mem_range.mp hb)

theorem sumTo_update {nb : Nat} {f g : Nat → Nat} {b : Nat} (hb : b < nb)
    (h : ∀ x, x ≠ b → f x = g x) : sumTo nb f + g b = sumTo nb g + f b := by
  induction nb with
  | zero => omega
  | succ nb ih =>
    rw [sumTo_succ, sumTo_succ]
    by_cases he : b = nb
    · subst he
      have := sumTo_congr (f := f) (g := g) (nb := b) (fun x hx => h x (by omega))
      omega
    · have := ih (by omega)
      have := h nb (fun e => he e.symm)
      omega

/-- Number of copies of item `i` in bin `b`. -/
def copies (s : Bal) (i b : Nat) : Nat := (itemsOf (s.bins b).values).countP (fun e => e.2 == i)

/-- The invariant of the first loop: `n` items placed; `B1`, `B2` their bins. -/
structure Inv (s : Bal) (B1 B2 : Nat → Nat) (n : Nat) : Prop where
  pos : 0 < s.numBins
  cnt : ∀ b, (s.bins b).cnt = (itemsOf (s.bins b).values).length
  keys : ∀ b, ∀ k ∈ (s.bins b).values.map (·.1), k < s.numBins
  own : ∀ b k e, Has (s.bins b).values k e → e.2 < n ∧ e.1 ≤ 1 ∧
    ((b = B1 e.2 ∧ k = B2 e.2) ∨ (b = B2 e.2 ∧ k = B1 e.2))
  once : ∀ i, sumTo s.numBins (copies s i) = if i < n then 1 else 0
  outs : ∀ b, (s.bins b).blks = [] ∧ (s.bins b).idxs = [] ∧ (s.bins b).hashIdxs = []

/-- The additional invariant of the balancing loop. -/
structure Inv2 (s : Bal) : Prop where
  light : ∀ b, ∀ k ∈ (s.bins b).light, k ∈ (s.bins b).values.map (·.1)
  heavy : ∀ b, b < s.numBins → s.maxBin < (s.bins b).cnt → b ∈ s.heavy
  heavy_lt : ∀ b ∈ s.heavy, b < s.numBins

theorem copies_setBin (s : Bal) (b : Nat) (x : Bin) (i b' : Nat) :
    copies (setBin s b x) i b' = if b' = b then (itemsOf x.values).countP (fun e => e.2 == i)
      else copies s i b' := by
  unfold copies setBin
  simp only []
  split <;> rfl

/-- Placing item `n` keeps the invariant. -/
theorem Inv.place {s : Bal} {B1 B2 : Nat → Nat} {n b alt h : Nat} (hI : Inv s B1 B2 n)
    (hb : b < s.numBins) (halt : alt < s.numBins) (hh : h ≤ 1)
    (hown : (b = B1 n ∧ alt = B2 n) ∨ (b = B2 n ∧ alt = B1 n)) :
    Inv (place s b alt (h, n)) B1 B2 (n + 1) := by
  have hval : ∀ b', ((Balanced.place s b alt (h, n)).bins b').values =
      if b' = b then push (s.bins b).values alt (h, n) else (s.bins b').values := by
    intro b'; simp only [Balanced.place, setBin]; split <;> rfl
  have hnb : (Balanced.place s b alt (h, n)).numBins = s.numBins := rfl
  have hpi := push_items (s.bins b).values alt (h, n)
  constructor
  · exact hI.pos
  · intro b'
    simp only [Balanced.place, setBin]
    split
    · rename_i e; rw [hpi.length_eq, hI.cnt b, List.length_cons]
    · exact hI.cnt b'
  · intro b' k hk
    rw [hval] at hk
    rw [hnb]
    split at hk
    · rcases (push_keys _ _ _ k).mp hk with hk | rfl
      · exact hI.keys b k hk
      · exact halt
    · exact hI.keys b' k hk
  · intro b' k e he
    rw [hval] at he
    split at he
    · rename_i e'
      subst e'
      rcases push_has he with he | ⟨rfl, rfl⟩
      · obtain ⟨h1, h2, h3⟩ := hI.own b' k e he
        exact ⟨by omega, h2, h3⟩
      · exact ⟨Nat.lt_succ_self _, hh, hown⟩
    · obtain ⟨h1, h2, h3⟩ := hI.own b' k e he
      exact ⟨by omega, h2, h3⟩
  · intro i
    rw [hnb]
    have h1 := sumTo_update (nb := s.numBins) (f := copies (Balanced.place s b alt (h, n)) i)
      (g := copies s i) hb (by
        intro x hx
        unfold Balanced.place
        rw [copies_setBin, if_neg hx])
    have h2 : copies (Balanced.place s b alt (h, n)) i b =
        copies s i b + if n = i then 1 else 0 := by
      unfold Balanced.place
      rw [copies_setBin, if_pos rfl, hpi.countP_eq, List.countP_cons]
      simp [copies]
    have h3 := hI.once i
    rw [h2] at h1
    by_cases hin : n = i
    · subst hin
      simp at h3 h1 ⊢
      omega
    · rw [if_neg hin] at h1
      have : (i < n + 1) ↔ i < n := by omega
      simp only [this]
      omega
  · intro b'
    simp only [Balanced.place, setBin]
    split
    · exact hI.outs b
    · exact hI.outs b'

theorem firstLoop_inv (aes : Block → Block) (B1 B2 : Nat → Nat) (items : List Block) {s : Bal} {n : Nat}
    (hI : Inv s B1 B2 n)
    (hB : ∀ k (h : k < items.length), B1 (n + k) = bin1 aes s.numBins items[k] ∧
      B2 (n + k) = bin2 aes s.numBins items[k]) :
    Inv (firstLoop aes s n items) B1 B2 (n + items.length) ∧
      (firstLoop aes s n items).numBins = s.numBins ∧
      (firstLoop aes s n items).maxBin = s.maxBin := by
  induction items generalizing s n with
  | nil => exact ⟨hI, rfl, rfl⟩
  | cons x items ih =>
    unfold firstLoop
    obtain ⟨e1, e2⟩ := hB 0 (by simp)
    simp only [Nat.add_zero, List.getElem_cons_zero] at e1 e2
    have hp := hI.pos
    have l1 : bin1 aes s.numBins x < s.numBins := Nat.mod_lt _ hp
    have l2 : bin2 aes s.numBins x < s.numBins := Nat.mod_lt _ hp
    have hstep : Inv (firstPass aes s n x) B1 B2 (n + 1) ∧
        (firstPass aes s n x).numBins = s.numBins ∧ (firstPass aes s n x).maxBin = s.maxBin := by
      unfold firstPass
      simp only []
      split
      · exact ⟨hI.place l1 l2 (by omega) (Or.inl ⟨e1.symm, e2.symm⟩), rfl, rfl⟩
      · exact ⟨hI.place l2 l1 (by omega) (Or.inr ⟨e2.symm, e1.symm⟩), rfl, rfl⟩
    obtain ⟨g1, g2, g3⟩ := hstep
    obtain ⟨k1, k2, k3⟩ := ih g1 (by
      intro k hk
      have := hB (k + 1) (by simpa using hk)
      rw [g2, Nat.add_assoc, Nat.add_comm 1 k]
      simpa using this)
    refine ⟨?_, by rw [k2, g2], by rw [k3, g3]⟩
    rw [List.length_cons, Nat.add_comm items.length 1, ← Nat.add_assoc]
    exact k1

theorem firstLoop_light (aes : Block → Block) (items : List Block) {s : Bal} {n : Nat}
    (h : ∀ b, (s.bins b).light = []) (hh : s.heavy = []) :
    (∀ b, ((firstLoop aes s n items).bins b).light = []) ∧ (firstLoop aes s n items).heavy = [] := by
  induction items generalizing s n with
  | nil => exact ⟨h, hh⟩
  | cons x items ih =>
    unfold firstLoop
    apply ih
    · intro b
      unfold firstPass
      simp only []
      split <;> (simp only [place, setBin]; split <;> first | exact h _ | exact h b)
    · unfold firstPass
      simp only []
      split <;> exact hh

theorem classify_inv {ord : Values → Values} (hord : ∀ v, (ord v).Perm v) {s : Bal}
    {B1 B2 : Nat → Nat} {n : Nat} (hI : Inv s B1 B2 n) (hl : ∀ b, (s.bins b).light = [])
    (hh : s.heavy = []) : Inv (classify ord s) B1 B2 n ∧ Inv2 (classify ord s) := by
  have hv : ∀ b, ((classify ord s).bins b).values = (s.bins b).values := by
    intro b; simp only [classify]; split <;> rfl
  have hc : ∀ b, ((classify ord s).bins b).cnt = (s.bins b).cnt := by
    intro b; simp only [classify]; split <;> rfl
  refine ⟨⟨hI.pos, ?_, ?_, ?_, ?_, ?_⟩, ⟨?_, ?_, ?_⟩⟩
  · intro b; rw [hc, hv]; exact hI.cnt b
  · intro b; rw [hv]; exact hI.keys b
  · intro b; rw [hv]; exact hI.own b
  · intro i
    have : sumTo (classify ord s).numBins (copies (classify ord s) i) =
        sumTo s.numBins (copies s i) := sumTo_congr fun b _ => by unfold copies; rw [hv]
    rw [this]; exact hI.once i
  · intro b; simp only [classify]; split <;> exact hI.outs b
  · intro b k hk
    rw [hv]
    simp only [classify] at hk
    split at hk
    · simp only [hl, List.nil_append, List.mem_map, List.mem_filter] at hk
      obtain ⟨p, ⟨hp, _⟩, rfl⟩ := hk
      exact List.mem_map_of_mem ((hord _).mem_iff.mp hp)
    · rw [hl] at hk; simp at hk
  · intro b hb hmax
    rw [hc] at hmax
    simp only [classify, hh, List.nil_append, List.mem_filter, List.mem_range, decide_eq_true_eq]
    exact ⟨hb, hmax⟩
  · intro b hb
    simp only [classify, hh, List.nil_append, List.mem_filter, List.mem_range] at hb
    exact hb.1

/-- The bins after moving an item. -/
theorem move_bins (s : Bal) (b1 b2 i2 : Nat) (sub : List Item) (r4 : Nat) (hne : b1 ≠ b2) (b : Nat) :
    ∃ li1 li2, (∀ k ∈ li1, k ∈ (s.bins b1).light) ∧
      (∀ k ∈ li2, k ∈ (s.bins b2).light ∨ k = b1) ∧
    (move s b1 b2 i2 sub r4).bins b =
      if b = b1 then
        { s.bins b1 with
          values := update (s.bins b1).values b2 (sub.eraseIdx (r4 % sub.length))
          cnt := (s.bins b1).cnt - 1, light := li1 }
      else if b = b2 then
        { s.bins b2 with
          values := push (s.bins b2).values b1 (sub.getD (r4 % sub.length) (0, 0))
          cnt := (s.bins b2).cnt + 1, light := li2 }
      else s.bins b := by
  have hne' : b2 ≠ b1 := fun e => hne e.symm
  refine ⟨if (s.bins b2).cnt + 1 > s.maxBin then (s.bins b1).light.eraseIdx i2
      else (s.bins b1).light,
    (match lookup (s.bins b2).values b1 with
    | some _ => if (s.bins b1).cnt - 1 < s.maxBin then (s.bins b2).light ++ [b1] else (s.bins b2).light
    | none => (s.bins b2).light ++ [b1]), ?_, ?_, ?_⟩
  · intro k hk
    split at hk
    · exact List.mem_of_mem_eraseIdx hk
    · exact hk
  · intro k hk
    split at hk
    · split at hk
      · simpa using hk
      · exact Or.inl hk
    · simpa using hk
  · unfold move setBin
    simp only [if_true, hne, hne', if_false]
    by_cases h1 : (s.bins b1).cnt - 1 < s.maxBin <;> by_cases h2 : (s.bins b2).cnt + 1 > s.maxBin <;>
      simp only [h1, h2, if_true, if_false, hne, hne'] <;>
      by_cases hb1 : b = b1 <;> by_cases hb2 : b = b2 <;>
      cases hlk : lookup (s.bins b2).values b1 <;> simp_all

/-- The other fields after moving an item. -/
theorem move_rest (s : Bal) (b1 b2 i2 : Nat) (sub : List Item) (r4 : Nat) (hne : b1 ≠ b2) :
    (move s b1 b2 i2 sub r4).numBins = s.numBins ∧ (move s b1 b2 i2 sub r4).maxBin = s.maxBin ∧
    (move s b1 b2 i2 sub r4).heavy =
      (if (s.bins b1).cnt - 1 < s.maxBin then s.heavy.erase b1 else s.heavy) ++
      (if (s.bins b2).cnt + 1 > s.maxBin then [b2] else []) := by
  have hne' : b2 ≠ b1 := fun e => hne e.symm
  unfold move setBin
  simp only [if_true, hne, hne', if_false]
  by_cases h1 : (s.bins b1).cnt - 1 < s.maxBin <;> by_cases h2 : (s.bins b2).cnt + 1 > s.maxBin <;>
      simp [h1, h2, hne, hne']

theorem copies_eq (s : Bal) (i b : Nat) :
    copies s i b = (itemsOf (s.bins b).values).countP (fun e => e.2 == i) := rfl

theorem move_inv {s : Bal} {B1 B2 : Nat → Nat} {n : Nat} (hI : Inv s B1 B2 n) (hJ : Inv2 s)
    {b1 b2 i2 r4 : Nat} {sub : List Item} (hb1 : b1 < s.numBins) (hb2 : b2 < s.numBins)
    (hlt : (s.bins b2).cnt < (s.bins b1).cnt) (hl : lookup (s.bins b1).values b2 = some sub)
    (hne : sub ≠ []) : Inv (move s b1 b2 i2 sub r4) B1 B2 n ∧ Inv2 (move s b1 b2 i2 sub r4) := by
  have hbb : b1 ≠ b2 := by rintro rfl; omega
  have hbb' : b2 ≠ b1 := fun e => hbb e.symm
  have hix : r4 % sub.length < sub.length :=
    Nat.mod_lt _ (List.length_pos_iff.mpr hne)
  obtain ⟨hnb, hmx, hhv⟩ := move_rest s b1 b2 i2 sub r4 hbb
  have hbins := move_bins s b1 b2 i2 sub r4 hbb
  generalize hs' : move s b1 b2 i2 sub r4 = s' at *
  generalize hit : sub.getD (r4 % sub.length) (0, 0) = it at *
  have hitm : it ∈ sub := by
    rw [← hit]; simp only [List.getD, List.getElem?_eq_getElem hix]; exact List.getElem_mem _
  have hpe := erase_items hl hix
  rw [hit] at hpe
  have hpi := push_items (s.bins b2).values b1 it
  have hitown := hI.own b1 b2 it ⟨sub, lookup_mem hl, hitm⟩
  have v1 : (s'.bins b1).values = update (s.bins b1).values b2 (sub.eraseIdx (r4 % sub.length)) ∧
      (s'.bins b1).cnt = (s.bins b1).cnt - 1 := by
    obtain ⟨li1, li2, _, _, h⟩ := hbins b1
    rw [h, if_pos rfl]; exact ⟨rfl, rfl⟩
  have v2 : (s'.bins b2).values = push (s.bins b2).values b1 it ∧
      (s'.bins b2).cnt = (s.bins b2).cnt + 1 := by
    obtain ⟨li1, li2, _, _, h⟩ := hbins b2
    rw [h, if_neg hbb', if_pos rfl]; exact ⟨rfl, rfl⟩
  have v3 : ∀ b, b ≠ b1 → b ≠ b2 → s'.bins b = s.bins b := by
    intro b h1 h2
    obtain ⟨li1, li2, _, _, h⟩ := hbins b
    rw [h, if_neg h1, if_neg h2]
  have hkeys1 : ∀ k, k ∈ (s'.bins b1).values.map (·.1) ↔ k ∈ (s.bins b1).values.map (·.1) := by
    intro k; rw [v1.1, update_keys]
  have hkeys2 : ∀ k, k ∈ (s'.bins b2).values.map (·.1) ↔
      (k ∈ (s.bins b2).values.map (·.1) ∨ k = b1) := by
    intro k; rw [v2.1]; exact push_keys _ _ _ k
  refine ⟨⟨by rw [hnb]; exact hI.pos, ?_, ?_, ?_, ?_, ?_⟩, ⟨?_, ?_, ?_⟩⟩
  · intro b
    by_cases h1 : b = b1
    · subst h1
      rw [v1.1, v1.2, hI.cnt b, hpe.length_eq]
      simp
    · by_cases h2 : b = b2
      · subst h2
        rw [v2.1, v2.2, hI.cnt b, hpi.length_eq]
        simp
      · rw [v3 b h1 h2]; exact hI.cnt b
  · intro b k hk
    rw [hnb]
    by_cases h1 : b = b1
    · subst h1
      exact hI.keys b k ((hkeys1 k).mp hk)
    · by_cases h2 : b = b2
      · subst h2
        rcases (hkeys2 k).mp hk with hk | rfl
        · exact hI.keys b k hk
        · exact hb1
      · rw [v3 b h1 h2] at hk; exact hI.keys b k hk
  · intro b k e he
    by_cases h1 : b = b1
    · subst h1
      rw [v1.1] at he
      rcases update_has he with he | ⟨rfl, hm⟩
      · exact hI.own b k e he
      · exact hI.own b k e ⟨sub, lookup_mem hl, List.mem_of_mem_eraseIdx hm⟩
    · by_cases h2 : b = b2
      · subst h2
        rw [v2.1] at he
        rcases push_has he with he | ⟨rfl, rfl⟩
        · exact hI.own b k e he
        · obtain ⟨g1, g2, g3⟩ := hitown
          exact ⟨g1, g2, by
            rcases g3 with ⟨a, c⟩ | ⟨a, c⟩
            · exact Or.inr ⟨c, a⟩
            · exact Or.inl ⟨c, a⟩⟩
      · rw [v3 b h1 h2] at he; exact hI.own b k e he
  · intro i
    rw [hnb, ← hI.once i]
    have e1 := sumTo_update (nb := s.numBins) (b := b1) (f := fun b => copies s i b)
      (g := fun b => if b = b1 then copies s' i b1 else copies s i b) hb1 (by
        intro x hx; simp [hx])
    have e2 := sumTo_update (nb := s.numBins) (b := b2) (f := fun b => copies s' i b)
      (g := fun b => if b = b1 then copies s' i b1 else copies s i b) hb2 (by
        intro x hx
        by_cases h : x = b1
        · simp [h]
        · simp only [h, if_false]; rw [copies_eq, copies_eq, v3 x h hx])
    have c1 : copies s i b1 = copies s' i b1 + (if it.2 == i then 1 else 0) := by
      rw [copies_eq, copies_eq, v1.1, hpe.countP_eq, List.countP_cons]
    have c2 : copies s' i b2 = copies s i b2 + (if it.2 == i then 1 else 0) := by
      rw [copies_eq, copies_eq, v2.1, hpi.countP_eq, List.countP_cons]
    simp only [if_true, hbb', if_false] at e1 e2
    have e3 : sumTo s.numBins (fun b => copies s' i b) = sumTo s.numBins (fun b => copies s i b) := by
      omega
    exact e3
  · intro b
    obtain ⟨li1, li2, _, _, h⟩ := hbins b
    rw [h]
    split
    · exact hI.outs b1
    · split
      · exact hI.outs b2
      · exact hI.outs b
  · intro b k hk
    obtain ⟨li1, li2, hl1, hl2, h⟩ := hbins b
    by_cases h1 : b = b1
    · subst h1
      rw [h, if_pos rfl] at hk
      exact (hkeys1 k).mpr (hJ.light b k (hl1 k hk))
    · by_cases h2 : b = b2
      · subst h2
        rw [h, if_neg h1, if_pos rfl] at hk
        rw [hkeys2]
        rcases hl2 k hk with hk | hk
        · exact Or.inl (hJ.light b k hk)
        · exact Or.inr hk
      · rw [v3 b h1 h2] at hk ⊢; exact hJ.light b k hk
  · intro b hb hm
    rw [hnb] at hb
    rw [hmx] at hm
    rw [hhv, List.mem_append]
    by_cases h2 : b = b2
    · subst h2
      right
      rw [v2.2] at hm
      rw [if_pos hm]; exact List.mem_singleton.mpr rfl
    · left
      by_cases h1 : b = b1
      · subst h1
        rw [v1.2] at hm
        rw [if_neg (by omega)]
        exact hJ.heavy b hb (by omega)
      · rw [v3 b h1 h2] at hm
        split
        · exact (List.mem_erase_of_ne h1).mpr (hJ.heavy b hb hm)
        · exact hJ.heavy b hb hm
  · intro b hb
    rw [hnb]
    rw [hhv, List.mem_append] at hb
    rcases hb with hb | hb
    · split at hb
      · exact hJ.heavy_lt b (List.mem_of_mem_erase hb)
      · exact hJ.heavy_lt b hb
    · split at hb
      · rw [List.mem_singleton] at hb; rw [hb]; exact hb2
      · simp at hb

theorem Inv.iters {s : Bal} {B1 B2 : Nat → Nat} {n : Nat} (hI : Inv s B1 B2 n) (j : Nat) :
    Inv { s with numIters := j } B1 B2 n := ⟨hI.pos, hI.cnt, hI.keys, hI.own, hI.once, hI.outs⟩

theorem Inv2.iters {s : Bal} (hJ : Inv2 s) (j : Nat) : Inv2 { s with numIters := j } :=
  ⟨hJ.light, hJ.heavy, hJ.heavy_lt⟩

theorem lookup_isSome {v : Values} {k : Nat} (h : k ∈ v.map (·.1)) : lookup v k ≠ none := by
  induction v with
  | nil => simp at h
  | cons p v ih =>
    obtain ⟨k', l⟩ := p
    unfold lookup
    by_cases he : k' = k
    · simp [he]
    · rw [if_neg he]
      apply ih
      simp at h ⊢
      rcases h with h | h
      · exact absurd h.symm he
      · exact h

theorem pass_inv {s : Bal} {B1 B2 : Nat → Nat} {n : Nat} (hI : Inv s B1 B2 n) (hJ : Inv2 s)
    (hh : s.heavy ≠ []) (c : Choice) :
    ∃ s', pass s c = .ok s' ∧ Inv s' B1 B2 n ∧ Inv2 s' ∧ s'.numBins = s.numBins ∧
      s'.maxBin = s.maxBin := by
  have hix : c.r1 % s.heavy.length < s.heavy.length := Nat.mod_lt _ (List.length_pos_iff.mpr hh)
  unfold pass
  simp only []
  generalize hb1e : s.heavy.getD (c.r1 % s.heavy.length) 0 = b1
  have hb1 : b1 < s.numBins := by
    apply hJ.heavy_lt
    rw [← hb1e]; simp only [List.getD, List.getElem?_eq_getElem hix]; exact List.getElem_mem _
  by_cases hpos : (s.bins b1).light.length > 0
  · rw [if_pos hpos]
    have hix2 := Nat.mod_lt c.r2 hpos
    generalize hb2e : (s.bins b1).light.getD (c.r2 % (s.bins b1).light.length) 0 = b2
    have hb2l : b2 ∈ (s.bins b1).light := by
      rw [← hb2e]; simp only [List.getD, List.getElem?_eq_getElem hix2]; exact List.getElem_mem _
    have hb2k := hJ.light b1 b2 hb2l
    have hb2 : b2 < s.numBins := hI.keys b1 b2 hb2k
    by_cases hlt : (s.bins b2).cnt < (s.bins b1).cnt
    · rw [if_pos hlt]
      split
      · split
        · rename_i hnone; exact absurd hnone (lookup_isSome hb2k)
        · exact ⟨s, rfl, hI, hJ, rfl, rfl⟩
        · rename_i a l hl
          have hbb : b1 ≠ b2 := by rintro rfl; omega
          obtain ⟨m1, m2⟩ := move_inv hI hJ (i2 := c.r2 % (s.bins b1).light.length) (r4 := c.r4)
            hb1 hb2 hlt hl (by simp)
          have m3 := move_rest s b1 b2 (c.r2 % (s.bins b1).light.length) (a :: l) c.r4 hbb
          exact ⟨_, rfl, m1.iters _, m2.iters _, m3.1, m3.2.1⟩
      · exact ⟨_, rfl, hI.iters _, hJ.iters _, rfl, rfl⟩
    · rw [if_neg hlt]
      exact ⟨s, rfl, hI, hJ, rfl, rfl⟩
  · rw [if_neg hpos]
    exact ⟨s, rfl, hI, hJ, rfl, rfl⟩

theorem balance_inv {s : Bal} {B1 B2 : Nat → Nat} {n : Nat} (hI : Inv s B1 B2 n) (hJ : Inv2 s)
    (cs : List Choice) :
    balance s cs = .ok none ∨ ∃ s', balance s cs = .ok (some s') ∧ Inv s' B1 B2 n ∧
      s'.numBins = s.numBins ∧ s'.maxBin = s.maxBin ∧
      ∀ b, b < s'.numBins → (s'.bins b).cnt ≤ s'.maxBin := by
  have done : ∀ s : Bal, Inv2 s → s.heavy = [] → ∀ b, b < s.numBins → (s.bins b).cnt ≤ s.maxBin := by
    intro s hJ he b hb
    apply Nat.le_of_not_lt
    intro hm
    have := hJ.heavy b hb hm
    rw [he] at this; simp at this
  induction cs generalizing s with
  | nil =>
    unfold balance
    by_cases he : s.heavy = []
    · rw [if_pos he]; exact Or.inr ⟨s, rfl, hI, rfl, rfl, done s hJ he⟩
    · rw [if_neg he]; exact Or.inl rfl
  | cons c cs ih =>
    unfold balance
    by_cases he : s.heavy = []
    · rw [if_pos he]; exact Or.inr ⟨s, rfl, hI, rfl, rfl, done s hJ he⟩
    · rw [if_neg he]
      obtain ⟨s1, h1, hI1, hJ1, e1, e2⟩ := pass_inv hI hJ he c
      rw [h1]
      rcases ih hI1 hJ1 with h | ⟨s', h, a, b, d, e⟩
      · left; simpa [Out.bind] using h
      · right; exact ⟨s', by simpa [Out.bind] using h, a, by rw [b, e1], by rw [d, e2], e⟩

/-- The tag of an item names its bin until balancing moves it. -/
def Tagged (s : Bal) (B1 B2 : Nat → Nat) : Prop :=
  ∀ b k e, Has (s.bins b).values k e → (e.1 = 0 → b = B1 e.2) ∧ (e.1 ≠ 0 → b = B2 e.2)

theorem Tagged.place {s : Bal} {B1 B2 : Nat → Nat} {b alt : Nat} {it : Item} (hT : Tagged s B1 B2)
    (h : (it.1 = 0 → b = B1 it.2) ∧ (it.1 ≠ 0 → b = B2 it.2)) :
    Tagged (place s b alt it) B1 B2 := by
  intro b' k e he
  simp only [Balanced.place, setBin] at he
  split at he
  · rename_i hb
    subst hb
    rcases push_has he with he | ⟨_, rfl⟩
    · exact hT b' k e he
    · exact h
  · exact hT b' k e he

theorem firstLoop_tagged (aes : Block → Block) (B1 B2 : Nat → Nat) (items : List Block) {s : Bal}
    {n : Nat} (hT : Tagged s B1 B2)
    (hB : ∀ k (h : k < items.length), B1 (n + k) = bin1 aes s.numBins items[k] ∧
      B2 (n + k) = bin2 aes s.numBins items[k]) :
    Tagged (firstLoop aes s n items) B1 B2 := by
  induction items generalizing s n with
  | nil => exact hT
  | cons x items ih =>
    unfold firstLoop
    obtain ⟨e1, e2⟩ := hB 0 (by simp)
    simp only [Nat.add_zero, List.getElem_cons_zero] at e1 e2
    have hnb : (firstPass aes s n x).numBins = s.numBins := by
      unfold firstPass; simp only []; split <;> rfl
    apply ih
    · unfold firstPass
      simp only []
      split
      · exact hT.place ⟨fun _ => e1.symm, fun h => absurd rfl h⟩
      · exact hT.place ⟨fun h => by simp at h, fun _ => e2.symm⟩
    · intro k hk
      have := hB (k + 1) (by simpa using hk)
      rw [hnb, Nat.add_assoc, Nat.add_comm 1 k]
      simpa using this

theorem output_fields {ord : Values → Values} (hord : ∀ v, (ord v).Perm v) (items : List Block)
    {x : Bin} (hx : x.blks = [] ∧ x.idxs = [] ∧ x.hashIdxs = []) :
    ∃ es : List Item, es.Perm (itemsOf x.values) ∧
      (output ord items x).idxs = es.map (·.2) ∧
      (output ord items x).hashIdxs = es.map (fun e => e.1 % 256) ∧
      (output ord items x).blks = es.map (fun e =>
        if e.1 = 0 then items.getD e.2 0 else items.getD e.2 0 ^^^ oneBlock) ∧
      (output ord items x).cnt = x.cnt := by
  refine ⟨(ord x.values).flatMap (·.2), ?_, ?_, ?_, ?_, rfl⟩
  · exact (hord x.values).flatMap_right _
  · simp [output, hx]
  · simp [output, hx]
  · simp [output, hx]

theorem init_ok {inputSize maxBin d : Nat} {s : Bal} (h : init inputSize maxBin d = .ok s) :
    0 < s.numBins ∧ s.maxBin = maxBin ∧ s.heavy = [] ∧ ∀ b, s.bins b = emptyBin := by
  unfold init at h
  simp only [] at h
  split at h
  · simp at h
  · injection h with h
    subst h
    exact ⟨Nat.lt_of_lt_of_le Nat.zero_lt_one (Nat.le_add_right _ _), rfl, rfl, fun _ => rfl⟩

theorem inv_new {s : Bal} (hp : 0 < s.numBins) (hb : ∀ b, s.bins b = emptyBin) (B1 B2 : Nat → Nat) :
    Inv s B1 B2 0 ∧ Tagged s B1 B2 := by
  have hno : ∀ b k e, ¬ Has (s.bins b).values k e := by
    intro b k e ⟨m, hm, _⟩
    rw [hb] at hm; simp [emptyBin] at hm
  refine ⟨⟨hp, ?_, ?_, ?_, ?_, ?_⟩, fun b k e he => absurd he (hno b k e)⟩
  · intro b; rw [hb]; rfl
  · intro b k hk; rw [hb] at hk; simp [emptyBin] at hk
  · intro b k e he; exact absurd he (hno b k e)
  · intro i
    have : sumTo s.numBins (copies s i) = sumTo s.numBins (fun _ => 0) :=
      sumTo_congr fun b _ => by unfold copies; rw [hb]; rfl
    rw [this]
    simp only [Nat.not_lt_zero, if_false]
    induction s.numBins with
    | zero => rfl
    | succ n ih => rw [sumTo_succ, ih]
  · intro b; rw [hb]; exact ⟨rfl, rfl, rfl⟩

/-- What a terminating `insertItems` returns. -/
theorem insertItems_run {aes : Block → Block} {ord : Values → Values} (hord : ∀ v, (ord v).Perm v)
    {inputSize maxBin d : Nat} {s0 : Bal} (h0 : init inputSize maxBin d = .ok s0)
    (items : List Block) (cs : List Choice) (B1 B2 : Nat → Nat)
    (hB : ∀ k (h : k < items.length), B1 k = bin1 aes s0.numBins items[k] ∧
      B2 k = bin2 aes s0.numBins items[k]) :
    insertItems aes ord s0 items cs = .ok none ∨
    ∃ s1, balance (classify ord (firstLoop aes s0 0 items)) cs = .ok (some s1) ∧
      insertItems aes ord s0 items cs = .ok (some { s1 with
        bins := fun b => if b < s1.numBins then output ord items (s1.bins b) else s1.bins b }) ∧
      Inv s1 B1 B2 items.length ∧ s1.numBins = s0.numBins ∧ s1.maxBin = maxBin ∧
      ∀ b, b < s1.numBins → (s1.bins b).cnt ≤ maxBin := by
  obtain ⟨hp, hm, hh, hb⟩ := init_ok h0
  obtain ⟨i1, i2, i3⟩ := firstLoop_inv aes B1 B2 items (inv_new hp hb B1 B2).1 (by simpa using hB)
  obtain ⟨l1, l2⟩ := firstLoop_light aes items (s := s0) (n := 0)
    (fun b => by rw [hb]; rfl) hh
  obtain ⟨c1, c2⟩ := classify_inv hord i1 l1 l2
  have hn : ¬ (items ≠ [] ∧ s0.numBins = 0) := fun h => by omega
  unfold insertItems
  rw [if_neg hn]
  rcases balance_inv c1 c2 cs with h | ⟨s1, h, a, b, c, e⟩
  · left; rw [h]; rfl
  · right
    refine ⟨s1, h, by rw [h]; rfl, by simpa using a, ?_, ?_, ?_⟩
    · rw [b]; exact i2
    · rw [c]; show (firstLoop aes s0 0 items).maxBin = _; rw [i3, hm]
    · intro b' hb'
      have := e b' hb'
      rw [c] at this
      have e2 : (classify ord (firstLoop aes s0 0 items)).maxBin = maxBin := by
        show (firstLoop aes s0 0 items).maxBin = _; rw [i3, hm]
      rw [e2] at this; exact this

end Verif.Balanced
