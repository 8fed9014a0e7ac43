import Verif.ReuseRunModel
import Verif.BalancedLemmas
/-!
Lemmas on a `BalancedIndex` that is filled several times.
-/
namespace Verif.ReuseRun
open Verif Verif.Balanced

/-- A table with `t` items, between two runs. -/
structure Held (s : Bal) (t : Nat) : Prop where
  pos : 0 < s.numBins
  sum : sumTo s.numBins (fun b => (s.bins b).cnt) = t
  cnt : ∀ b, (s.bins b).cnt = (itemsOf (s.bins b).values).length
  keys : ∀ b, ∀ k ∈ (s.bins b).values.map (·.1), k < s.numBins
  light : ∀ b, ∀ k ∈ (s.bins b).light, k < s.numBins

/-- The overfull bins are in the list. -/
structure Heavy (s : Bal) : Prop where
  heavy : ∀ b, b < s.numBins → s.maxBin < (s.bins b).cnt → b ∈ s.heavy
  heavy_lt : ∀ b ∈ s.heavy, b < s.numBins

/-- The same sizes and the same output vectors. -/
structure Same (s s' : Bal) : Prop where
  nb : s'.numBins = s.numBins
  mx : s'.maxBin = s.maxBin
  outs : ∀ b, (s'.bins b).blks = (s.bins b).blks ∧ (s'.bins b).idxs = (s.bins b).idxs ∧
    (s'.bins b).hashIdxs = (s.bins b).hashIdxs

theorem Same.refl (s : Bal) : Same s s := ⟨rfl, rfl, fun _ => ⟨rfl, rfl, rfl⟩⟩

theorem Same.trans {a b c : Bal} (h : Same a b) (h' : Same b c) : Same a c :=
  ⟨h'.nb.trans h.nb, h'.mx.trans h.mx, fun x => ⟨(h'.outs x).1.trans (h.outs x).1,
    (h'.outs x).2.1.trans (h.outs x).2.1, (h'.outs x).2.2.trans (h.outs x).2.2⟩⟩

theorem held_place {s : Bal} {t b alt : Nat} {it : Item} (h : Held s t) (hb : b < s.numBins)
    (ha : alt < s.numBins) : Held (place s b alt it) (t + 1) ∧ Same s (place s b alt it) ∧
      (place s b alt it).heavy = s.heavy := by
  have hbin : ∀ b', (place s b alt it).bins b' = if b' = b then
      { s.bins b with values := push (s.bins b).values alt it, cnt := (s.bins b).cnt + 1 } else s.bins b' :=
    fun _ => rfl
  refine ⟨⟨h.pos, ?_, ?_, ?_, ?_⟩, ⟨rfl, rfl, ?_⟩, rfl⟩
  · have := sumTo_update (nb := s.numBins) (f := fun x => ((place s b alt it).bins x).cnt)
      (g := fun x => (s.bins x).cnt) hb (fun x hx => by simp only [hbin]; rw [if_neg hx])
    have e : ((place s b alt it).bins b).cnt = (s.bins b).cnt + 1 := by rw [hbin, if_pos rfl]
    have hs := h.sum
    show sumTo s.numBins _ = _
    simp only [e] at this
    omega
  · intro b'
    rw [hbin]
    split
    · next hbb =>
      have := (push_items (s.bins b).values alt it).length_eq
      simp only [List.length_cons] at this
      simp only
      rw [this, h.cnt b]
    · exact h.cnt b'
  · intro b' k hk
    rw [hbin] at hk
    split at hk
    · rw [push_keys] at hk
      rcases hk with hk | hk
      · exact h.keys b k hk
      · rw [hk]; exact ha
    · exact h.keys b' k hk
  · intro b' k hk
    rw [hbin] at hk
    split at hk
    · exact h.light b k hk
    · exact h.light b' k hk
  · intro b'
    rw [hbin]
    split
    · next hbb => subst hbb; exact ⟨rfl, rfl, rfl⟩
    · exact ⟨rfl, rfl, rfl⟩

theorem held_first {s : Bal} {t : Nat} (h : Held s t) (aes : Block → Block) (i : Nat) (x : Block) :
    Held (firstPass aes s i x) (t + 1) ∧ Same s (firstPass aes s i x) ∧ (firstPass aes s i x).heavy = s.heavy := by
  have h1 : bin1 aes s.numBins x < s.numBins := Nat.mod_lt _ h.pos
  have h2 : bin2 aes s.numBins x < s.numBins := Nat.mod_lt _ h.pos
  unfold firstPass
  simp only
  split
  · exact held_place h h1 h2
  · exact held_place h h2 h1

theorem held_loop (aes : Block → Block) (items : List Block) : ∀ {s : Bal} {t : Nat} (i : Nat), Held s t →
    Held (firstLoop aes s i items) (t + items.length) ∧ Same s (firstLoop aes s i items) ∧
      (firstLoop aes s i items).heavy = s.heavy := by
  induction items with
  | nil => intro s t i h; exact ⟨h, Same.refl s, rfl⟩
  | cons x items ih =>
    intro s t i h
    obtain ⟨h1, h2, h3⟩ := held_first h aes i x
    obtain ⟨g1, g2, g3⟩ := ih (i + 1) h1
    refine ⟨?_, h2.trans g2, g3.trans h3⟩
    rw [List.length_cons, show t + (items.length + 1) = t + 1 + items.length by omega]
    exact g1

theorem held_classify {ord : Values → Values} (hord : ∀ v, (ord v).Perm v) {s : Bal} {t : Nat} (h : Held s t)
    (hh : s.heavy = []) : Held (classify ord s) t ∧ Heavy (classify ord s) ∧ Same s (classify ord s) := by
  have hb : ∀ b, ∃ li, (∀ k ∈ li, k ∈ (s.bins b).light ∨ k ∈ (s.bins b).values.map (·.1)) ∧
      (classify ord s).bins b = { s.bins b with light := li } := by
    intro b
    by_cases hlt : b < s.numBins
    · refine ⟨_, ?_, by simp only [classify, if_pos hlt]; rfl⟩
      intro k hk
      rcases List.mem_append.mp hk with hk | hk
      · exact Or.inl hk
      · right
        obtain ⟨p, hp, rfl⟩ := List.mem_map.mp hk
        exact List.mem_map.mpr ⟨p, (hord _).mem_iff.mp (List.mem_filter.mp hp).1, rfl⟩
    · exact ⟨(s.bins b).light, fun k hk => Or.inl hk, by simp only [classify, if_neg hlt]⟩
  have hcnt : ∀ b, ((classify ord s).bins b).cnt = (s.bins b).cnt := by
    intro b
    obtain ⟨li, _, e⟩ := hb b
    rw [e]
  refine ⟨⟨h.pos, ?_, ?_, ?_, ?_⟩, ⟨?_, ?_⟩, ⟨rfl, rfl, ?_⟩⟩
  · rw [← h.sum]
    exact sumTo_congr fun b _ => hcnt b
  · intro b
    obtain ⟨li, _, e⟩ := hb b
    rw [e]
    exact h.cnt b
  · intro b k hk
    obtain ⟨li, _, e⟩ := hb b
    rw [e] at hk
    exact h.keys b k hk
  · intro b k hk
    obtain ⟨li, hli, e⟩ := hb b
    rw [e] at hk
    rcases hli k hk with hk | hk
    · exact h.light b k hk
    · exact h.keys b k hk
  · intro b hlt hm
    rw [hcnt] at hm
    have hm : s.maxBin < (s.bins b).cnt := hm
    show b ∈ s.heavy ++ _
    rw [hh]
    exact List.mem_filter.mpr ⟨List.mem_range.mpr hlt, by simpa using hm⟩
  · intro b hm
    have hm : b ∈ s.heavy ++ (List.range s.numBins).filter fun b => decide (s.maxBin < (s.bins b).cnt) := hm
    rw [hh, List.nil_append] at hm
    exact List.mem_range.mp (List.mem_filter.mp hm).1
  · intro b
    obtain ⟨li, _, e⟩ := hb b
    rw [e]
    exact ⟨rfl, rfl, rfl⟩

theorem held_move {s : Bal} {t b1 b2 i2 r4 : Nat} {sub : List Item} (h : Held s t) (hH : Heavy s)
    (hb1 : b1 < s.numBins) (hb2 : b2 < s.numBins) (hlt : (s.bins b2).cnt < (s.bins b1).cnt)
    (hl : lookup (s.bins b1).values b2 = some sub) (hne : sub ≠ []) :
    Held (move s b1 b2 i2 sub r4) t ∧ Heavy (move s b1 b2 i2 sub r4) ∧ Same s (move s b1 b2 i2 sub r4) := by
  have hbb : b1 ≠ b2 := by rintro rfl; omega
  have hbb' : b2 ≠ b1 := fun e => hbb e.symm
  have hix : r4 % sub.length < sub.length := Nat.mod_lt _ (List.length_pos_iff.mpr hne)
  obtain ⟨hnb, hmx, hhv⟩ := move_rest s b1 b2 i2 sub r4 hbb
  have hbins := move_bins s b1 b2 i2 sub r4 hbb
  generalize hs' : move s b1 b2 i2 sub r4 = s' at *
  generalize hit : sub.getD (r4 % sub.length) (0, 0) = it at *
  have hpe := (erase_items hl hix).length_eq
  have hpi := (push_items (s.bins b2).values b1 it).length_eq
  simp only [List.length_cons] at hpi hpe
  have c1 : (s'.bins b1).cnt = (s.bins b1).cnt - 1 := by
    obtain ⟨_, _, _, _, e⟩ := hbins b1
    rw [e, if_pos rfl]
  have c2 : (s'.bins b2).cnt = (s.bins b2).cnt + 1 := by
    obtain ⟨_, _, _, _, e⟩ := hbins b2
    rw [e, if_neg hbb', if_pos rfl]
  have c3 : ∀ b, b ≠ b1 → b ≠ b2 → s'.bins b = s.bins b := by
    intro b h1 h2
    obtain ⟨_, _, _, _, e⟩ := hbins b
    rw [e, if_neg h1, if_neg h2]
  refine ⟨⟨by rw [hnb]; exact h.pos, ?_, ?_, ?_, ?_⟩, ⟨?_, ?_⟩, ⟨hnb, hmx, ?_⟩⟩
  · rw [hnb, ← h.sum]
    let f : Nat → Nat := fun b => (s.bins b).cnt
    let g : Nat → Nat := fun b => if b = b1 then (s.bins b1).cnt - 1 else (s.bins b).cnt
    let k : Nat → Nat := fun b => (s'.bins b).cnt
    have e1 := sumTo_update (nb := s.numBins) (f := g) (g := f) hb1 (fun x hx => by simp [g, f, hx])
    have e2 := sumTo_update (nb := s.numBins) (f := k) (g := g) hb2 (fun x hx => by
      by_cases hx1 : x = b1
      · subst hx1; simp only [k, g, if_true]; exact c1
      · simp only [k, g, if_neg hx1]; rw [c3 x hx1 hx])
    have v1 : g b1 = (s.bins b1).cnt - 1 := by simp [g]
    have v2 : g b2 = (s.bins b2).cnt := by simp [g, hbb']
    have v3 : k b2 = (s.bins b2).cnt + 1 := c2
    have v4 : f b1 = (s.bins b1).cnt := rfl
    show sumTo s.numBins k = sumTo s.numBins f
    omega
  · intro b
    obtain ⟨_, _, _, _, e⟩ := hbins b
    rw [e]
    have := h.cnt b1
    have := h.cnt b2
    split
    · simp only; omega
    · split
      · simp only; omega
      · exact h.cnt b
  · intro b x hx
    rw [hnb]
    obtain ⟨_, _, _, _, e⟩ := hbins b
    rw [e] at hx
    split at hx
    · simp only [update_keys] at hx
      exact h.keys b1 x hx
    · split at hx
      · simp only [push_keys] at hx
        rcases hx with hx | hx
        · exact h.keys b2 x hx
        · rw [hx]; exact hb1
      · exact h.keys b x hx
  · intro b x hx
    rw [hnb]
    obtain ⟨li1, li2, l1, l2, e⟩ := hbins b
    rw [e] at hx
    split at hx
    · exact h.light b1 x (l1 x hx)
    · split at hx
      · rcases l2 x hx with hx | hx
        · exact h.light b2 x hx
        · rw [hx]; exact hb1
      · exact h.light b x hx
  · intro b hb hm
    rw [hnb] at hb
    rw [hmx] at hm
    rw [hhv]
    by_cases e1 : b = b1
    · subst e1
      rw [c1] at hm
      rw [if_neg (by omega)]
      exact List.mem_append_left _ (hH.heavy b hb (by omega))
    · by_cases e2 : b = b2
      · subst e2
        rw [c2] at hm
        rw [if_pos (show (s.bins b).cnt + 1 > s.maxBin by omega)]
        exact List.mem_append_right _ (by simp)
      · rw [c3 b e1 e2] at hm
        have := hH.heavy b hb hm
        apply List.mem_append_left
        split
        · exact (List.mem_erase_of_ne e1).mpr this
        · exact this
  · intro b hb
    rw [hnb]
    rw [hhv] at hb
    rcases List.mem_append.mp hb with hb | hb
    · split at hb
      · exact hH.heavy_lt b (List.mem_of_mem_erase hb)
      · exact hH.heavy_lt b hb
    · split at hb
      · rw [List.mem_singleton.mp hb]; exact hb2
      · simp at hb
  · intro b
    obtain ⟨_, _, _, _, e⟩ := hbins b
    rw [e]
    split
    · next e1 => subst e1; exact ⟨rfl, rfl, rfl⟩
    · split
      · next e2 => subst e2; exact ⟨rfl, rfl, rfl⟩
      · exact ⟨rfl, rfl, rfl⟩

theorem held_iters {s : Bal} {t : Nat} (h : Held s t) (hH : Heavy s) (j : Nat) :
    Held { s with numIters := j } t ∧ Heavy { s with numIters := j } ∧ Same s { s with numIters := j } :=
  ⟨⟨h.pos, h.sum, h.cnt, h.keys, h.light⟩, ⟨hH.heavy, hH.heavy_lt⟩, ⟨rfl, rfl, fun _ => ⟨rfl, rfl, rfl⟩⟩⟩

theorem held_pass {s s' : Bal} {t : Nat} (h : Held s t) (hH : Heavy s) (hh : s.heavy ≠ []) {c : Choice}
    (e : pass s c = .ok s') : Held s' t ∧ Heavy s' ∧ Same s s' := by
  have hix : c.r1 % s.heavy.length < s.heavy.length := Nat.mod_lt _ (List.length_pos_iff.mpr hh)
  unfold pass at e
  simp only [] at e
  generalize hb1e : s.heavy.getD (c.r1 % s.heavy.length) 0 = b1 at e
  have hb1 : b1 < s.numBins := by
    apply hH.heavy_lt
    rw [← hb1e]; simp only [List.getD, List.getElem?_eq_getElem hix]; exact List.getElem_mem _
  have same : Out.ok s = Out.ok s' → Held s' t ∧ Heavy s' ∧ Same s s' := by
    intro e; injection e with e; subst e; exact ⟨h, hH, Same.refl s⟩
  by_cases hpos : (s.bins b1).light.length > 0
  · rw [if_pos hpos] at e
    have hix2 := Nat.mod_lt c.r2 hpos
    generalize hb2e : (s.bins b1).light.getD (c.r2 % (s.bins b1).light.length) 0 = b2 at e
    have hb2 : b2 < s.numBins := by
      apply h.light b1
      rw [← hb2e]; simp only [List.getD, List.getElem?_eq_getElem hix2]; exact List.getElem_mem _
    by_cases hlt : (s.bins b2).cnt < (s.bins b1).cnt
    · rw [if_pos hlt] at e
      split at e
      · split at e
        · simp at e
        · exact same e
        · rename_i a l hl
          injection e with e
          subst e
          obtain ⟨m1, m2, m3⟩ := held_move h hH (i2 := c.r2 % (s.bins b1).light.length) (r4 := c.r4)
            hb1 hb2 hlt hl (by simp)
          obtain ⟨n1, n2, n3⟩ := held_iters m1 m2 ((move s b1 b2 (c.r2 % (s.bins b1).light.length) (a :: l) c.r4).numIters + 1)
          exact ⟨n1, n2, m3.trans n3⟩
      · injection e with e
        subst e
        exact held_iters h hH _
    · rw [if_neg hlt] at e
      exact same e
  · rw [if_neg hpos] at e
    exact same e

theorem held_balance (cs : List Choice) : ∀ {s s' : Bal} {t : Nat}, Held s t → Heavy s →
    balance s cs = .ok (some s') → Held s' t ∧ s'.heavy = [] ∧ Same s s' ∧
      ∀ b, b < s'.numBins → (s'.bins b).cnt ≤ s'.maxBin := by
  have done : ∀ {s s' : Bal} {t : Nat}, Held s t → Heavy s → s.heavy = [] → Out.ok (some s) = Out.ok (some s') →
      Held s' t ∧ s'.heavy = [] ∧ Same s s' ∧ ∀ b, b < s'.numBins → (s'.bins b).cnt ≤ s'.maxBin := by
    intro s s' t h hH he e
    injection e with e
    injection e with e
    subst e
    refine ⟨h, he, Same.refl s, fun b hb => Nat.le_of_not_lt fun hm => ?_⟩
    have := hH.heavy b hb hm
    rw [he] at this; simp at this
  induction cs with
  | nil =>
    intro s s' t h hH e
    unfold balance at e
    by_cases he : s.heavy = []
    · rw [if_pos he] at e; exact done h hH he e
    · rw [if_neg he] at e; simp at e
  | cons c cs ih =>
    intro s s' t h hH e
    unfold balance at e
    by_cases he : s.heavy = []
    · rw [if_pos he] at e; exact done h hH he e
    · rw [if_neg he] at e
      cases hp : pass s c with
      | ok s1 =>
        rw [hp] at e
        obtain ⟨h1, h2, h3⟩ := held_pass h hH he hp
        obtain ⟨g1, g2, g3, g4⟩ := ih h1 h2 e
        exact ⟨g1, g2, h3.trans g3, g4⟩
      | throw => rw [hp] at e; simp [Out.bind] at e
      | ub => rw [hp] at e; simp [Out.bind] at e

theorem sumTo_le {nb : Nat} {f : Nat → Nat} {m : Nat} (h : ∀ b, b < nb → f b ≤ m) : sumTo nb f ≤ nb * m := by
  induction nb with
  | zero => simp [sumTo]
  | succ nb ih =>
    rw [sumTo_succ, Nat.succ_mul]
    have := ih fun b hb => h b (by omega)
    have := h nb (by omega)
    omega

/-- One `insertItems`, on a table with `t` items. -/
theorem held_insert {aes : Block → Block} {ord : Values → Values} (hord : ∀ v, (ord v).Perm v) {s s' : Bal} {t : Nat}
    (h : Held s t) (hh : s.heavy = []) {items : List Block} {cs : List Choice}
    (e : insertItems aes ord s items cs = .ok (some s')) :
    Held s' (t + items.length) ∧ s'.heavy = [] ∧ s'.numBins = s.numBins ∧ s'.maxBin = s.maxBin ∧
      t + items.length ≤ s.numBins * s.maxBin ∧
      ∀ b, b < s.numBins → ∃ es : List Item, es.length = (s'.bins b).cnt ∧
        (s'.bins b).blks = (s.bins b).blks ++ es.map (fun x =>
          if x.1 = 0 then items.getD x.2 0 else items.getD x.2 0 ^^^ oneBlock) ∧
        (s'.bins b).idxs = (s.bins b).idxs ++ es.map (·.2) ∧
        (s'.bins b).hashIdxs = (s.bins b).hashIdxs ++ es.map fun x => x.1 % 256 := by
  unfold insertItems at e
  have hp := h.pos
  rw [if_neg (by rintro ⟨_, h0⟩; omega)] at e
  obtain ⟨a1, a2, a3⟩ := held_loop aes items 0 h
  obtain ⟨b1, b2, b3⟩ := held_classify hord a1 (a3.trans hh)
  cases hb : balance (classify ord (firstLoop aes s 0 items)) cs with
  | ok r =>
    rw [hb] at e
    simp only [Out.bind, Out.ok.injEq] at e
    cases r with
    | none => simp at e
    | some s1 =>
      simp only [Option.map_some, Option.some.injEq] at e
      subst e
      obtain ⟨c1, c2, c3, c4⟩ := held_balance cs b1 b2 hb
      have hS := (a2.trans b3).trans c3
      have hbin : ∀ b, ∃ y, (if b < s1.numBins then output ord items (s1.bins b) else s1.bins b) = y ∧
          y.cnt = (s1.bins b).cnt ∧ y.values = (s1.bins b).values ∧ y.light = (s1.bins b).light := by
        intro b
        split
        · exact ⟨_, rfl, rfl, rfl, rfl⟩
        · exact ⟨_, rfl, rfl, rfl, rfl⟩
      refine ⟨⟨c1.pos, ?_, ?_, ?_, ?_⟩, c2, hS.nb, hS.mx, ?_, ?_⟩
      · rw [← c1.sum]
        refine sumTo_congr fun b _ => ?_
        obtain ⟨y, e1, e2, _⟩ := hbin b
        simp only [e1, e2]
      · intro b
        obtain ⟨y, e1, e2, e3, _⟩ := hbin b
        simp only [e1, e2, e3]
        exact c1.cnt b
      · intro b k hk
        obtain ⟨y, e1, e2, e3, _⟩ := hbin b
        simp only [e1, e3] at hk
        exact c1.keys b k hk
      · intro b k hk
        obtain ⟨y, e1, e2, _, e3⟩ := hbin b
        simp only [e1, e3] at hk
        exact c1.light b k hk
      · have := sumTo_le (f := fun b => (s1.bins b).cnt) c4
        rw [c1.sum, hS.nb, hS.mx] at this
        exact this
      · intro b hlt
        simp only [if_pos (show b < s1.numBins by rw [hS.nb]; exact hlt)]
        refine ⟨(ord (s1.bins b).values).flatMap (·.2), ?_, ?_, ?_, ?_⟩
        · show _ = (s1.bins b).cnt
          rw [c1.cnt b]
          exact ((hord _).flatMap_right _).length_eq
        · show (s1.bins b).blks ++ _ = _
          rw [(hS.outs b).1]
        · show (s1.bins b).idxs ++ _ = _
          rw [(hS.outs b).2.1]
        · show (s1.bins b).hashIdxs ++ _ = _
          rw [(hS.outs b).2.2]
  | throw => rw [hb] at e; simp [Out.bind] at e
  | ub => rw [hb] at e; simp [Out.bind] at e

theorem held_init {inputSize maxBin d : Nat} {s : Bal} (h : Balanced.init inputSize maxBin d = .ok s) :
    Held s 0 ∧ s.heavy = [] := by
  obtain ⟨h1, h2, h3, h4⟩ := init_ok h
  refine ⟨⟨h1, ?_, ?_, ?_, ?_⟩, h3⟩
  · have : ∀ n, sumTo n (fun b => (s.bins b).cnt) = 0 := by
      intro n
      induction n with
      | zero => rfl
      | succ n ih => rw [sumTo_succ, ih, h4]; rfl
    exact this _
  · intro b; rw [h4]; rfl
  · intro b k hk; rw [h4] at hk; simp [emptyBin] at hk
  · intro b k hk; rw [h4] at hk; simp [emptyBin] at hk

/-- `init` keeps what is in the table. -/
theorem held_reinit {old s : Bal} {t inputSize maxBin d : Nat} (h : Held old t)
    (e : balReinit old inputSize maxBin d = .ok s) (hnb : old.numBins ≤ s.numBins) :
    Held s t ∧ s.heavy = [] ∧ s.maxBin = maxBin ∧ (∀ b, b < old.numBins → s.bins b = old.bins b) := by
  unfold balReinit at e
  simp only at e
  split at e
  · simp at e
  · injection e with e
    have hbin : ∀ b, s.bins b = if b < old.numBins then old.bins b else emptyBin := by
      intro b; rw [← e]
    refine ⟨⟨?_, ?_, ?_, ?_, ?_⟩, by rw [← e], by rw [← e], fun b hb => by rw [hbin, if_pos hb]⟩
    · have := h.pos; omega
    · have : ∀ k, sumTo (old.numBins + k) (fun b => (s.bins b).cnt) = t := by
        intro k
        induction k with
        | zero =>
          rw [Nat.add_zero, ← h.sum]
          exact sumTo_congr fun b hb => by rw [hbin, if_pos hb]
        | succ k ih =>
          rw [← Nat.add_assoc, sumTo_succ, ih, hbin, if_neg (by omega)]
          rfl
      rw [show s.numBins = old.numBins + (s.numBins - old.numBins) by omega]
      exact this _
    · intro b
      rw [hbin]
      split
      · exact h.cnt b
      · rfl
    · intro b k hk
      rw [hbin] at hk
      split at hk
      · have := h.keys b k hk; omega
      · simp [emptyBin] at hk
    · intro b k hk
      rw [hbin] at hk
      split at hk
      · have := h.light b k hk; omega
      · simp [emptyBin] at hk

end Verif.ReuseRun
