import Verif.OrderProps
import Verif.Rr17aViewProps
import Verif.Rr17bViewProps
import Verif.Grr18PlaceProps
import Verif.PrtyOrderProps
/-
Property C122 for RR17a, RR17b, GRR18 and PRTY.
-/
namespace Verif.Order
open Verif

/-! ### GRR18 -/

theorem filter_range_lt (n : Nat) (p : Nat → Bool) (i i' : Nat) (hi : i < n) (hi' : i' < n) (hp : p i = true) (hp' : p i' = true) (h : i < i') :
    ∃ k k' : Nat, k < k' ∧ ((List.range n).filter p)[k]? = some i ∧ ((List.range n).filter p)[k']? = some i' := by
  have hs : ((List.range n).filter p).Pairwise (fun a b : Nat => a < b) := List.pairwise_lt_range.filter _
  obtain ⟨k, hk, e⟩ := List.mem_iff_getElem.mp (List.mem_filter.mpr ⟨List.mem_range.mpr hi, hp⟩)
  obtain ⟨k', hk', e'⟩ := List.mem_iff_getElem.mp (List.mem_filter.mpr ⟨List.mem_range.mpr hi', hp'⟩)
  refine ⟨k, k', ?_, List.getElem?_eq_some_iff.mpr ⟨hk, e⟩, List.getElem?_eq_some_iff.mpr ⟨hk', e'⟩⟩
  by_contra hn
  rcases Nat.lt_or_ge k' k with hlt | hge
  · have := (List.pairwise_iff_getElem.mp hs) k' k hk' hk hlt
    omega
  · have : k = k' := by omega
    subst this
    omega

/-- C122, negation, GRR18: if the sender's bins are filled in the order of its list (one thread), the receiver recognises the earlier one of two
common elements of a bin in an earlier row. -/
theorem C122_grr18 {c : Rr17.Cfg} {hash : Option (Block → Block)} {X Y : List Block} {sbins rbins : Nat → List Nat} {sLoad rOwn : Nat → Nat}
    {s : Grr18.Sched} (h : Grr18.Run c hash X Y sbins rbins sLoad rOwn s) (buf : List Nat)
    (hbuf : Grr18.runBuffer c hash X sbins sLoad rOwn s = .ok buf) (b : Nat) (hb : b < c.B)
    (hlist : sbins b = (List.range c.N).filter fun i => Rr17.addr c.B ((Rr17.hashed hash X).getD i 0) == b)
    (i i' j j' : Nat) (hi : i < X.length) (hi' : i' < X.length) (hj : j < Y.length) (hj' : j' < Y.length) (hij : X[i] = Y[j]) (hij' : X[i'] = Y[j'])
    (hbi : i ∈ sbins b) (hbi' : i' ∈ sbins b) (hlt : i < i') :
    ∃ r r', r < r' ∧ Grr18.Seen c (Grr18.runEntries c hash Y rbins sLoad rOwn s) buf r j ∧
      Grr18.Seen c (Grr18.runEntries c hash Y rbins sLoad rOwn s) buf r' j' := by
  have hbm : b ∈ (List.range c.T).flatMap c.binsOf := by
    rw [Rr17.binsOf_flatMap c h.T h.ov]; exact List.mem_range.mpr hb
  obtain ⟨t, ht, hbt⟩ := List.mem_flatMap.mp hbm
  obtain ⟨o1, o2, ho⟩ := List.append_of_mem (h.ord.mem_iff.mpr ht)
  rw [hlist] at hbi hbi'
  obtain ⟨h1, h2⟩ := List.mem_filter.mp hbi
  obtain ⟨h3, h4⟩ := List.mem_filter.mp hbi'
  obtain ⟨k, k', hk, e, e'⟩ := filter_range_lt c.N (fun i => Rr17.addr c.B ((Rr17.hashed hash X).getD i 0) == b) i i' (List.mem_range.mp h1) (List.mem_range.mp h3) h2 h4 hlt
  rw [← hlist] at e e'
  obtain ⟨l, hl, _, hs⟩ := Grr18.C123_found h buf hbuf o1 o2 t ho b k i j hbt e hi hj hij
  obtain ⟨l', hl', _, hs'⟩ := Grr18.C123_found h buf hbuf o1 o2 t ho b k' i' j' hbt e' hi' hj' hij'
  refine ⟨_, _, ?_, hs, hs'⟩
  have : (k + 1) * max (rOwn b) (sLoad b) ≤ k' * max (rOwn b) (sLoad b) := Nat.mul_le_mul_right _ hk
  rw [Nat.succ_mul] at this
  omega

/-! ### PRTY -/

/-- C122, negation, PRTY `output`: of two elements of a bin the earlier one in the list has the earlier mask. -/
theorem C122_prty_output (hash : Nat → Block → Nat) (mask : Nat → Nat → Block → Block) (nb : Nat) (xs : List Block) (h : Nat) (hh : h < 2)
    (i k : Nat) (x y : Block) (hx : xs[i]? = some x) (hy : xs[k]? = some y) (hb : hash h x < nb) (hxy : hash h y = hash h x) (hik : i < k) :
    ∃ p q : Nat, p < q ∧ (PrtyOrder.outputOrder hash mask nb xs h)[p]? = some (mask (hash h x) h x) ∧
      (PrtyOrder.outputOrder hash mask nb xs h)[q]? = some (mask (hash h y) h y) := by
  refine ⟨_, _, ?_, PrtyOrder.C143_place hash mask nb xs h hh i x hx hb, PrtyOrder.C143_place hash mask nb xs h hh k y hy (by omega)⟩
  unfold PrtyOrder.place
  rw [hxy]
  have e : xs.take k = xs.take i ++ (xs.take k).drop i := by
    conv_lhs => rw [← List.take_append_drop i (xs.take k)]
    rw [List.take_take, Nat.min_eq_left (by omega)]
  have hm : x ∈ (xs.take k).drop i := by
    have h1 : ((xs.take k).drop i)[0]? = some x := by
      rw [List.getElem?_drop, List.getElem?_take_of_lt (by omega)]
      simpa using hx
    exact List.mem_of_getElem? h1
  have : 0 < ((xs.take k).drop i).countP fun z => decide (hash h z = hash h x) :=
    List.countP_pos_iff.mpr ⟨x, hm, by simp⟩
  rw [e, List.countP_append]
  omega

/-- C122, PRTY `outputBestComm` and `outputBigPoly`: what is sent is the same for all orders of the list. -/
theorem C122_prty_sorted (hash : Nat → Block → Nat) (mask : Nat → Nat → Block → Block) (nb h n : Nat) (srt : List Block → List Block)
    (hs : ∀ l, PrtyOrder.SortOf l (srt l)) : OrderHidden n fun S => srt (PrtyOrder.outputOrder hash mask nb S h) := by
  intro s σ
  exact PrtyOrder.C143_sorted_list hash mask nb _ _ h (Equiv.Perm.ofFn_comp_perm σ s) _ _ (hs _) (hs _)

/-! ### RR17b -/

/-- C122, RR17b, if the number of threads divides the number of bins: with a uniformly random order of the records and random opening values the
buffer has the same distribution for all orders of the list. `place` says how the bins of a list are filled. -/
theorem C122_rr17b_partial (c : Rr17b.Cfg Nat) (g : Rr17b.Pt → Nat) (ot : Block → Block) (f : Block → Nat) (hT : 0 < c.T) (hd : c.T ∣ c.B)
    (hov : (c.B + c.T) * c.T < 2 ^ 64) (place : List Block → Nat → List Nat) (s : Fin c.N → Block) (τ : Equiv.Perm (Fin c.N))
    (hp : Rr17b.Placed c (fun i => f ((List.ofFn s).getD i 0)) (place (List.ofFn s)))
    (hp' : Rr17b.Placed c (fun i => f ((List.ofFn fun i => s (τ i)).getD i 0)) (place (List.ofFn fun i => s (τ i)))) :
    let dist := fun X : List Block => (PMF.uniformOfFintype (Equiv.Perm (Fin c.N) × (Fin c.N → Fin (2 ^ 128)))).map fun ρ =>
      Rr17b.buffer ((List.range c.T).flatMap (Rr17b.threadStores (Rr17b.withRandom c g) X ot
        (fun i => if h : i < c.N then BitVec.ofFin (ρ.2 ⟨i, h⟩) else 0) (Rr17.permList ρ.1) (place X)))
    dist (List.ofFn fun i => s (τ i)) = dist (List.ofFn s) := by
  intro dist
  let e : (Equiv.Perm (Fin c.N) × (Fin c.N → Fin (2 ^ 128))) ≃ (Equiv.Perm (Fin c.N) × (Fin c.N → Fin (2 ^ 128))) :=
    { toFun := fun r => (r.1 * τ⁻¹, fun a => r.2 (τ⁻¹ a))
      invFun := fun r => (r.1 * τ, fun a => r.2 (τ a))
      left_inv := by intro r; ext <;> simp
      right_inv := by intro r; ext <;> simp }
  refine Dkt.uniform_map_comp e _ _ fun ρ => ?_
  refine Rr17b.C146_order c g _ _ ot f _ _ _ _ _ _ hT hd hov hp hp' (Rr17.permList_perm _) (Rr17.permList_perm _) τ fun i => ?_
  refine ⟨by simp [List.getD], by simp [e], ?_⟩
  simp [List.getD, Rr17.permList_get, e]

/-! ### RR17a -/

section
open Rr17
variable {c : Cfg} {xs xs' : List Block} {bins bins' : Nat → List Nat} {sched sched' : List Nat}

/-- The shuffles of the bins can be matched such that every element gets the same OT in both orders of the list. -/
theorem shuffle_reorder (hT : 0 < c.T) (hov : c.B * c.T < 2 ^ 64) (h : Sender c xs bins sched) (h' : Sender c xs' bins' sched')
    (τ : Equiv.Perm (Fin c.N)) (hx : ∀ i : Fin c.N, xs'.getD i 0 = xs.getD (τ i) 0) (hb : ∀ b, b < c.B → ∀ i : Fin c.N, (i : Nat) ∈ bins' b ↔ (τ i : Nat) ∈ bins b) :
    ∃ δ : Fin c.B → Equiv.Perm (Fin c.M), ∀ (ρ : Fin c.B → Equiv.Perm (Fin c.M)) (i : Fin c.N),
      (senderMasks c xs' bins' (binPerms fun b => δ b * ρ b)).getD i 0 = (senderMasks c xs bins (binPerms ρ)).getD (τ i) 0 := by
  have hδ : ∀ b : Fin c.B, ∃ δ : Equiv.Perm (Fin c.M), ∀ (i : Fin c.N) (p p' : Nat), (bins b)[p]? = some (τ i : Nat) → (bins' b)[p']? = some (i : Nat) →
      ∃ (hp : p < c.M) (hp' : p' < c.M), δ ⟨p, hp⟩ = ⟨p', hp'⟩ := by
    intro b
    have hn : (bins b).Nodup := List.Nodup.of_map _ (h.distinct b b.2)
    have hn' : (bins' b).Nodup := List.Nodup.of_map _ (h'.distinct b b.2)
    have hlt : ∀ {p i : Nat}, (bins b)[p]? = some i → p < c.M := fun e =>
      (List.getElem?_eq_some_iff.mp e).1.trans_le (h.cap b b.2)
    have hlt' : ∀ {p i : Nat}, (bins' b)[p]? = some i → p < c.M := fun e =>
      (List.getElem?_eq_some_iff.mp e).1.trans_le (h'.cap b b.2)
    let ι := {w : Fin c.N × Nat × Nat // (bins b)[w.2.1]? = some (τ w.1 : Nat) ∧ (bins' b)[w.2.2]? = some (w.1 : Nat)}
    have huniq : ∀ (l : List Nat), l.Nodup → ∀ {p q i : Nat}, l[p]? = some i → l[q]? = some i → p = q := by
      intro l hl p q i e1 e2
      obtain ⟨a1, a2⟩ := List.getElem?_eq_some_iff.mp e1
      obtain ⟨b1, b2⟩ := List.getElem?_eq_some_iff.mp e2
      exact (hl.getElem_inj_iff).mp (a2.trans b2.symm)
    obtain ⟨δ, hδ⟩ := exists_perm (fun w : ι => (⟨w.1.2.1, hlt w.2.1⟩ : Fin c.M)) (fun w : ι => ⟨w.1.2.2, hlt' w.2.2⟩)
      (by
        rintro ⟨⟨i, p, p'⟩, h1, h2⟩ ⟨⟨j, q, q'⟩, h3, h4⟩ e
        simp only [Fin.mk.injEq] at e
        simp only at h1 h2 h3 h4
        subst e
        have e : i = j := τ.injective (Fin.ext (Option.some.inj (h1.symm.trans h3)))
        subst e
        have e := huniq _ hn' h2 h4
        subst e
        rfl)
      (by
        rintro ⟨⟨i, p, p'⟩, h1, h2⟩ ⟨⟨j, q, q'⟩, h3, h4⟩ e
        simp only [Fin.mk.injEq] at e
        simp only at h1 h2 h3 h4
        subst e
        have e : i = j := Fin.ext (Option.some.inj (h2.symm.trans h4))
        subst e
        have e := huniq _ hn h1 h3
        subst e
        rfl)
    exact ⟨δ, fun i p p' e1 e2 => ⟨hlt e1, hlt' e2, hδ ⟨(i, p, p'), e1, e2⟩⟩⟩
  obtain ⟨δ, hδ⟩ := Classical.axiomOfChoice hδ
  refine ⟨δ, fun ρ i => ?_⟩
  obtain ⟨t, b, ha'⟩ := at_exists hT hov h' i.2
  have hbB := binsOf_lt hT hov ha'.1 ha'.2.1
  have ha : At c bins (τ i) t b := ⟨ha'.1, ha'.2.1, (hb b hbB i).mp ha'.2.2⟩
  obtain ⟨p, hp⟩ := List.mem_iff_getElem?.mp ha.2.2
  obtain ⟨p', hp'⟩ := List.mem_iff_getElem?.mp ha'.2.2
  obtain ⟨hpM, hpM', e⟩ := hδ ⟨b, hbB⟩ i p p' hp hp'
  have hperm : ∀ (ρ : Fin c.B → Equiv.Perm (Fin c.M)) b, b < c.B → (binPerms ρ b).Perm (List.range c.M) := by
    intro ρ b hb
    unfold binPerms
    rw [dif_pos hb]
    exact permList_perm _
  let o := (ρ ⟨b, hbB⟩).symm ⟨p, hpM⟩
  have ho : (binPerms ρ b)[(o : Nat)]? = some p := by
    unfold binPerms
    rw [dif_pos hbB, permList_get]
    simp only [o, Equiv.apply_symm_apply]
  have ho' : (binPerms (fun b => δ b * ρ b) b)[(o : Nat)]? = some p' := by
    unfold binPerms
    rw [dif_pos hbB, permList_get, Equiv.Perm.mul_apply]
    simp only [o, Equiv.apply_symm_apply, e]
  rw [senderMasks_at hT hov h (hperm _) ha.1 ha.2.1 hp ho, senderMasks_at hT hov h' (hperm _) ha'.1 ha'.2.1 hp' ho', hx i]

/-- The shuffles can be matched such that the runs on two orders of the list give the same buffer, for all OT values. -/
theorem reorder_buffer (hT : 0 < c.T) (hov : c.B * c.T < 2 ^ 64) (h : Sender c xs bins sched) (h' : Sender c xs' bins' sched')
    (τ : Equiv.Perm (Fin c.N)) (hx : ∀ i : Fin c.N, xs'.getD i 0 = xs.getD (τ i) 0) (hb : ∀ b, b < c.B → ∀ i : Fin c.N, (i : Nat) ∈ bins' b ↔ (τ i : Nat) ∈ bins b) :
    ∃ (δ : Fin c.B → Equiv.Perm (Fin c.M)) (π : Equiv.Perm (Fin c.N)), ∀ (g : Nat × Nat × Block → Nat) (ρ : Fin c.B → Equiv.Perm (Fin c.M))
      (σ : Equiv.Perm (Fin c.N)), sendBuffer (withF2 c g) xs' bins' (binPerms fun b => δ b * ρ b) (permList (σ * π)) (sched'.foldl (sendStep bins') (sendStart c)) =
        sendBuffer (withF2 c g) xs bins (binPerms ρ) (permList σ) (sched.foldl (sendStep bins) (sendStart c)) := by
  obtain ⟨κ, hκ⟩ := row_perm hT hov h
  obtain ⟨κ', hκ'⟩ := row_perm hT hov h'
  obtain ⟨δ, hδ⟩ := shuffle_reorder hT hov h h' τ hx hb
  refine ⟨δ, κ * τ * κ'⁻¹, fun g ρ σ => ?_⟩
  have hch : ∀ i : Nat, ∃ p : Nat × Nat, i < c.N → At c bins i p.1 p.2 := by
    intro i
    by_cases hi : i < c.N
    · obtain ⟨t, b, hab⟩ := at_exists hT hov h hi
      exact ⟨(t, b), fun _ => hab⟩
    · exact ⟨(0, 0), fun h => absurd h hi⟩
  obtain ⟨w, hw⟩ := Classical.axiomOfChoice hch
  let ti : Nat → Nat := fun i => if hi : i < c.N then (τ ⟨i, hi⟩ : Nat) else i
  have hti : ∀ i : Fin c.N, ti i = τ i := fun i => by simp [ti]
  have hw' : ∀ i, i < c.N → At c bins' i (w (ti i)).1 (w (ti i)).2 := by
    intro i hi
    have := hw (ti i) (by rw [hti ⟨i, hi⟩]; exact (τ _).2)
    rw [hti ⟨i, hi⟩] at this ⊢
    exact ⟨this.1, this.2.1, (hb _ (binsOf_lt hT hov this.1 this.2.1) ⟨i, hi⟩).mpr this.2.2⟩
  have key := fun m => buffer_iff (perms := binPerms ρ) hT hov h (permList_perm σ) (fun i => (w i).1) (fun i => (w i).2) hw g m
  have key' := fun m => buffer_iff (perms := binPerms fun b => δ b * ρ b) hT hov h' (permList_perm (σ * (κ * τ * κ'⁻¹))) (fun i => (w (ti i)).1) (fun i => (w (ti i)).2) hw' g m
  obtain ⟨m, hm, -⟩ := sendBuffer_ok (c := withF2 c g) (perms := binPerms ρ) xs
    (slots_final (sInv_sched sched (sInv_start c bins)) h.done hT hov h.holds (permList_perm σ))
  have hm : sendBuffer (withF2 c g) xs bins (binPerms ρ) (permList σ) (sched.foldl (sendStep bins) (sendStart c)) = .ok m := hm
  rw [hm]
  refine ((key' m).mpr ⟨((key m).mp hm).1, fun i l s hi hl hrow => ?_⟩)
  have hrow2 : RowOf c bins (permList σ) sched (τ ⟨i, hi⟩) l s := by
    rw [hκ'] at hrow
    obtain ⟨_, hl, rfl⟩ := hrow
    rw [hκ]
    refine ⟨(τ _).2, hl, ?_⟩
    simp
  have := ((key m).mp hm).2 _ l s (τ ⟨i, hi⟩).2 hl hrow2
  rw [this]
  simp only [hti ⟨i, hi⟩]
  have hd := hδ ρ ⟨i, hi⟩
  rw [hx ⟨i, hi⟩, hd]

/-- C122, RR17a: for all OT values, with uniformly random shuffles of the bins and of the masks the buffer has the same distribution for two orders of
the list, however the bins are filled and the threads scheduled. -/
theorem C122_rr17a_partial (hT : 0 < c.T) (hov : c.B * c.T < 2 ^ 64) (h : Sender c xs bins sched) (h' : Sender c xs' bins' sched')
    (τ : Equiv.Perm (Fin c.N)) (hx : ∀ i : Fin c.N, xs'.getD i 0 = xs.getD (τ i) 0) (hb : ∀ b (i : Fin c.N), (i : Nat) ∈ bins' b ↔ (τ i : Nat) ∈ bins b) :
    let dist := fun (xs : List Block) (bins : Nat → List Nat) (sched : List Nat) =>
      (PMF.uniformOfFintype ((Fin c.B → Equiv.Perm (Fin c.M)) × Equiv.Perm (Fin c.N))).map fun r =>
        sendBuffer c xs bins (binPerms r.1) (permList r.2) (sched.foldl (sendStep bins) (sendStart c))
    dist xs' bins' sched' = dist xs bins sched := by
  intro dist
  obtain ⟨δ, π, hδ⟩ := reorder_buffer hT hov h h' τ hx fun b _ i => hb b i
  let e : ((Fin c.B → Equiv.Perm (Fin c.M)) × Equiv.Perm (Fin c.N)) ≃ ((Fin c.B → Equiv.Perm (Fin c.M)) × Equiv.Perm (Fin c.N)) :=
    Equiv.prodCongr (Equiv.piCongrRight fun b => Equiv.mulLeft (δ b)) (Equiv.mulRight π)
  refine (Dkt.uniform_map_comp e _ _ fun r => ?_).symm
  let g : Nat × Nat × Block → Nat := fun p => (c.F2 p.1 p.2.1 p.2.2).toNat
  have hg : withF2 c g = c := by
    unfold withF2
    have : (fun t k x => BitVec.ofNat 128 (g (t, k, x))) = c.F2 := by
      funext t k x; simp [g]
    rw [this]
  have := hδ g r.1 r.2
  rw [hg] at this
  exact this.symm
end

/-! ### non-vacuity -/

/-- PRTY: 6 and 2 are in the same bin; their masks are in the order of the list, after sorting they are not. -/
example : PrtyOrder.outputOrder PrtyOrder.exHash PrtyOrder.exMask 4 [6, 2] 0 = [6020, 2020] ∧
    PrtyOrder.outputOrder PrtyOrder.exHash PrtyOrder.exMask 4 [2, 6] 0 = [2020, 6020] := by decide +kernel

/-- RR17a: two orders of a list as assumed. -/
example : let c : Rr17.Cfg := ⟨2, 2, 2, 1, 8, fun _ _ x => x, fun _ _ x => x⟩
    let bins : Nat → List Nat := fun b => [[0], [1]].getD b []
    let bins' : Nat → List Nat := fun b => [[1], [0]].getD b []
    let τ : Equiv.Perm (Fin c.N) := Equiv.swap 0 1
    Rr17.Sender c [4, 9] bins [0, 0] ∧ Rr17.Sender c [9, 4] bins' [0, 0] ∧
      (∀ i : Fin c.N, ([9, 4] : List Block).getD i 0 = ([4, 9] : List Block).getD (τ i) 0) ∧
      ∀ b, ∀ i : Fin c.N, (i : Nat) ∈ bins' b ↔ (τ i : Nat) ∈ bins b := by
  intro c bins bins' τ
  refine ⟨⟨by decide, by decide, by decide, by decide⟩, ⟨by decide, by decide, by decide, by decide⟩, ?_, ?_⟩
  · show ∀ i : Fin 2, ([9, 4] : List Block).getD i 0 = ([4, 9] : List Block).getD (Equiv.swap (0 : Fin 2) 1 i) 0
    decide
  · intro b
    rcases b with _ | _ | b
    · show ∀ i : Fin 2, (i : Nat) ∈ [1] ↔ (Equiv.swap (0 : Fin 2) 1 i : Nat) ∈ [0]
      decide
    · show ∀ i : Fin 2, (i : Nat) ∈ [0] ↔ (Equiv.swap (0 : Fin 2) 1 i : Nat) ∈ [1]
      decide
    · intro i
      simp [bins, bins']

/-- GRR18: the common elements 4 and 7 are in bin 1, in this order. -/
def grBins : Nat → List Nat := fun b => [[], [0, 1], []].getD b []

theorem grRun : Grr18.Run Grr18.plCfg none [4#128, 7#128] [7#128, 4#128] grBins grBins (fun _ => 2) (fun _ => 1) Grr18.plSched := by
  have h2 : ∀ b, b < 3 → b = 0 ∨ b = 1 ∨ b = 2 := by omega
  refine ⟨by decide, by decide, by decide, by decide, by decide, ⟨rfl, ?_, ?_⟩, ⟨rfl, ?_, ?_⟩, ?_, ?_, ?_, ?_, ?_,
    by decide, fun l => List.Perm.refl l, fun l => List.Perm.refl l, by decide, by decide⟩ <;>
  · intro b hb
    rcases h2 b hb with rfl | rfl | rfl <;> decide

example : ∃ buf r r', Grr18.runBuffer Grr18.plCfg none [4#128, 7#128] grBins (fun _ => 2) (fun _ => 1) Grr18.plSched = .ok buf ∧ r < r' ∧
    Grr18.Seen Grr18.plCfg (Grr18.runEntries Grr18.plCfg none [7#128, 4#128] grBins (fun _ => 2) (fun _ => 1) Grr18.plSched) buf r 1 ∧
    Grr18.Seen Grr18.plCfg (Grr18.runEntries Grr18.plCfg none [7#128, 4#128] grBins (fun _ => 2) (fun _ => 1) Grr18.plSched) buf r' 0 := by
  have hb : Grr18.runBuffer Grr18.plCfg none [4#128, 7#128] grBins (fun _ => 2) (fun _ => 1) Grr18.plSched =
      .ok (Grr18.plBuf [4#128, 7#128] grBins) := by decide +kernel
  obtain ⟨r, r', h⟩ := C122_grr18 grRun _ hb 1 (by decide) (by decide +kernel) 0 1 1 0 (by decide) (by decide) (by decide) (by decide) rfl rfl
    (by decide) (by decide) (by decide)
  exact ⟨_, r, r', hb, h⟩

end Verif.Order
