import Verif.PrtyRunModel
import Verif.PrtyRunSpec
import Verif.PrtyDeltaProps
import Verif.PrtyOrderProps
import Verif.PrtyViewProps
import Verif.EcdhLemmas
/-
Property C160: PRTY reports exactly the common items unless masks are alike by accident.
-/
namespace Verif.PrtyRun
open Verif PrtyDelta PrtyView PrtyOrder

/-! ### Lemmas -/

theorem same_refl (h : Nat) (x : Block) : SameBytes h x x := fun _ _ => rfl

theorem memory_holds (buf : List Byte) (behind : Nat → Byte) : Holds (memory buf behind) buf := by
  intro i hi
  unfold memory
  rw [if_pos hi, List.getElem?_eq_getElem hi, List.getD_eq_getElem?_getD, List.getElem?_eq_getElem hi]
  rfl

theorem escapes_zero (h : Nat) (P : Block → Prop) (hP : ∀ x y, P x → P y → ¬ Escaped h x y) : ∀ (rest : List Block) (g : Block),
    P g → (∀ x ∈ rest, P x) → escapes h g rest = 0 := by
  intro rest
  induction rest with
  | nil => intro g _ _; rfl
  | cons b rest ih =>
    intro g hg hr
    have hb := hr b (List.mem_cons_self ..)
    rw [escapes, if_neg (hP g b hg hb), ih b hb fun x hx => hr x (List.mem_cons_of_mem _ hx)]

/-- One message. -/
theorem one_msg {h n cap : Nat} (hh : 4 ≤ h) (hhn : h ≤ n) (hn : n ≤ 16) {mask : Block → Block} {S : List Block} {Q : List (Block × Nat)}
    (ha : NoAccident h n mask S (Q.map (·.1))) {ms : List (Block × Nat)} (hms : ms.Perm (Q.map fun p => (mask p.1, p.2)))
    {g : Block} {rest : List Block} (hd : (g :: rest).Nodup) (hS : ∀ m ∈ g :: rest, ∃ x ∈ S, m = mask x)
    (hroom : n + rest.length * h < cap) :
    ∃ buf, sendMsg h n cap g rest = .ok buf ∧ ∀ behind u i,
      i ∈ recvMsg h n (localMasks ms) buf behind u ↔ ∃ y ∈ S, (y, i) ∈ Q ∧ mask y ∈ g :: rest := by
  have he : escapes h g rest = 0 := by
    refine escapes_zero h (fun m => ∃ x ∈ S, m = mask x) ?_ rest g (hS g (List.mem_cons_self ..)) fun x hx => hS x (List.mem_cons_of_mem _ hx)
    rintro _ _ ⟨x, hx, rfl⟩ ⟨y, hy, rfl⟩
    exact ha.short x hx y hy
  have hu : used h n g rest < cap := by
    rw [used_eq h n (by omega), he]
    omega
  have hne : sendMsg h n cap g rest ≠ .ub := by
    rw [C81_sender_iff_partial h n cap (by omega), he]
    omega
  have hnd : NeighboursDiffer h (g :: rest) := by
    intro i x y hx hy hs
    obtain ⟨h1, e1⟩ := List.getElem?_eq_some_iff.mp hx
    obtain ⟨h2, e2⟩ := List.getElem?_eq_some_iff.mp hy
    obtain ⟨a, ha1, ha2⟩ := hS x (e1 ▸ List.getElem_mem h1)
    obtain ⟨b, hb1, hb2⟩ := hS y (e2 ▸ List.getElem_mem h2)
    refine ha.apart a ha1 b hb1 ?_ (ha2 ▸ hb2 ▸ hs)
    rintro rfl
    have := (List.Nodup.getElem_inj_iff hd (hi := h1) (hj := h2)).mp (by rw [e1, e2, ha2, hb2])
    omega
  obtain ⟨buf, hbuf⟩ : ∃ buf, sendMsg h n cap g rest = .ok buf := by
    by_cases hc : (bytes g n ++ pieces h n g rest).length ≤ cap
    · exact ⟨_, if_pos hc⟩
    · exact absurd (if_neg hc) hne
  refine ⟨buf, hbuf, fun behind u i => ⟨fun hi => ?_, ?_⟩⟩
  · obtain ⟨m, hm, hc⟩ := C80_sound h n cap (by omega) hhn hn g rest buf hbuf hnd (memory buf behind) (memory_holds buf behind) u.1 u.2 ms i hi
    obtain ⟨p, hp, e⟩ := List.mem_map.mp (hms.mem_iff.mp hm)
    simp only [Prod.mk.injEq] at e
    obtain ⟨rfl, rfl⟩ := e
    have hq : p.1 ∈ Q.map (·.1) := List.mem_map.mpr ⟨p, hp, rfl⟩
    rcases hc with ⟨x, hx, hs⟩ | hz
    · obtain ⟨a, ha1, rfl⟩ := hS x hx
      by_cases e : a = p.1
      · exact ⟨a, ha1, by rw [e]; exact hp, hx⟩
      · exact absurd hs (ha.cross a ha1 p.1 hq e)
    · exact absurd hz (ha.zero p.1 hq)
  · rintro ⟨y, hy, hq, hm⟩
    refine C80_complete_partial h n cap hh hhn hn g rest buf hbuf hu hnd (memory buf behind) (memory_holds buf behind) u.1 u.2 ms ?_
      (mask y) i hm (hms.mem_iff.mpr (List.mem_map.mpr ⟨_, hq, rfl⟩))
    have := ha.keys
    rw [List.map_map] at this
    refine ((hms.map fun p => p.1.setWidth 32).nodup_iff).mpr ?_
    rw [List.map_map]
    exact this

theorem zip_fst (R : List Block) : R.zipIdx.map (·.1) = R := by
  rw [← List.unzip_fst, List.unzip_zipIdx_eq_prod]

theorem zip_mem (R : List Block) (y : Block) (i : Nat) : (y, i) ∈ R.zipIdx ↔ R[i]? = some y := by
  rw [List.mem_zipIdx_iff_getElem?]

/-- Sorted masks of a set without accidents are different. -/
theorem sort_nodup {h n : Nat} {mask : Block → Block} {S Q s : List Block} (ha : NoAccident h n mask S Q) (hd : S.Nodup)
    (hs : SortOf (S.map mask) s) : s.Nodup := by
  refine hs.1.nodup_iff.mpr ((List.nodup_map_iff_inj_on hd).mpr ?_)
  intro x hx y hy e
  by_contra hne
  exact ha.apart x hx y hy hne (e ▸ same_refl h (mask x))

theorem sort_mem {mask : Block → Block} {S s : List Block} (hs : SortOf (S.map mask) s) {m : Block} (hm : m ∈ s) : ∃ x ∈ S, m = mask x := by
  obtain ⟨x, hx, e⟩ := List.mem_map.mp (hs.1.mem_iff.mp hm)
  exact ⟨x, hx, e.symm⟩

theorem seq_seq {α γ : Type} (T : Nat) (ch : Nat → List γ) (f : γ → Out α) (val : Nat → γ → α)
    (hv : ∀ t, t < T → ∀ c ∈ ch t, f c = .ok (val t c)) :
    Ecdh.seqOut (((List.range T).map fun t => (ch t).map f).map Ecdh.seqOut) = .ok ((List.range T).map fun t => (ch t).map (val t)) := by
  rw [List.map_map]
  refine Ecdh.seqOut_ok (List.range T) _ _ fun t ht => ?_
  show Ecdh.seqOut ((ch t).map f) = _
  exact Ecdh.seqOut_ok (ch t) f (val t) fun c hc => hv t (List.mem_range.mp ht) c hc

theorem getD_range {α : Type} (f : Nat → α) (d : α) {T t : Nat} (ht : t < T) : ((List.range T).map f).getD t d = f t := by
  rw [List.getD_eq_getElem?_getD, List.getElem?_map, List.getElem?_range ht]
  rfl

theorem getD_map {α β : Type} (f : α → β) (d : β) {l : List α} {k : Nat} {c : α} (hk : l[k]? = some c) : (l.map f).getD k d = f c := by
  rw [List.getD_eq_getElem?_getD, List.getElem?_map, hk]
  rfl

/-- The bytes of a message. -/
def content : Out (List Byte) → List Byte
  | .ok b => b
  | _ => []

/-! ### C160 -/

/-- C160, `outputBigPoly`: with at least two masks per thread and messages of at least `50 (n + 1) / h` differences, the receiver reports
exactly the common items unless masks are alike by accident, for any order of insertion and whatever is behind the received buffers. -/
theorem C160_big (step h n T : Nat) (hh : 4 ≤ h) (hhn : h ≤ n) (hn : n ≤ 16) (hst : 0 < step) (hT : 0 < T) (mask : Block → Block)
    (S R : List Block) (hd : S.Nodup) (hov : S.length * T < 2 ^ 64) (hN : 2 * T ≤ S.length) (ha : NoAccident h n mask S R)
    (hsize : ∀ t, t < T → ∀ c ∈ chunks step S.length T t, 50 * (n + 1) ≤ c.2 * h)
    (ms : List (Block × Nat)) (hms : ms.Perm (R.zipIdx.map fun p => (mask p.1, p.2))) (s : List Block) (hs : SortOf (S.map mask) s)
    (behind : Nat → Nat → Nat → Byte) (u : Nat → Nat → Block × Block) :
    ∃ out, runBig step h n T ms s behind u = .ok out ∧ Common S R out := by
  have hlen : s.length = S.length := by rw [hs.1.length_eq, List.length_map]
  have hnd := sort_nodup ha hd hs
  have hcov := C82_covered_partial step S.length T hst hT hov hN
  have inside : ∀ t, t < T → ∀ c ∈ chunks step S.length T t, c.1 + c.2 < s.length := by
    intro t ht c hc
    rw [hlen]
    refine (hcov _).mp ?_
    unfold sentMasks
    refine List.mem_flatMap.mpr ⟨t, List.mem_range.mpr ht, List.mem_flatMap.mpr ⟨c, hc, ?_⟩⟩
    exact List.mem_map.mpr ⟨c.2, List.mem_range.mpr (by omega), rfl⟩
  have msg : ∀ t, t < T → ∀ c ∈ chunks step S.length T t, ∃ buf, bigMsg h n s c = .ok buf ∧ ∀ behind u i,
      i ∈ recvMsg h n (localMasks ms) buf behind u ↔ ∃ y ∈ S, R[i]? = some y ∧ ∃ j ∈ chunkMasks c, s[j]? = some (mask y) := by
    intro t ht c hc
    have hin := inside t ht c hc
    have hsz := hsize t ht c hc
    have hl : s.getD c.1 0 :: (List.range c.2).map (fun k => s.getD (c.1 + k + 1) 0) = (s.drop c.1).take (c.2 + 1) := by
      apply List.ext_getElem?
      intro i
      rw [List.getElem?_take]
      by_cases hi : i < c.2 + 1
      · rw [if_pos hi, List.getElem?_drop, List.getElem?_eq_getElem (show c.1 + i < s.length by omega)]
        cases i with
        | zero =>
          rw [List.getElem?_cons_zero, List.getD_eq_getElem?_getD, List.getElem?_eq_getElem (show c.1 < s.length by omega)]
          rfl
        | succ i =>
          rw [List.getElem?_cons_succ, List.getElem?_map, List.getElem?_range (by omega)]
          simp only [Option.map_some]
          rw [List.getD_eq_getElem?_getD, List.getElem?_eq_getElem (show c.1 + i + 1 < s.length by omega)]
          rfl
      · rw [if_neg hi, List.getElem?_eq_none (by simp; omega)]
    have sub : List.Sublist ((s.drop c.1).take (c.2 + 1)) s := (List.take_sublist _ _).trans (List.drop_sublist _ _)
    have hlen' : ((List.range c.2).map fun k => s.getD (c.1 + k + 1) 0).length = c.2 := by simp
    obtain ⟨buf, h1, h2⟩ := one_msg (cap := capacity h c.2) hh hhn hn (Q := R.zipIdx) (by rw [zip_fst]; exact ha) hms
      (g := s.getD c.1 0) (rest := (List.range c.2).map fun k => s.getD (c.1 + k + 1) 0)
      (by rw [hl]; exact sub.nodup hnd) (by rw [hl]; exact fun m hm => sort_mem hs (sub.subset hm))
      (by rw [hlen']; unfold capacity; generalize c.2 * h = k at hsz ⊢; omega)
    refine ⟨buf, by unfold bigMsg; rw [if_pos hin]; exact h1, fun behind u i => (h2 behind u i).trans ?_⟩
    rw [hl]
    refine exists_congr fun y => and_congr_right fun _ => and_congr (zip_mem R y i) ?_
    rw [List.mem_iff_getElem?]
    constructor
    · rintro ⟨j, hj⟩
      rw [List.getElem?_take] at hj
      by_cases hi : j < c.2 + 1
      · rw [if_pos hi, List.getElem?_drop] at hj
        exact ⟨c.1 + j, List.mem_map.mpr ⟨j, List.mem_range.mpr hi, rfl⟩, hj⟩
      · rw [if_neg hi] at hj
        cases hj
    · rintro ⟨_, hc', e⟩
      obtain ⟨j, hj, rfl⟩ := List.mem_map.mp hc'
      refine ⟨j, ?_⟩
      rw [List.getElem?_take, if_pos (List.mem_range.mp hj), List.getElem?_drop]
      exact e
  obtain ⟨val, hv⟩ : ∃ val : Nat → Nat × Nat → List Byte, ∀ t c buf, bigMsg h n s c = .ok buf → val t c = buf :=
    ⟨fun _ c => content (bigMsg h n s c), fun _ c buf e => by show content (bigMsg h n s c) = buf; rw [e]; rfl⟩
  have hval : ∀ t, t < T → ∀ c ∈ chunks step S.length T t, bigMsg h n s c = .ok (val t c) := by
    intro t ht c hc
    obtain ⟨buf, h1, _⟩ := msg t ht c hc
    rw [hv t c buf h1, h1]
  have hrecv : ∀ t, t < T → ∀ c ∈ chunks step S.length T t, ∀ behind u i, i ∈ recvMsg h n (localMasks ms) (val t c) behind u ↔
      ∃ y ∈ S, R[i]? = some y ∧ ∃ j ∈ chunkMasks c, s[j]? = some (mask y) := by
    intro t ht c hc
    obtain ⟨buf, h1, h2⟩ := msg t ht c hc
    rw [hv t c buf h1]
    exact h2
  rw [← hlen] at hval hrecv
  unfold runBig bigMsgs
  have hcov : ∀ j, j < s.length → ∃ t, t < T ∧ ∃ c ∈ chunks step s.length T t, j ∈ chunkMasks c := by
    intro j hj
    have hm := (hcov j).mpr (by rw [← hlen]; exact hj)
    unfold sentMasks at hm
    rw [List.mem_flatMap] at hm
    obtain ⟨t, ht, hm⟩ := hm
    obtain ⟨c, hc, hjc⟩ := List.mem_flatMap.mp hm
    rw [← hlen] at hc
    exact ⟨t, List.mem_range.mp ht, c, hc, hjc⟩
  generalize chunks step s.length T = ch at hval hrecv hcov ⊢
  rw [seq_seq T ch (bigMsg h n s) val hval]
  refine ⟨_, rfl, fun i => ?_⟩
  have hget := fun t (ht : t < T) => getD_range (fun t => (ch t).map (val t)) [] ht
  have hget' := fun t k c (hk : (ch t)[k]? = some c) => getD_map (val t) [] hk
  rw [List.mem_flatMap]
  constructor
  · rintro ⟨t, ht, hi⟩
    have ht := List.mem_range.mp ht
    rw [hget t ht, List.mem_flatMap] at hi
    obtain ⟨k, hk, hi⟩ := hi
    rw [List.length_map] at hk
    have hk := List.mem_range.mp hk
    rw [hget' t k _ (List.getElem?_eq_getElem hk)] at hi
    obtain ⟨y, hy, hr, _⟩ := (hrecv t ht _ (List.getElem_mem hk) _ _ i).mp hi
    exact ⟨y, hr, hy⟩
  · rintro ⟨y, hr, hy⟩
    obtain ⟨j, hj, hje⟩ := List.getElem_of_mem (hs.1.mem_iff.mpr (List.mem_map.mpr ⟨y, hy, rfl⟩))
    obtain ⟨t, ht, c, hc, hjc⟩ := hcov j hj
    obtain ⟨k, hk, hke⟩ := List.getElem_of_mem hc
    refine ⟨t, List.mem_range.mpr ht, ?_⟩
    rw [hget t ht, List.mem_flatMap]
    refine ⟨k, List.mem_range.mpr (by rw [List.length_map]; exact hk), ?_⟩
    rw [hget' t k c (by rw [List.getElem?_eq_getElem hk, hke])]
    exact (hrecv t ht c hc _ _ i).mpr ⟨y, hy, hr, j, hjc, by rw [List.getElem?_eq_getElem hj, hje]⟩

/-- C160, `outputBestComm`: item `i` of the receiver is in the bin that hash function `sel i` gives (which C54 shows to be false for items
that were moved). With at least `50 (n + 1) / h - 50` items of the sender, the receiver reports exactly the common items unless masks are
alike by accident. -/
theorem C160_best (h n : Nat) (hh : 4 ≤ h) (hhn : h ≤ n) (hn : n ≤ 16) (hash : Nat → Block → Nat) (mask : Nat → Nat → Block → Block)
    (nb : Nat) (S R : List Block) (hd : S.Nodup) (hne : S ≠ []) (hsize : 50 * (n + 1) ≤ S.length * h + 50 * h)
    (sel : Nat → Nat) (hsel : ∀ i, sel i < 2)
    (ms : Nat → List (Block × Nat)) (s : Nat → List Block)
    (hb : ∀ k, k < 2 → ∀ x ∈ S, hash k x < nb)
    (ha : ∀ k, k < 2 → NoAccident h n (fun x => mask (hash k x) k x) S ((R.zipIdx.filter fun p => sel p.2 == k).map (·.1)))
    (hms : ∀ k, k < 2 → (ms k).Perm ((R.zipIdx.filter fun p => sel p.2 == k).map fun p => (mask (hash k p.1) k p.1, p.2)))
    (hs : ∀ k, k < 2 → SortOf (outputOrder hash mask nb S k) (s k)) (behind : Nat → Nat → Byte) (u : Nat → Block × Block) :
    ∃ out, runBest h n ms s behind u = .ok out ∧ Common S R out := by
  have key : ∀ k, k < 2 → ∃ buf, bestMsg h n (s k) = .ok buf ∧ ∀ behind u i,
      i ∈ recvMsg h n (localMasks (ms k)) buf behind u ↔ ∃ y ∈ S, R[i]? = some y ∧ sel i = k := by
    intro k hk
    have hsk : SortOf (S.map fun x => mask (hash k x) k x) (s k) :=
      ⟨(hs k hk).1.trans (PrtyView.order_map hash mask nb k hk S (hb k hk)), (hs k hk).2⟩
    have hlen : (s k).length = S.length := by rw [hsk.1.length_eq, List.length_map]
    have hnd := sort_nodup (ha k hk) hd hsk
    have hmem : ∀ m ∈ s k, ∃ x ∈ S, m = mask (hash k x) k x := fun m hm => sort_mem hsk hm
    have hin : ∀ y ∈ S, mask (hash k y) k y ∈ s k := fun y hy => hsk.1.mem_iff.mpr (List.mem_map.mpr ⟨y, hy, rfl⟩)
    generalize s k = sk at hlen hnd hmem hin ⊢
    cases sk with
    | nil => exact absurd (List.length_eq_zero_iff.mp hlen.symm) hne
    | cons g rest =>
      obtain ⟨buf, h1, h2⟩ := one_msg (cap := capacity h (g :: rest).length) hh hhn hn (ha k hk) (hms k hk) hnd hmem (by
        unfold capacity
        rw [← hlen] at hsize
        rw [List.length_cons, Nat.add_mul, Nat.one_mul] at hsize ⊢
        generalize rest.length * h = z at hsize ⊢
        omega)
      refine ⟨buf, h1, fun behind u i => (h2 behind u i).trans ?_⟩
      refine exists_congr fun y => and_congr_right fun hy => ?_
      rw [List.mem_filter, zip_mem, beq_iff_eq]
      exact ⟨fun h => h.1, fun h => ⟨h, hin y hy⟩⟩
  obtain ⟨b0, e0, h0⟩ := key 0 (by decide)
  obtain ⟨b1, e1, h1⟩ := key 1 (by decide)
  refine ⟨_, by unfold runBest; rw [e0, e1]; rfl, fun i => ?_⟩
  rw [List.mem_append, h0, h1]
  constructor
  · rintro (⟨y, hy, hr, _⟩ | ⟨y, hy, hr, _⟩) <;> exact ⟨y, hr, hy⟩
  · rintro ⟨y, hr, hy⟩
    have := hsel i
    rcases (show sel i = 0 ∨ sel i = 1 by omega) with e | e
    · exact .inl ⟨y, hy, hr, e⟩
    · exact .inr ⟨y, hy, hr, e⟩

/-! ### Examples -/

/-- Item `x` has mask `2 x`. -/
def exMask (x : Block) : Block := x + x
def exS : List Block := (List.range 64).map fun i => BitVec.ofNat 128 (i + 1)
def exR : List Block := [70, 3]

theorem exS_mem {x : Block} (h : x ∈ exS) : ∃ i : Fin 64, x = BitVec.ofNat 128 (i + 1) := by
  obtain ⟨i, hi, rfl⟩ := List.mem_map.mp h
  exact ⟨⟨i, List.mem_range.mp hi⟩, rfl⟩

theorem exR_mem {x : Block} (h : x ∈ exR) : x = 70 ∨ x = 3 := by
  simpa [exR] using h

theorem ex_apart : ∀ i j : Fin 64, i ≠ j → ¬ SameBytes 4 (exMask (BitVec.ofNat 128 (i + 1))) (exMask (BitVec.ofNat 128 (j + 1))) := by
  unfold SameBytes
  decide +kernel

theorem ex_short : ∀ i j : Fin 64, ¬ Escaped 4 (exMask (BitVec.ofNat 128 (i + 1))) (exMask (BitVec.ofNat 128 (j + 1))) := by
  unfold Escaped
  decide +kernel

theorem ex_cross : ∀ i : Fin 64, ¬ SameBytes 4 (exMask (BitVec.ofNat 128 (i + 1))) (exMask 70) ∧
    (BitVec.ofNat 128 (i + 1) ≠ 3 → ¬ SameBytes 4 (exMask (BitVec.ofNat 128 (i + 1))) (exMask 3)) := by
  unfold SameBytes
  decide +kernel

theorem ex_noAccident : NoAccident 4 4 exMask exS exR where
  keys := by decide +kernel
  apart := by
    intro x hx y hy hne
    obtain ⟨i, rfl⟩ := exS_mem hx
    obtain ⟨j, rfl⟩ := exS_mem hy
    exact ex_apart i j fun e => hne (by rw [e])
  cross := by
    intro x hx y hy hne
    obtain ⟨i, rfl⟩ := exS_mem hx
    rcases exR_mem hy with rfl | rfl
    · exact (ex_cross i).1
    · exact (ex_cross i).2 hne
  zero := by
    intro y hy
    rcases exR_mem hy with rfl | rfl <;> unfold SameBytes <;> decide +kernel
  short := by
    intro x hx y hy
    obtain ⟨i, rfl⟩ := exS_mem hx
    obtain ⟨j, rfl⟩ := exS_mem hy
    exact ex_short i j

theorem exS_nodup : exS.Nodup := by decide +kernel

theorem exS_length : exS.length = 64 := by decide +kernel

theorem ex_size (t : Nat) (ht : t < 1) (c : Nat × Nat) (hc : c ∈ chunks 100 exS.length 1 t) : 50 * (4 + 1) ≤ c.2 * 4 := by
  have e : chunks 100 64 1 0 = [(0, 63)] := by decide +kernel
  have : t = 0 := by omega
  rw [this, exS_length, e, List.mem_singleton] at hc
  rw [hc]
  decide

theorem ex_perm : ([(140, 0), (6, 1)] : List (Block × Nat)).Perm (exR.zipIdx.map fun p => (exMask p.1, p.2)) := by decide +kernel

theorem ex_common (i : Nat) : (∃ y, exR[i]? = some y ∧ y ∈ exS) ↔ i = 1 := by
  constructor
  · rintro ⟨y, hr, hy⟩
    obtain ⟨hi, e⟩ := List.getElem?_eq_some_iff.mp hr
    have hi : i < 2 := hi
    rcases (show i = 0 ∨ i = 1 by omega) with rfl | rfl
    · have : y = 70 := e.symm
      rw [this] at hy
      exact absurd hy (by decide +kernel)
    · rfl
  · rintro rfl
    exact ⟨3, rfl, by decide +kernel⟩

/-- The conditions hold for these 64 items of the sender and 2 of the receiver with one thread; the result is the position of item 3. -/
example (s : List Block) (hs : SortOf (exS.map exMask) s) (behind : Nat → Nat → Nat → Byte) (u : Nat → Nat → Block × Block) :
    ∃ out, runBig 100 4 4 1 [(140, 0), (6, 1)] s behind u = .ok out ∧ ∀ i : Nat, i ∈ out ↔ i = 1 := by
  have hl : exS.length * 1 < 2 ^ 64 := by rw [exS_length]; norm_num
  have hl' : 2 * 1 ≤ exS.length := by rw [exS_length]; norm_num
  obtain ⟨out, h1, h2⟩ := C160_big 100 4 4 1 (by decide) (by decide) (by decide) (by decide) (by decide) exMask exS exR exS_nodup
    hl hl' ex_noAccident ex_size [(140, 0), (6, 1)] ex_perm s hs behind u
  exact ⟨out, h1, fun i => (h2 i).trans (ex_common i)⟩

end Verif.PrtyRun
