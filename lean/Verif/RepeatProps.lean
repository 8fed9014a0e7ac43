import Verif.KkrtProps
import Verif.EcdhProps
import Verif.DcwProps
import Verif.Rr16Props
import Verif.Rr17bProps
import Verif.FileProps
import Mathlib.Data.Finset.Card
import Mathlib.Data.Finset.Range
/-
Property C172: lists in which an element occurs more than once.
-/
namespace Verif.Repeat
open Verif

/-! ### the file front end -/

theorem debugLoop_le (seen : List Block) (left : Nat) (l : List Block) : File.debugLoop seen left l ≤ left := by
  induction l generalizing seen left with
  | nil => exact Nat.le_refl _
  | cons x l ih =>
    unfold File.debugLoop
    split
    · split
      · omega
      · exact Nat.le_trans (ih seen (left - 1)) (by omega)
    · exact ih _ _

theorem debugLoop_eq (seen : List Block) (left : Nat) (hl : 0 < left) (l : List Block) :
    File.debugLoop seen left l = left ↔ l.Nodup ∧ ∀ x ∈ l, x ∉ seen := by
  induction l generalizing seen with
  | nil => simp [File.debugLoop]
  | cons x l ih =>
    by_cases hx : x ∈ seen
    · have h1 : File.debugLoop seen left (x :: l) ≤ left - 1 := by
        unfold File.debugLoop
        rw [if_pos hx]
        split
        · exact Nat.le_refl _
        · exact debugLoop_le _ _ _
      constructor
      · intro h; omega
      · rintro ⟨_, h⟩; exact absurd hx (h x (List.mem_cons_self ..))
    · have h1 : File.debugLoop seen left (x :: l) = File.debugLoop (x :: seen) left l := by
        rw [File.debugLoop, if_neg hx]
      rw [h1, ih, List.nodup_cons]
      constructor
      · rintro ⟨h2, h3⟩
        refine ⟨⟨fun h => h3 x h (List.mem_cons_self ..), h2⟩, ?_⟩
        intro y hy
        rcases List.mem_cons.mp hy with rfl | hy
        · exact hx
        · exact fun h => h3 y hy (List.mem_cons_of_mem _ h)
      · rintro ⟨⟨h2, h3⟩, h4⟩
        refine ⟨h3, fun y hy h => ?_⟩
        rcases List.mem_cons.mp h with rfl | h
        · exact h2 hy
        · exact h4 y (List.mem_cons_of_mem _ hy) h

/-- C172. With `-debug` a file is refused exactly if one of its elements occurs twice; nothing else changes. -/
theorem C172_debug (ro : List Nat → Block) (file : Option (List Nat)) (ft : File.FileType) (set : List Block)
    (h : File.readSet ro file ft false = .ok set) :
    (set.Nodup → File.readSet ro file ft true = .ok set) ∧ (¬ set.Nodup → File.readSet ro file ft true = .throw) := by
  have key : File.readSet ro file ft true = if File.debugLoop [] 40 set != 40 then .throw else .ok set := by
    unfold File.readSet at h ⊢
    revert h
    split
    · intro h; cases h
    · intro h; cases h
    · split
      · intro h; cases h
      · intro h
        simp only [Out.bind, Bool.false_and, Bool.false_eq_true, if_false, Out.ok.injEq] at h
        simp only [Out.bind, Bool.true_and, h]
    · intro h
      simp only [Out.bind, Bool.false_and, Bool.false_eq_true, if_false, Out.ok.injEq] at h
      simp only [Out.bind, Bool.true_and, h]
  have hd := debugLoop_eq [] 40 (by omega) set
  rw [key]
  constructor
  · intro hn
    rw [hd.mpr ⟨hn, by simp⟩]
    rfl
  · intro hn
    rw [if_pos]
    rw [bne_iff_ne]
    intro h1
    exact hn (hd.mp h1).1

/-! ### ECDH -/

/-- C172, ECDH: repeated elements are no problem. Without collisions the report is exactly the list of all places of
the receiver's list whose element the sender has, each once and in order, however often elements occur. -/
theorem C172_ecdh {P : Type} (E : Ecdh.Env P) (S R : List Block) (T : Nat) (merge : List (List Block) → List Block)
    (hset : Ecdh.Setting S R T merge) (hcomm : ∀ p, E.mulA (E.mulB p) = E.mulB (E.mulA p))
    (hhash : ∀ x, E.hs x = E.hr x)
    (hprefix : ∀ x ∈ S, ∀ y ∈ S, Ecdh.SameBytes 4 (Ecdh.senderBlock E x) (Ecdh.senderBlock E y) →
      Ecdh.senderBlock E x = Ecdh.senderBlock E y)
    (hcoll : ∀ x ∈ S, ∀ y ∈ R, Ecdh.SameBytes (Ecdh.maskBytes R.length) (Ecdh.senderBlock E x)
      (Ecdh.receiverBlock E y) → x = y) :
    ∃ out, Ecdh.run E S R T merge = .ok out ∧ out.Pairwise (· < ·) ∧
      ∀ i, i ∈ out ↔ ∃ y, R[i]? = some y ∧ y ∈ S := by
  obtain ⟨out, e1, h1⟩ := Ecdh.C29_complete E S R T merge hset hcomm hhash hprefix
  obtain ⟨out2, e2, h2⟩ := Ecdh.C30_only_common E S R T merge hset hcoll
  obtain ⟨out3, e3, h3, _⟩ := Ecdh.C30_sound E S R T merge hset
  have q2 : out2 = out := by rw [e1] at e2; injection e2 with h; exact h.symm
  have q3 : out3 = out := by rw [e1] at e3; injection e3 with h; exact h.symm
  subst q2; subst q3
  exact ⟨_, e1, h3, fun i => ⟨h2 i, fun ⟨y, hy, hm⟩ => h1 i y hy hm⟩⟩

/-- Both parties have an element twice. -/
example : Ecdh.run Ecdh.demo [1#128, 1, 3] [3#128, 1, 1] 2 List.flatten = .ok [0, 1, 2] := by decide +kernel

/-! ### KKRT -/

theorem count_eq (R : List Block) (x : Block) :
    R.count x = ((Finset.range R.length).filter fun i => R[i]? = some x).card := by
  have hR : R = (List.range R.length).map fun i => R.getD i 0 := by
    apply List.ext_getElem
    · simp
    · intro i h1 h2
      simp [List.getD, List.getElem?_eq_getElem h1]
  have h1 : R.count x = (List.range R.length).countP fun i => decide (R[i]? = some x) := by
    conv_lhs => rw [hR]
    rw [List.count, List.countP_map]
    apply List.countP_congr
    intro i hi
    have hi := List.mem_range.mp hi
    simp [List.getD, List.getElem?_eq_getElem hi]
  rw [h1, List.countP_eq_length_filter]
  rfl

/-- C172, KKRT: whatever table is used, a list that could be inserted has no element more than three times (there
are three hash functions and no stash). -/
theorem C172_kkrt_three (aes : Block → Block) (c c' : Cuckoo.Cuckoo) (R : List Block) (n nb l : Nat)
    (hc : Cuckoo.Start c n nb 0 3 l) (hR : R.length ≤ n) (hins : Cuckoo.insertItems aes c R 0 = .ok c') (x : Block) :
    R.count x ≤ 3 := by
  have hP := Kkrt.placed hc hR hins
  have key : ∀ i ∈ (Finset.range R.length).filter (fun i => R[i]? = some x),
      ∃ h, h < 3 ∧ ∃ b, b < nb ∧ c'.bins.getD b Cuckoo.emptyVal ≠ Cuckoo.emptyVal ∧
        Cuckoo.idxOf (c'.bins.getD b Cuckoo.emptyVal) = i ∧ Cuckoo.getHash (Kkrt.hashOfItem aes x) h nb = b := by
    intro i hi
    obtain ⟨hi1, hi2⟩ := Finset.mem_filter.mp hi
    have hx : R.getD i 0 = x := by simp only [List.getD, hi2, Option.getD_some]
    obtain ⟨b, hb, hbne, hbi⟩ := hP.all i (Finset.mem_range.mp hi1)
    obtain ⟨_, h, hh, hg⟩ := hP.bins b hb hbne
    rw [hbi, hx] at hg
    exact ⟨h, hh, b, hb, hbne, hbi, hg⟩
  rw [count_eq]
  choose! f hf using key
  have := Finset.card_le_card_of_injOn (t := Finset.range 3) f
    (fun i hi => Finset.mem_coe.mpr (Finset.mem_range.mpr (hf i hi).1)) (by
      intro i hi j hj hij
      obtain ⟨_, b, _, _, h1, h2⟩ := hf i hi
      obtain ⟨_, b', _, _, h3, h4⟩ := hf j hj
      rw [hij] at h2
      rw [← h1, ← h3, ← h2, ← h4])
  simpa using this

/-- C172, KKRT: a receiver with an element four times or more never gets a result: the insertion throws, for every
table, seed and message. -/
theorem C172_kkrt_throws (F : Nat → Block → Nat) (aes : Block → Block) (mb step nb : Nat) (rand : Nat → Nat)
    (junk : Nat → Nat → Nat) (sched : List Nat) (c : Cuckoo.Cuckoo) (S R : List Block) (n l : Nat)
    (hc : Cuckoo.Start c n nb 0 3 l) (hR : R.length ≤ n) (hne : S ≠ []) (hS : S.length < 2 ^ 32) (hstep : 0 < step)
    (hnb : nb < 2 ^ 64) (hs : Kkrt.Schedule nb sched) (x : Block) (hx : 3 < R.count x) :
    Kkrt.protocol F aes mb step nb rand junk sched c S R = .throw := by
  have hins : Cuckoo.insertItems aes c R 0 = .throw := by
    have hfit : Cuckoo.Fits n (Cuckoo.chunks16 ((List.range R.length).map fun j =>
        (j + 0, aes (R.getD j 0) ^^^ R.getD j 0))).flatten := by
      rw [Cuckoo.chunks16_flatten]
      refine ⟨?_, ?_⟩
      · intro p hp
        simp only [List.mem_map, List.mem_range] at hp
        obtain ⟨a, ha, rfl⟩ := hp
        simp only; omega
      · rw [List.map_map]
        exact List.Pairwise.map _ (fun a b hab => by simpa using hab) List.nodup_range
    rcases Cuckoo.C11_overflow_reported c n nb 0 3 l hc _ hfit with ⟨c', h, _⟩ | ⟨h, _⟩
    · exact absurd (C172_kkrt_three aes c c' R n nb l hc hR h x) (by omega)
    · exact h
  obtain ⟨perm, inv, e, hp, _⟩ := Kkrt.permInit_ok rand S.length hS
  unfold Kkrt.protocol
  rw [e]
  simp only [Out.bind]
  rw [Kkrt.send_ok hp hc.bins_pos (by unfold Kkrt.noBin; omega) hstep sched hs.le hs.ends
    (List.length_pos_iff.mpr hne)]
  simp only
  unfold Kkrt.recv
  rw [if_neg (by simp), hins]
  rfl

/-! ### DCW -/

/-- C172, DCW: a receiver with an element twice never gets a result (unless the first eight bytes of an encoding are
zero). -/
theorem C172_dcw (hashes : List (Block → Block)) (bf : Nat) (msgs : Nat → Bool → Block) (recvd : Nat → Block)
    (choice : Nat → Bool) (n : Nat) (S R : List Block) (hbf : 0 < bf ∨ n = 0) (hR : R.length = n)
    (hz : ∀ x ∈ R, (Dcw.encoding hashes bf recvd x).setWidth 64 ≠ 0#64) (hd : ¬ R.Nodup) :
    Dcw.run hashes bf msgs recvd choice n S R = .throw :=
  Dcw.C32_collision_detected hashes bf msgs recvd choice n S R hbf hR hz
    fun h => hd (h.imp fun {x y} h e => h (by rw [e]))

/-! ### RR16 -/

/-- C172, RR16: of several copies of an element in the receiver's list at most one is reported. -/
theorem C172_rr16 (checked : Bool) (hash : Block → List Nat) (bf total n T : Nat) (sampled : Nat → Bool)
    (msgs : Nat → Bool → Block) (recvd : Nat → Block) (zeros ones ord tord : List Nat) (S R : List Block)
    (out : List Nat)
    (h : Rr16.run checked hash bf total n T sampled msgs recvd zeros ones ord tord S R = .ok out) (i j : Nat)
    (hi : i ∈ out) (hj : j ∈ out) (hij : R[i]? = R[j]?) : i = j := by
  unfold Rr16.run at h
  split at h
  · cases h
  split at h
  · cases h
  cases hp : Rr16.permute hash bf total zeros ones R with
  | throw => rw [hp] at h; cases h
  | ub => rw [hp] at h; cases h
  | ok perm =>
    rw [hp] at h
    simp only [Out.bind] at h
    cases hsd : Rr16.send checked hash bf total n sampled msgs perm S with
    | ub => rw [hsd] at h; cases h
    | throws => rw [hsd] at h; cases h
    | terminates => rw [hsd] at h; cases h
    | sends masks =>
      rw [hsd] at h
      simp only [Out.ok.injEq] at h
      subst h
      have key : ∀ k, k ∈ (tord.flatMap fun t => Rr16.matches_ (Rr16.table (R.map (Rr16.recvMask hash bf perm recvd)) ord)
          (Rr16.chunk masks T t)) →
          Rr16.find (Rr16.table (R.map (Rr16.recvMask hash bf perm recvd)) ord)
            (Rr16.low ((R.map (Rr16.recvMask hash bf perm recvd)).getD k 0)) = some k := by
        intro k hk
        obtain ⟨t, _, hk⟩ := List.mem_flatMap.mp hk
        obtain ⟨b, _, hk⟩ := List.mem_filterMap.mp hk
        rcases (Rr16.table_spec (fun i => Rr16.low ((R.map (Rr16.recvMask hash bf perm recvd)).getD i 0)) ord []).1 _
          (Rr16.find_mem hk) with h | h
        · cases h
        · rw [← h.2]; exact hk
      have h1 := key i hi
      have h2 := key j hj
      have he : (R.map (Rr16.recvMask hash bf perm recvd)).getD i 0 =
          (R.map (Rr16.recvMask hash bf perm recvd)).getD j 0 := by
        simp only [List.getD, List.getElem?_map, hij]
      rw [he, h2] at h1
      injection h1 with h1
      exact h1.symm

/-! ### RR17b -/

/-- C172, RR17b: of the copies of an element in the receiver's list at most as many are reported, counted with
repetitions, as the sender has. -/
theorem C172_rr17b {D : Type} [DecidableEq D] (c : Rr17b.Cfg D) (X Y : List Block) (ot : Block → Block)
    (r : Nat → Block) (perm : List Nat) (f : Nat → Nat) (sbins : Nat → List Nat) (tagMap : List (Nat × Nat × Block))
    (hT : 0 < c.T) (hd : c.T ∣ c.B) (hov : (c.B + c.T) * c.T < 2 ^ 64) (hov' : (c.N + c.T) * c.T < 2 ^ 64)
    (hS : Rr17b.Placed c f sbins) (hp : perm.Perm (List.range c.N)) (hX : X.length = c.N)
    (hbind : ∀ x y k k', c.H x k = c.H y k' → x = y) :
    ∃ res, Rr17b.online c X Y ot r perm sbins tagMap = .ok res ∧
      ∀ y, (res.countP fun j => Y.getD j 0 = y) ≤ X.count y := by
  obtain ⟨res, e, hres⟩ := Rr17b.C42_runs_partial c X Y ot r perm f sbins tagMap hT hd hov hov' hS hp
  refine ⟨res, e, fun y => ?_⟩
  rw [hres.countP_eq, List.countP_filterMap, count_eq, hX, List.countP_eq_length_filter]
  show _ ≤ ((List.range c.N).filter fun i => decide (X[i]? = some y)).length
  rw [← List.countP_eq_length_filter, ← List.countP_eq_length_filter]
  apply List.countP_mono_left
  intro i hi h
  have hi := List.mem_range.mp hi
  cases hm : Rr17b.firstMatch c Y tagMap (c.H (X.getD i 0) (r i))
      (fun l => c.tag (f i / (c.B / c.T)) (Rr17b.otNo c (f i) l) (ot (X.getD i 0)))
      (fun l => c.key (f i / (c.B / c.T)) (Rr17b.otNo c (f i) l) (ot (X.getD i 0)) ^^^ r i) with
  | none => rw [hm] at h; cases h
  | some j =>
    rw [hm] at h
    have hy : decide (Y.getD j 0 = y) = true := h
    obtain ⟨_, e, _, _, _, _, ho⟩ := Rr17b.firstMatch_some hm
    have := hbind _ _ _ _ ho
    rw [of_decide_eq_true hy] at this
    rw [decide_eq_true_eq, List.getElem?_eq_getElem (by omega), this]
    simp [List.getD, List.getElem?_eq_getElem (show i < X.length by omega)]

/-! Examples. -/

/-- DCW: the receiver has an element twice. -/
example : Dcw.run Dcw.demoHashes 24 Dcw.demoMsgs (fun p => Dcw.demoMsgs p (Dcw.demoChoice p)) Dcw.demoChoice 3
    [1#128, 2, 4] [5#128, 2, 2] = .throw := by decide +kernel

/-- A list with an element four times, and the table: the insertion throws. -/
example : (List.replicate 4 (5#128)).count (5#128) = 4 ∧ Cuckoo.insertItems id
    (Cuckoo.Cuckoo.mk 3 100 (List.replicate 4 (BitVec.allOnes 128)) (List.replicate 7 Cuckoo.emptyVal) [])
      (List.replicate 4 (5#128)) 0 = .throw := by decide +kernel

/-- RR16: both elements of the receiver are the same and the sender has it, one index is reported. -/
example : Rr16.run true Rr16.demoHash 8 20 2 2 (fun p => p == 0) Rr16.demoMsgs Rr16.demoRecvd [1, 3, 5, 7, 9]
    [2, 4, 6, 8, 10] [1, 0] [0, 1] [2#128, 7] [2#128, 2] = .ok [1] := by decide +kernel

/-- RR17b: the sender has the element once, the receiver twice, one index is reported. -/
example : let c : Rr17b.Cfg (Block × Block) :=
      ⟨2, 1, 2, 1, fun t k x => x.toNat + 16 * k + 256 * t, fun _ _ x => x + 7, Prod.mk⟩
    let bins : Nat → List Nat := fun _ => [0, 1]
    Rr17b.online c [4, 1] [1, 1] id (fun i => BitVec.ofNat 128 i + 11) [0, 1] bins
      ((List.range 1).flatMap (Rr17b.threadEntries c [1, 1] id bins fun _ _ => 0)) = .ok [0] := by decide +kernel

/-- A file with two equal lines is read without and refused with `-debug`. -/
example : File.readSet (fun l => BitVec.ofNat 128 l.length) (some [65, 10, 66, 66, 10, 67, 10]) .csv false =
      .ok [1#128, 2, 1] ∧
    File.readSet (fun l => BitVec.ofNat 128 l.length) (some [65, 10, 66, 66, 10, 67, 10]) .csv true = .throw := by
  decide +kernel

end Verif.Repeat
