import Verif.FileRunModel
import Verif.FileProps
import Verif.KkrtProps
import Verif.EcdhProps
import Verif.Rr17aProps
import Verif.Rr17MaskProps
/-
Property theorems C106, C107: the file front end as a whole.

Specification vocabulary:
  * `Reads o file set ft`  the party's file is of type `ft` and holds `set`;
  * `Picks o p`            the flags select protocol `p`;
  * `padTo rnd n set`      `set` followed by random blocks up to `n` elements;
  * `Decodes ft bytes out` the file lists the numbers `out` in the format of its type;
  * `Exact proto S R`      the protocol reports exactly the positions of the receiver's elements that
                           the sender has.
-/
namespace Verif.FileRun
open Verif Verif.File

/-- The file is read as `set`, with the file type `ft`. -/
def Reads (ro : List Nat → Block) (o : Opts) (file : Option (List Nat)) (set : List Block)
    (ft : FileType) : Prop :=
  chooseType o.path o.bin o.csv = .ok ft ∧ readSet ro file ft o.debug = .ok set

/-- The options choose this protocol: the first of `-kkrt`, `-rr17a`, `-ecdh` that is given. -/
def Picks (o : Opts) : Proto → Prop
  | .kkrt => o.kkrt = true
  | .rr17a => o.kkrt = false ∧ o.rr17a = true
  | .ecdh => o.kkrt = false ∧ o.rr17a = false ∧ o.ecdh = true

/-- The set with blocks added up to size `n`. -/
def padTo (rnd : Nat → Block) (n : Nat) (set : List Block) : List Block :=
  set ++ (List.range (n - set.length)).map rnd

/-- The bytes of an output file stand for these indices. -/
def Decodes (ft : FileType) (bytes out : List Nat) : Prop :=
  match ft with
  | .bin => bytes.length = 8 * out.length ∧ decode8 out.length bytes = out
  | _ => (splitLines [] bytes).map parseDecimal = out

/-- The protocol reports exactly the positions of the receiver's elements that the sender has. -/
def Exact (proto : List Block → List Block → Out (List Nat)) (S R : List Block) : Prop :=
  ∃ out, proto S R = .ok out ∧ ∀ i, i ∈ out ↔ ∃ x, R[i]? = some x ∧ x ∈ S

/-- Options of two parties that fit together. -/
structure Fit (s r : Opts) (S R : List Block) : Prop where
  sender : s.role = 0
  receiver : r.role = 1
  /-- one of them listens (by default the receiver) -/
  modes : s.server.getD 0 = 0 ↔ r.server.getD 1 ≠ 0
  /-- announced sizes are right -/
  sizes : ∀ n, (s.senderSize = some n → n = S.length) ∧ (r.senderSize = some n → n = S.length) ∧
    (s.receiverSize = some n → n = R.length) ∧ (r.receiverSize = some n → n = R.length)

/-! ### C106 -/

theorem decodes_write (ft : FileType) (out : List Nat) (h : ∀ n ∈ out, n < 2 ^ 64) :
    Decodes ft (writeOutput ft out) out := by
  cases ft with
  | bin =>
    obtain ⟨h1, _, h3⟩ := C23_binary out h
    rw [h1, Nat.mul_div_cancel_left _ (by decide)] at h3
    exact ⟨h1, h3⟩
  | csv => exact C23_csv out h
  | unspecified => exact C23_csv out h

theorem picks_choose {o : Opts} {p : Proto} (h : Picks o p) : o.choose = .ok p := by
  unfold Opts.choose
  cases p with
  | kkrt => exact if_pos (show o.kkrt = true from h)
  | rr17a => rw [h.1, h.2]; rfl
  | ecdh => rw [h.1, h.2.1, h.2.2]; rfl

theorem prepare_kkrt (flag : Bool) (rnd : Nat → Block) (set : List Block) (n : Nat) :
    prepare .kkrt flag rnd set n = .ok set := by
  unfold prepare; rw [if_pos rfl]

theorem prepare_pad (p : Proto) (hp : p ≠ .kkrt) (flag : Bool) (rnd : Nat → Block) (set : List Block)
    (n : Nat) (h : flag = true ∨ set.length = n) :
    prepare p flag rnd set n = .ok (padTo rnd n set) := by
  unfold prepare padSmallSet padTo
  rw [if_neg hp]
  by_cases he : set.length = n
  · rw [if_neg (by simpa using he), he, Nat.sub_self]
    simp [Out.bind]
  · have hf : flag = true := h.resolve_right he
    rw [if_pos he, hf, if_neg (by simp)]
    by_cases hl : set.length < n
    · rw [if_pos hl]; rfl
    · rw [if_neg hl, show n - set.length = 0 by omega]
      simp [Out.bind]

/-- The indices refer to common elements of the files if padding blocks miss the other set. -/
theorem exact_unpad (rndS rndR : Nat → Block) (S R : List Block)
    (hS : ∀ i, i < R.length - S.length → rndS i ∉ R)
    (hR : ∀ i, i < S.length - R.length → rndR i ∉ S) (i : Nat) :
    (∃ x, (padTo rndR S.length R)[i]? = some x ∧ x ∈ padTo rndS R.length S) ↔
      ∃ x, R[i]? = some x ∧ x ∈ S := by
  unfold padTo
  constructor
  · rintro ⟨x, hx, hm⟩
    by_cases hi : i < R.length
    · rw [List.getElem?_append_left hi] at hx
      refine ⟨x, hx, ?_⟩
      rcases List.mem_append.mp hm with hm | hm
      · exact hm
      · obtain ⟨j, hj, rfl⟩ := List.mem_map.mp hm
        exact absurd (List.mem_of_getElem? hx) (hS j (List.mem_range.mp hj))
    · rw [List.getElem?_append_right (by omega), List.getElem?_map] at hx
      by_cases hj : i - R.length < S.length - R.length
      · rw [List.getElem?_range hj] at hx
        simp only [Option.map_some, Option.some.injEq] at hx
        rcases List.mem_append.mp hm with hm | hm
        · exact absurd (hx ▸ hm) (hR _ hj)
        · rw [show R.length - S.length = 0 by omega] at hm
          simp at hm
      · rw [List.getElem?_eq_none (by rw [List.length_range]; omega)] at hx
        simp at hx
  · rintro ⟨x, hx, hm⟩
    have hi : i < R.length := (List.getElem?_eq_some_iff.mp hx).1
    exact ⟨x, by rw [List.getElem?_append_left hi]; exact hx, List.mem_append_left _ hm⟩

/-- The set that a party gives to protocol `p`. -/
def fed (p : Proto) (rnd : Nat → Block) (n : Nat) (set : List Block) : List Block :=
  if p = .kkrt then set else padTo rnd n set

/-- With fitting options a run is the protocol on the sets, and the output. -/
theorem run_fit (ro : List Nat → Block)
    (proto : Proto → List Block → List Block → Out (List Nat)) (s r : Opts)
    (fs fr : Option (List Nat)) (rndS rndR : Nat → Block) (S R : List Block) (fts ftr : FileType)
    (p : Proto) (hs : Reads ro s fs S fts) (hr : Reads ro r fr R ftr) (hfit : Fit s r S R)
    (hps : Picks s p) (hpr : Picks r p)
    (hpad : p = .kkrt ∨ (s.pad = true ∧ r.pad = true) ∨ S.length = R.length) :
    filePsi ro proto s r fs fr rndS rndR =
      (proto p (fed p rndS R.length S) (fed p rndR S.length R)).bind fun out =>
        .ok (writeOutput ftr out) := by
  have hl1 : localPart ro s fs = .ok (S, fts) := by
    unfold localPart
    rw [hs.1, Out.bind, hs.2, Out.bind, if_neg (by simp [hfit.sender])]
  have hl2 : localPart ro r fr = .ok (R, ftr) := by
    unfold localPart
    rw [hr.1, Out.bind, hr.2, Out.bind, if_neg (by simp [hfit.receiver])]
  unfold filePsi
  rw [hl1, Out.bind, hl2, Out.bind, if_pos ⟨hfit.sender, hfit.receiver⟩]
  have hm : s.isServer ≠ r.isServer := by
    unfold Opts.isServer
    rw [hfit.sender, hfit.receiver]
    have := hfit.modes
    intro he
    by_cases h0 : s.server.getD 0 = 0
    · have h1 := this.mp h0
      simp [h0, h1] at he
    · have h1 : r.server.getD 1 = 0 := by
        exact Decidable.byContradiction fun h1 => h0 (this.mpr h1)
      simp [h0, h1] at he
  have hz : (s.sizesOk S.length R.length && r.sizesOk R.length S.length) = true := by
    unfold Opts.sizesOk Opts.ownSize Opts.theirSize
    rw [hfit.sender, hfit.receiver]
    have h1 : s.senderSize.getD S.length = S.length := by
      cases h : s.senderSize with
      | none => rfl
      | some n => exact (hfit.sizes n).1 h
    have h2 : r.senderSize.getD S.length = S.length := by
      cases h : r.senderSize with
      | none => rfl
      | some n => exact (hfit.sizes n).2.1 h
    have h3 : s.receiverSize.getD R.length = R.length := by
      cases h : s.receiverSize with
      | none => rfl
      | some n => exact (hfit.sizes n).2.2.1 h
    have h4 : r.receiverSize.getD R.length = R.length := by
      cases h : r.receiverSize with
      | none => rfl
      | some n => exact (hfit.sizes n).2.2.2 h
    simp [h1, h2, h3, h4]
  have hq1 : prepare p s.pad rndS S R.length = .ok (fed p rndS R.length S) := by
    by_cases hp : p = .kkrt
    · subst hp; rw [prepare_kkrt]; rfl
    · rw [prepare_pad p hp _ _ _ _ ((hpad.resolve_left hp).imp (·.1) id), fed, if_neg hp]
  have hq2 : prepare p r.pad rndR R S.length = .ok (fed p rndR S.length R) := by
    by_cases hp : p = .kkrt
    · subst hp; rw [prepare_kkrt]; rfl
    · rw [prepare_pad p hp _ _ _ _ ((hpad.resolve_left hp).imp (·.2) Eq.symm), fed, if_neg hp]
  unfold joint
  rw [if_neg hm, if_neg (by simp [hz]), picks_choose hps, Out.bind, picks_choose hpr, Out.bind,
    if_neg (by simp), hq1, Out.bind, hq2, Out.bind]

/-- C106. Two parties with readable files, fitting options and the same protocol, which is exact on
the sets it is given: the receiver's output file lists exactly the positions of its elements that the
sender's file also holds, in the format of the receiver's file. RR17a and ECDH need sets of equal
size or the padding flag on both sides, and padding blocks outside the other set. -/
theorem C106_output (ro : List Nat → Block)
    (proto : Proto → List Block → List Block → Out (List Nat)) (s r : Opts)
    (fs fr : Option (List Nat)) (rndS rndR : Nat → Block) (S R : List Block) (fts ftr : FileType)
    (p : Proto) (hs : Reads ro s fs S fts) (hr : Reads ro r fr R ftr) (hfit : Fit s r S R)
    (hps : Picks s p) (hpr : Picks r p)
    (hpad : p = .kkrt ∨ (s.pad = true ∧ r.pad = true) ∨ S.length = R.length)
    (hS : p ≠ .kkrt → ∀ i, i < R.length - S.length → rndS i ∉ R)
    (hR : p ≠ .kkrt → ∀ i, i < S.length - R.length → rndR i ∉ S)
    (hlen : R.length < 2 ^ 64)
    (hex : Exact (proto p) (fed p rndS R.length S) (fed p rndR S.length R)) :
    ∃ bytes out, filePsi ro proto s r fs fr rndS rndR = .ok bytes ∧ Decodes ftr bytes out ∧
      ∀ i, i ∈ out ↔ ∃ x, R[i]? = some x ∧ x ∈ S := by
  obtain ⟨out, eout, hout⟩ := hex
  have hout' : ∀ i, i ∈ out ↔ ∃ x, R[i]? = some x ∧ x ∈ S := by
    intro i
    rw [hout i]
    unfold fed
    by_cases hp : p = .kkrt
    · rw [if_pos hp, if_pos hp]
    · rw [if_neg hp, if_neg hp]
      exact exact_unpad rndS rndR S R (hS hp) (hR hp) i
  refine ⟨writeOutput ftr out, out, ?_, decodes_write ftr out (fun n hn => ?_), hout'⟩
  · rw [run_fit ro proto s r fs fr rndS rndR S R fts ftr p hs hr hfit hps hpr hpad, eout]
    rfl
  · obtain ⟨x, hx, _⟩ := (hout' n).mp hn
    have := (List.getElem?_eq_some_iff.mp hx).1
    omega

/-- C106 for `-kkrt`, with the protocol model in place: `c` is the receiver's empty cuckoo table. -/
theorem C106_kkrt (F : Nat → Block → Nat) (aes : Block → Block) (mb step nb : Nat) (rand : Nat → Nat)
    (junk : Nat → Nat → Nat) (sched : List Nat) (c c' : Cuckoo.Cuckoo) (S R : List Block) (n l : Nat)
    (hc : Cuckoo.Start c n nb 0 3 l) (hR : R.length ≤ n)
    (hins : Cuckoo.insertItems aes c R 0 = .ok c') (hne : S ≠ []) (hS : S.length < 2 ^ 32)
    (hstep : 0 < step) (hnb : nb < 2 ^ 64) (hmb : mb ≤ 16) (hsch : Kkrt.Schedule nb sched)
    (hkey : ∀ i j, i < R.length → j < R.length → i ≠ j → ∀ b b', b < nb → b' < nb → b ≠ b' →
      F b (R.getD i 0) % 256 ^ mb % 2 ^ 64 ≠ F b' (R.getD j 0) % 256 ^ mb % 2 ^ 64)
    (hcol : ∀ x ∈ R, ∀ y ∈ S, x ≠ y → ∀ b b', b < nb → b' < nb →
      F b x % 256 ^ mb ≠ F b' y % 256 ^ mb)
    (hjunk : ∀ x ∈ R, ∀ b, b < nb → ∀ a h, F b x % 256 ^ mb ≠ junk a h)
    (ro : List Nat → Block) (proto : Proto → List Block → List Block → Out (List Nat))
    (hproto : proto .kkrt = Kkrt.protocol F aes mb step nb rand junk sched c) (s r : Opts)
    (fs fr : Option (List Nat)) (rndS rndR : Nat → Block) (fts ftr : FileType)
    (hs : Reads ro s fs S fts) (hr : Reads ro r fr R ftr) (hfit : Fit s r S R)
    (hps : s.kkrt = true) (hpr : r.kkrt = true) :
    ∃ bytes out, filePsi ro proto s r fs fr rndS rndR = .ok bytes ∧ Decodes ftr bytes out ∧
      ∀ i, i ∈ out ↔ ∃ x, R[i]? = some x ∧ x ∈ S := by
  refine C106_output ro proto s r fs fr rndS rndR S R fts ftr .kkrt hs hr hfit hps hpr (Or.inl rfl)
    (fun h => absurd rfl h) (fun h => absurd rfl h)
    (by have := hc.n_lt; omega) ?_
  obtain ⟨out, e, h1⟩ := Kkrt.C26_complete F aes mb step nb rand junk sched c c' S R n l hc hR hins
    hne hS hstep hnb hmb hsch hkey
  obtain ⟨out', e', h2⟩ := Kkrt.C27_sound F aes mb step nb rand junk sched c c' S R n l hc hR hins
    hne hS hstep hnb hmb hsch hcol hjunk
  rw [e] at e'
  simp only [Out.ok.injEq] at e'
  subst e'
  refine ⟨out, by rw [hproto]; exact e, fun i => ⟨fun hi => ?_, ?_⟩⟩
  · obtain ⟨hlt, hm⟩ := h2 i hi
    exact ⟨R[i], List.getElem?_eq_getElem hlt, hm⟩
  · rintro ⟨x, hx, hm⟩
    obtain ⟨hlt, rfl⟩ := List.getElem?_eq_some_iff.mp hx
    exact h1 i hlt hm

/-- C106 for `-ecdh` (one channel). -/
theorem C106_ecdh {P : Type} (E : Ecdh.Env P) (merge : List (List Block) → List Block)
    (S R : List Block) (rndS rndR : Nat → Block)
    (hset : Ecdh.Setting (padTo rndS R.length S) (padTo rndR S.length R) 1 merge)
    (hcomm : ∀ p, E.mulA (E.mulB p) = E.mulB (E.mulA p)) (hhash : ∀ x, E.hs x = E.hr x)
    (hprefix : ∀ x ∈ padTo rndS R.length S, ∀ y ∈ padTo rndS R.length S,
      Ecdh.SameBytes 4 (Ecdh.senderBlock E x) (Ecdh.senderBlock E y) →
      Ecdh.senderBlock E x = Ecdh.senderBlock E y)
    (hcoll : ∀ x ∈ padTo rndS R.length S, ∀ y ∈ padTo rndR S.length R,
      Ecdh.SameBytes (Ecdh.maskBytes (padTo rndR S.length R).length) (Ecdh.senderBlock E x)
        (Ecdh.receiverBlock E y) → x = y)
    (ro : List Nat → Block) (proto : Proto → List Block → List Block → Out (List Nat))
    (hproto : ∀ X Y, proto .ecdh X Y = Ecdh.run E X Y 1 merge) (s r : Opts)
    (fs fr : Option (List Nat)) (fts ftr : FileType)
    (hs : Reads ro s fs S fts) (hr : Reads ro r fr R ftr) (hfit : Fit s r S R)
    (hps : Picks s .ecdh) (hpr : Picks r .ecdh)
    (hpad : (s.pad = true ∧ r.pad = true) ∨ S.length = R.length)
    (hS : ∀ i, i < R.length - S.length → rndS i ∉ R)
    (hR : ∀ i, i < S.length - R.length → rndR i ∉ S) :
    ∃ bytes out, filePsi ro proto s r fs fr rndS rndR = .ok bytes ∧ Decodes ftr bytes out ∧
      ∀ i, i ∈ out ↔ ∃ x, R[i]? = some x ∧ x ∈ S := by
  refine C106_output ro proto s r fs fr rndS rndR S R fts ftr .ecdh hs hr hfit hps hpr
    (Or.inr hpad) (fun _ => hS) (fun _ => hR) ?_ ?_
  · have := hset.small
    have h2 : R.length ≤ (padTo rndR S.length R).length := by simp [padTo]
    omega
  · obtain ⟨out, e, h1⟩ := Ecdh.C29_complete E _ _ 1 merge hset hcomm hhash hprefix
    obtain ⟨out', e', h2⟩ := Ecdh.C30_only_common E _ _ 1 merge hset hcoll
    rw [e] at e'
    simp only [Out.ok.injEq] at e'
    subst e'
    refine ⟨out, by rw [hproto]; exact e, fun i => ⟨h2 i, ?_⟩⟩
    rintro ⟨x, hx, hm⟩
    exact h1 i x hx hm

/-- C106 for `-rr17a` (one channel), if the masks have at least 8 bytes. Without this condition the claim is
false of the code (`C106_rr17a_small`). -/
theorem C106_rr17a_partial (c : Rr17.Cfg) (hash : Option (Block → Block)) (S R : List Block)
    (rndS rndR : Nat → Block) (sbins rbins perms : Nat → List Nat) (maskPerm sched : List Nat)
    (rnd : Nat → Nat → Nat) (hT : c.T = 1) (hB : 0 < c.B) (hov : c.B < 2 ^ 64) (hms : 8 ≤ c.ms)
    (hms' : c.ms ≤ 16) (h0 : 0 < c.N * c.M) (hlen : R.length < 2 ^ 64)
    (hPS : Rr17.Placed c (Rr17.hashed hash (padTo rndS R.length S)) sbins)
    (hPR : Rr17.Placed c (Rr17.hashed hash (padTo rndR S.length R)) rbins)
    (hperms : ∀ b, b < c.B → (perms b).Perm (List.range c.M))
    (hp : maskPerm.Perm (List.range c.N))
    (hf : (sched.foldl (Rr17.sendStep sbins) (Rr17.sendStart c)).todo 0 = [])
    (hkeys : ((Rr17.entries c (Rr17.otInputs hash c (padTo rndR S.length R))
      (Rr17.receiverMasks c (Rr17.otInputs hash c (padTo rndR S.length R)) rbins rnd) rbins
      0).map (·.1)).Nodup)
    (hcoll : ∀ i j k k' l l', i < (padTo rndS R.length S).length → j < (padTo rndR S.length R).length →
      k < c.B * c.M → k' < c.B * c.M → l < c.B * c.M → l' < c.B * c.M →
      Rr17.cut c.ms (c.F2 0 k ((Rr17.otInputs hash c (padTo rndS R.length S)).getD i 0) ^^^
          c.F1 0 k' ((Rr17.otInputs hash c (padTo rndS R.length S)).getD i 0)) =
        Rr17.cut c.ms (c.F1 0 l ((Rr17.otInputs hash c (padTo rndR S.length R)).getD j 0) ^^^
          c.F2 0 l' ((Rr17.otInputs hash c (padTo rndR S.length R)).getD j 0)) →
      (padTo rndS R.length S).getD i 0 = (padTo rndR S.length R).getD j 0)
    (ro : List Nat → Block) (proto : Proto → List Block → List Block → Out (List Nat))
    (hproto : ∀ X Y, proto .rr17a X Y = Rr17.online c (Rr17.otInputs hash c X)
      (Rr17.otInputs hash c Y) sbins rbins perms maskPerm rnd sched) (s r : Opts)
    (fs fr : Option (List Nat)) (fts ftr : FileType)
    (hs : Reads ro s fs S fts) (hr : Reads ro r fr R ftr) (hfit : Fit s r S R)
    (hps : Picks s .rr17a) (hpr : Picks r .rr17a)
    (hpad : (s.pad = true ∧ r.pad = true) ∨ S.length = R.length)
    (hS : ∀ i, i < R.length - S.length → rndS i ∉ R)
    (hR : ∀ i, i < S.length - R.length → rndR i ∉ S) :
    ∃ bytes out, filePsi ro proto s r fs fr rndS rndR = .ok bytes ∧ Decodes ftr bytes out ∧
      ∀ i, i ∈ out ↔ ∃ x, R[i]? = some x ∧ x ∈ S := by
  refine C106_output ro proto s r fs fr rndS rndR S R fts ftr .rr17a hs hr hfit hps hpr
    (Or.inr hpad) (fun _ => hS) (fun _ => hR) hlen ?_
  show Exact _ (padTo rndS R.length S) (padTo rndR S.length R)
  generalize padTo rndS R.length S = X at *
  generalize padTo rndR S.length R = Y at *
  obtain ⟨res, e⟩ := Rr17.C39_ends c hash X Y sbins rbins perms maskPerm sched rnd (by omega) hB
    (by rw [hT]; omega) h0 hms hms' hPS hp (fun t ht => by rw [show t = 0 by omega]; exact hf)
  refine ⟨res, by rw [hproto]; exact e, fun j => ⟨fun hj => ?_, ?_⟩⟩
  · obtain ⟨hlt, hm⟩ := Rr17.C96_sound c hash X Y sbins rbins perms maskPerm sched rnd (by omega) hB
      (by rw [hT]; omega) h0 hPS hPR hperms hp
      (fun t ht => by rw [show t = 0 by omega]; exact hf)
      (fun i j t t' k k' l l' hi hj ht ht' hk hk' hl hl' heq => by
        rw [show t = 0 by omega, show t' = 0 by omega] at heq
        exact hcoll i j k k' l l' hi hj hk hk' hl hl' heq) res e j hj
    exact ⟨Y[j], List.getElem?_eq_getElem hlt, hm⟩
  · rintro ⟨y, hy, hm⟩
    obtain ⟨hj, rfl⟩ := List.getElem?_eq_some_iff.mp hy
    obtain ⟨i, hi, hij⟩ := List.getElem_of_mem hm
    obtain ⟨res', e', hmem⟩ := Rr17.C39_one_thread_partial c hash X Y sbins rbins perms maskPerm sched
      rnd hT hB hov hms hms' hPS hPR hperms hp hf hkeys i j hi hj hij
    rw [e] at e'
    simp only [Out.ok.injEq] at e'
    rw [e']
    exact hmem

/-- C106 is false of `-rr17a` for small files: with the default security parameter of 40 and at most 8000 masks
(the set size times the bin size), the receiver reads behind the end of its buffer in every run. -/
theorem C106_rr17a_small (c : Rr17.Cfg) (hash : Option (Block → Block)) (S R : List Block)
    (rndS rndR : Nat → Block) (sbins rbins perms : Nat → List Nat) (maskPerm sched : List Nat)
    (rnd : Nat → Nat → Nat) (hT : c.T = 1) (hB : 0 < c.B) (hov : c.B < 2 ^ 64)
    (hms : c.ms = Rr17.maskSize 40 (c.N * c.M)) (h0 : 0 < c.N * c.M) (hsmall : c.N * c.M ≤ 8000)
    (hPS : Rr17.Placed c (Rr17.hashed hash (padTo rndS R.length S)) sbins)
    (hp : maskPerm.Perm (List.range c.N))
    (hf : (sched.foldl (Rr17.sendStep sbins) (Rr17.sendStart c)).todo 0 = [])
    (ro : List Nat → Block) (proto : Proto → List Block → List Block → Out (List Nat))
    (hproto : ∀ X Y, proto .rr17a X Y = Rr17.online c (Rr17.otInputs hash c X)
      (Rr17.otInputs hash c Y) sbins rbins perms maskPerm rnd sched) (s r : Opts)
    (fs fr : Option (List Nat)) (fts ftr : FileType)
    (hs : Reads ro s fs S fts) (hr : Reads ro r fr R ftr) (hfit : Fit s r S R)
    (hps : Picks s .rr17a) (hpr : Picks r .rr17a)
    (hpad : (s.pad = true ∧ r.pad = true) ∨ S.length = R.length) :
    filePsi ro proto s r fs fr rndS rndR = .ub := by
  have h8 : c.ms < 8 := hms ▸ Rr17.C67_small_sets _ h0 hsmall
  have hub : proto .rr17a (padTo rndS R.length S) (padTo rndR S.length R) = .ub := by
    rw [hproto]
    have hs := Rr17.slots_final (Rr17.sInv_sched sched (Rr17.sInv_start c sbins))
      (fun t ht => by rw [show t = 0 by omega]; exact hf) (by omega) (by rw [hT]; omega)
      (hPS.holds hB) hp
    obtain ⟨buf, hb1, _, _⟩ := Rr17.sendBuffer_ok (perms := perms)
      (Rr17.otInputs hash c (padTo rndS R.length S)) hs
    unfold Rr17.online
    rw [if_neg (by omega), hb1]
    exact Rr17.C66_reads_outside c (by omega) h0 h8 _ _ _ _
  rw [run_fit ro proto s r fs fr rndS rndR S R fts ftr .rr17a hs hr hfit hps hpr (Or.inr hpad)]
  show (proto .rr17a (padTo rndS R.length S) (padTo rndR S.length R)).bind _ = _
  rw [hub]
  rfl

/-- Example options: a csv file each, protocol by flag. -/
def exOpts (role : Int) (kkrt ecdh : Bool) : Opts :=
  ⟨"a.csv".toList.map Char.toNat, false, false, false, role, none, none, none, true, kkrt, false, ecdh⟩

/-- The bytes of a string. -/
def exText (s : String) : List Nat := s.toList.map Char.toNat

/-- A hash for the examples: the bytes as a number. -/
def exHash (l : List Nat) : Block := l.foldl (fun acc b => acc * 256 + BitVec.ofNat 128 b) 0

/-- An exact protocol for the examples. -/
def exProto (S R : List Block) : Out (List Nat) :=
  .ok ((List.range R.length).filter fun i => decide (R.getD i 0 ∈ S))

theorem exProto_exact (S R : List Block) : Exact exProto S R := by
  refine ⟨_, rfl, fun i => ?_⟩
  rw [List.mem_filter, List.mem_range, decide_eq_true_eq]
  constructor
  · rintro ⟨hi, hm⟩
    refine ⟨R.getD i 0, ?_, hm⟩
    simp [List.getD, List.getElem?_eq_getElem hi]
  · rintro ⟨x, hx, hm⟩
    obtain ⟨hi, rfl⟩ := List.getElem?_eq_some_iff.mp hx
    exact ⟨hi, by simpa [List.getD, List.getElem?_eq_getElem hi] using hm⟩

/-- A run: the receiver's lines 0 and 2 are in the sender's file. -/
example : filePsi exHash (fun _ => exProto) (exOpts 0 true false) (exOpts 1 true false)
    (some (exText "bob\ncarol\nalice\n")) (some (exText "alice\ndave\ncarol")) (fun _ => 0) (fun _ => 0) =
    .ok (exText "0\n2\n") := by decide +kernel

/-- The same with padding. -/
example : filePsi exHash (fun _ => exProto) (exOpts 0 false true) (exOpts 1 false true)
    (some (exText "bob\n")) (some (exText "alice\ndave\nbob")) (fun i => BitVec.ofNat 128 i) (fun _ => 0) =
    .ok (exText "2\n") := by decide +kernel

/-- The options of the examples fit. -/
example (S R : List Block) : Fit (exOpts 0 true false) (exOpts 1 true false) S R :=
  ⟨rfl, rfl, by decide, fun n => ⟨nofun, nofun, nofun, nofun⟩⟩

/-- C106 needs the padding blocks outside the other set: a receiver whose padding hits an element of
the sender writes an index behind the end of its file. -/
theorem C106_padding_hits : ∃ (s r : Opts) (S R : List Block) (fs fr : List Nat) (rndR : Nat → Block),
    Fit s r S R ∧ Reads exHash s (some fs) S .csv ∧ Reads exHash r (some fr) R .csv ∧ R.length = 1 ∧
    filePsi exHash (fun _ => exProto) s r (some fs) (some fr) (fun _ => 0) rndR = .ok (exText "1\n") := by
  refine ⟨exOpts 0 false true, exOpts 1 false true, [97#128, 98#128], [99#128], exText "a\nb\n", exText "c\n",
    fun _ => 98#128, ⟨rfl, rfl, by decide, fun n => ⟨nofun, nofun, nofun, nofun⟩⟩, ⟨?_, ?_⟩, ⟨?_, ?_⟩, rfl, ?_⟩ <;>
  decide +kernel

/-! ### C107 -/

/-- What the options should be: a role, a mode of 0 or 1 if given, announced sizes that are true, and
a protocol. -/
structure Valid (o : Opts) (mine theirs : Nat) : Prop where
  role : o.role = 0 ∨ o.role = 1
  server : ∀ v, o.server = some v → v = 0 ∨ v = 1
  mine : ∀ n, (o.role = 0 → o.senderSize = some n → n = mine) ∧
    (o.role = 1 → o.receiverSize = some n → n = mine)
  theirs : ∀ n, (o.role = 0 → o.receiverSize = some n → n = theirs) ∧
    (o.role = 1 → o.senderSize = some n → n = theirs)
  proto : o.kkrt = true ∨ o.rr17a = true ∨ o.ecdh = true

/-- C107: a run that writes an output had valid options on both sides, except for the values of
`-server`. The full property says `Valid s S.length R.length ∧ Valid r R.length S.length`. -/
theorem C107_checked_partial (ro : List Nat → Block)
    (proto : Proto → List Block → List Block → Out (List Nat)) (s r : Opts)
    (fs fr : Option (List Nat)) (rndS rndR : Nat → Block) (bytes : List Nat)
    (h : filePsi ro proto s r fs fr rndS rndR = .ok bytes) :
    ∃ S R fts ftr, Reads ro s fs S fts ∧ Reads ro r fr R ftr ∧
      Valid { s with server := none } S.length R.length ∧
      Valid { r with server := none } R.length S.length := by
  have bindOk : ∀ {α β : Type} {x : Out α} {f : α → Out β} {b : β}, x.bind f = .ok b →
      ∃ a, x = .ok a ∧ f a = .ok b := by
    intro α β x f b h
    cases x with
    | ok a => exact ⟨a, rfl, h⟩
    | throw => cases h
    | ub => cases h
  unfold filePsi at h
  obtain ⟨⟨S, fts⟩, e1, h⟩ := bindOk h
  obtain ⟨⟨R, ftr⟩, e2, h⟩ := bindOk h
  have hloc : ∀ {o : Opts} {f : Option (List Nat)} {X : List Block} {ft : FileType},
      localPart ro o f = .ok (X, ft) → Reads ro o f X ft := by
    intro o f X ft h
    unfold localPart at h
    obtain ⟨ft', e1, h⟩ := bindOk h
    obtain ⟨X', e2, h⟩ := bindOk h
    split at h
    · cases h
    · simp only [Out.ok.injEq, Prod.mk.injEq] at h
      obtain ⟨rfl, rfl⟩ := h
      exact ⟨e1, e2⟩
  refine ⟨S, R, fts, ftr, hloc e1, hloc e2, ?_⟩
  split at h
  · rename_i hrole
    unfold joint at h
    split at h
    · cases h
    · split at h
      · cases h
      · rename_i hz
        simp only [Bool.not_eq_false, Bool.and_eq_true] at hz
        obtain ⟨hz1, hz2⟩ := hz
        unfold Opts.sizesOk Opts.ownSize Opts.theirSize at hz1 hz2
        rw [hrole.1] at hz1
        rw [hrole.2] at hz2
        simp only [Bool.and_eq_true, decide_eq_true_eq] at hz1 hz2
        obtain ⟨p, ep, h⟩ := bindOk h
        obtain ⟨q, eq, h⟩ := bindOk h
        have hch : ∀ {o : Opts} {p : Proto}, o.choose = .ok p →
            o.kkrt = true ∨ o.rr17a = true ∨ o.ecdh = true := by
          intro o p h
          unfold Opts.choose at h
          split at h
          · exact Or.inl ‹_›
          · split at h
            · exact Or.inr (Or.inl ‹_›)
            · split at h
              · exact Or.inr (Or.inr ‹_›)
              · cases h
        refine ⟨⟨Or.inl hrole.1, nofun, fun n => ⟨fun _ hn => ?_, fun h1 => ?_⟩,
          fun n => ⟨fun _ hn => ?_, fun h1 => ?_⟩, hch ep⟩,
          ⟨Or.inr hrole.2, nofun, fun n => ⟨fun h1 => ?_, fun _ hn => ?_⟩,
          fun n => ⟨fun h1 => ?_, fun _ hn => ?_⟩, hch eq⟩⟩
        · simp only at hn; have := hz1.1; simp [hn] at this; omega
        · simp only [hrole.1] at h1; omega
        · simp only at hn; have := hz1.2; simp [hn] at this; omega
        · simp only [hrole.1] at h1; omega
        · simp only [hrole.2] at h1; omega
        · simp only at hn; have := hz2.1; simp [hn] at this; omega
        · simp only [hrole.2] at h1; omega
        · simp only at hn; have := hz2.2; simp [hn] at this; omega
  · cases h

/-- C107: a role other than 0 and 1 is rejected, and no run with it writes an output. -/
theorem C107_role (ro : List Nat → Block) (o : Opts) (file : Option (List Nat)) (set : List Block)
    (ft : FileType) (h : Reads ro o file set ft) (hr : o.role ≠ 0) (hr' : o.role ≠ 1) :
    localPart ro o file = .throw := by
  unfold localPart
  rw [h.1, Out.bind, h.2, Out.bind, if_pos ⟨hr, hr'⟩]

/-- C107 is false of the code: the value of `-server` is not checked (the check tests the role a second
time), and any number other than 0 makes the party a server. -/
theorem C107_server_unchecked : ∃ (r : Opts), r.server = some 7 ∧
    ¬ Valid r 1 1 ∧
    filePsi exHash (fun _ => exProto) (exOpts 0 true false) r (some (exText "a\n")) (some (exText "a\n"))
      (fun _ => 0) (fun _ => 0) = .ok (exText "0\n") := by
  refine ⟨{ exOpts 1 true false with server := some 7 }, rfl, ?_, by decide +kernel⟩
  intro h
  have := h.server 7 rfl
  omega

/-- C107: two parties with the same mode never connect, and neither reports this. -/
theorem C107_same_mode (ro : List Nat → Block)
    (proto : Proto → List Block → List Block → Out (List Nat)) (s r : Opts)
    (fs fr : Option (List Nat)) (rndS rndR : Nat → Block) (S R : List Block) (fts ftr : FileType)
    (hs : Reads ro s fs S fts) (hr : Reads ro r fr R ftr) (h0 : s.role = 0) (h1 : r.role = 1)
    (hm : s.server.getD 0 = 0 ↔ r.server.getD 1 = 0) :
    filePsi ro proto s r fs fr rndS rndR = .ub := by
  unfold filePsi localPart
  rw [hs.1, Out.bind, hs.2, Out.bind, if_neg (by simp [h0]), Out.bind, hr.1, Out.bind, hr.2, Out.bind,
    if_neg (by simp [h1]), Out.bind, if_pos ⟨h0, h1⟩]
  unfold joint
  rw [if_pos]
  unfold Opts.isServer
  rw [h0, h1]
  simp [hm]

end Verif.FileRun
