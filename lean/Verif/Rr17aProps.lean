import Verif.Rr17aLemmas
import Verif.Rr17PhaseProps
/-
Properties C38, C39, C65, C66: the RR17a protocol after hashing.
-/
namespace Verif.Rr17
open Verif Part

/-- C38: for every schedule of the sender's threads that lets them finish, the rows at which masks are stored are
the rows `0, …, N * M - 1`, each once; in particular `maskPerm` is never read outside its range. -/
theorem C38_rows (c : Cfg) (bins : Nat → List Nat) (maskPerm sched : List Nat) (hT : 0 < c.T)
    (hov : c.B * c.T < 2 ^ 64) (hb : ((List.range c.B).flatMap bins).Perm (List.range c.N))
    (hp : maskPerm.Perm (List.range c.N))
    (hf : ∀ t, t < c.T → (sched.foldl (sendStep bins) (sendStart c)).todo t = []) :
    ((sendRows c bins maskPerm (sched.foldl (sendStep bins) (sendStart c))).map (·.1)).Perm
      ((List.range (c.N * c.M)).map some) :=
  slots_final (sInv_sched sched (sInv_start c bins)) hf hT hov hb hp

/-- C38: there are such schedules, for example one thread after the other (here two threads, three bins). -/
example : let c : Cfg := ⟨4, 3, 2, 2, 8, fun _ _ x => x, fun _ _ x => x⟩
    let bins : Nat → List Nat := fun b => [[1, 0], [2], [3]].getD b []
    let st := [1, 0, 1].foldl (sendStep bins) (sendStart c)
    st.todo 0 = [] ∧ st.todo 1 = [] ∧ st.done = [(1, 1, 0), (0, 0, 1), (1, 2, 3)] ∧
    (sendRows c bins [2, 0, 3, 1] st).map (·.1) = [4, 5, 0, 1, 6, 7, 2, 3].map some := by decide

/-- C38, content: row `s` written for input `idx` in column `l` holds the mask of that input and column after all
threads are done, so no mask is lost. -/
theorem C38_content (c : Cfg) (xs : List Block) (bins perms : Nat → List Nat) (maskPerm sched : List Nat)
    (hT : 0 < c.T) (hov : c.B * c.T < 2 ^ 64) (hb : ((List.range c.B).flatMap bins).Perm (List.range c.N))
    (hp : maskPerm.Perm (List.range c.N))
    (hf : ∀ t, t < c.T → (sched.foldl (sendStep bins) (sendStart c)).todo t = []) :
    ∃ buf, sendBuffer c xs bins perms maskPerm (sched.foldl (sendStep bins) (sendStart c)) = .ok buf ∧
      buf.length = c.N * c.M ∧
      ∀ t b idx l, t < c.T → b ∈ c.binsOf t → idx ∈ bins b → l < c.M →
        ∃ s, s < c.N * c.M ∧ buf.getD s 0 = sendMask c xs (senderMasks c xs bins perms) t b idx l := by
  have hinv := sInv_sched sched (sInv_start c bins)
  have hs := slots_final hinv hf hT hov hb hp
  obtain ⟨buf, h1, h2, h3⟩ := sendBuffer_ok (perms := perms) xs hs
  refine ⟨buf, h1, h2, ?_⟩
  intro t b idx l ht hbt hi hl
  obtain ⟨s, hr⟩ := sendRows_mem hs (hinv.done_perm hf) ht hbt hi hl
  exact ⟨s, h3 s t b idx l hr⟩

/-- The bins after the insertion: bin `b` holds the indices with address `b`, in any order, and at most `M` of them
(C19 is the corresponding statement about `push`). -/
structure Placed (c : Cfg) (raw : List Block) (bins : Nat → List Nat) : Prop where
  len : raw.length = c.N
  mem : ∀ b, b < c.B → (bins b).Perm ((List.range c.N).filter fun i => addr c.B (raw.getD i 0) == b)
  cap : ∀ b, b < c.B → (bins b).length ≤ c.M

theorem Placed.holds {c : Cfg} {raw : List Block} {bins : Nat → List Nat} (h : Placed c raw bins) (hB : 0 < c.B) :
    Holds c bins := by
  unfold Holds
  have h1 : ((List.range c.B).flatMap bins).Perm
      ((List.range c.B).flatMap fun b => (List.range c.N).filter fun i => addr c.B (raw.getD i 0) == b) :=
    flatMap_perm' _ _ _ fun b hb => h.mem b (List.mem_range.mp hb)
  refine h1.trans ?_
  have hlt : ∀ i, addr c.B (raw.getD i 0) < c.B := fun i => Nat.mod_lt _ hB
  apply (List.perm_ext_iff_of_nodup ?_ List.nodup_range).mpr
  · intro i
    rw [List.mem_flatMap, List.mem_range]
    constructor
    · rintro ⟨b, _, hi⟩
      exact List.mem_range.mp (List.mem_filter.mp hi).1
    · intro hi
      exact ⟨addr c.B (raw.getD i 0), List.mem_range.mpr (hlt i),
        List.mem_filter.mpr ⟨List.mem_range.mpr hi, by simp⟩⟩
  · rw [List.nodup_iff_pairwise_ne, List.pairwise_flatMap]
    constructor
    · intro b _
      exact List.nodup_iff_pairwise_ne.mp (List.nodup_range.filter _)
    · refine List.Pairwise.imp ?_ (List.nodup_iff_pairwise_ne.mp (List.nodup_range (n := c.B)))
      intro b b' hne x hx y hy he
      have e1 := (List.mem_filter.mp hx).2
      have e2 := (List.mem_filter.mp hy).2
      simp only [beq_iff_eq] at e1 e2
      apply hne
      rw [← e1, ← e2, he]

/-- The items after hashing (if any), before shortening. -/
def hashed (hash : Option (Block → Block)) (X : List Block) : List Block :=
  X.map fun x => hash.elim x fun h => h x

/-- The OT inputs (see `C40_ot_inputs`). -/
def otInputs (hash : Option (Block → Block)) (c : Cfg) (X : List Block) : List Block :=
  (hashed hash X).map fun v => (phase c.N c.B v).2

/-- C39, every number of threads: a common element `X[i] = Y[j]` is reported if all rows of `X[i]` are in chunks that
go to the thread which has its bin. The full property has no such condition and is false of the code
(`C39_missed`). -/
theorem C39_reported_partial (c : Cfg) (hash : Option (Block → Block)) (X Y : List Block)
    (sbins rbins perms : Nat → List Nat) (maskPerm sched : List Nat) (rnd : Nat → Nat → Nat)
    (hT : 0 < c.T) (hB : 0 < c.B) (hov : c.B * c.T < 2 ^ 64) (hms : 8 ≤ c.ms) (hms' : c.ms ≤ 16)
    (hS : Placed c (hashed hash X) sbins) (hR : Placed c (hashed hash Y) rbins)
    (hperms : ∀ b, b < c.B → (perms b).Perm (List.range c.M)) (hp : maskPerm.Perm (List.range c.N))
    (hf : ∀ t, t < c.T → (sched.foldl (sendStep sbins) (sendStart c)).todo t = [])
    (i j : Nat) (hi : i < X.length) (hj : j < Y.length) (hij : X[i] = Y[j])
    (hrows : ∀ s t b l, (some s, t, b, i, l) ∈ sendRows c sbins maskPerm (sched.foldl (sendStep sbins) (sendStart c)) →
      s / c.chunk % c.T = t)
    (hkeys : ∀ t, t < c.T → ((entries c (otInputs hash c Y) (receiverMasks c (otInputs hash c Y) rbins rnd) rbins
      t).map (·.1)).Nodup) :
    ∃ res, online c (otInputs hash c X) (otInputs hash c Y) sbins rbins perms maskPerm rnd sched = .ok res ∧
      j ∈ res := by
  have hlX : X.length = c.N := by have := hS.len; simpa [hashed] using this
  have hlY : Y.length = c.N := by have := hR.len; simpa [hashed] using this
  have hHS := hS.holds hB
  have hHR := hR.holds hB
  have hinv := sInv_sched sched (sInv_start c sbins)
  have hs := slots_final hinv hf hT hov hHS hp
  obtain ⟨buf, hb1, hb2, hb3⟩ := sendBuffer_ok (perms := perms) (otInputs hash c X) hs
  -- the bin
  have hgX : (hashed hash X).getD i 0 = hash.elim X[i] fun h => h X[i] := by
    unfold hashed; rw [Kkrt.getD_eq (by simpa using hi), List.getElem_map]
  have hgY : (hashed hash Y).getD j 0 = hash.elim Y[j] fun h => h Y[j] := by
    unfold hashed; rw [Kkrt.getD_eq (by simpa using hj), List.getElem_map]
  have hgo : (otInputs hash c X).getD i 0 = (otInputs hash c Y).getD j 0 := by
    unfold otInputs hashed
    rw [Kkrt.getD_eq (by simpa using hi), Kkrt.getD_eq (by simpa using hj)]
    simp only [List.getElem_map]
    rw [hij]
  have hbB : addr c.B ((hashed hash X).getD i 0) < c.B := Nat.mod_lt _ hB
  generalize hb : addr c.B ((hashed hash X).getD i 0) = b at hbB
  have hib : i ∈ sbins b := (hS.mem b hbB).mem_iff.mpr
    (List.mem_filter.mpr ⟨List.mem_range.mpr (by omega), by simpa using hb⟩)
  have hjb : j ∈ rbins b := (hR.mem b hbB).mem_iff.mpr
    (List.mem_filter.mpr ⟨List.mem_range.mpr (by omega), by rw [hgY, ← hij, ← hgX]; simpa using hb⟩)
  -- the thread
  have hbm : b ∈ (List.range c.T).flatMap c.binsOf := by
    rw [binsOf_flatMap c hT hov]; exact List.mem_range.mpr hbB
  obtain ⟨t, ht, hbt⟩ := List.mem_flatMap.mp hbm
  have ht := List.mem_range.mp ht
  obtain ⟨a, ha, hma⟩ := senderMasks_spec (otInputs hash c X) hT hov hHS hS.cap hperms ht hbt hib
  obtain ⟨a', ha', hma'⟩ := receiverMasks_spec (otInputs hash c Y) rnd hT hov hHR hR.cap ht hbt hjb
  obtain ⟨s, hrow⟩ := sendRows_mem hs (hinv.done_perm hf) ht hbt hib ha'
  obtain ⟨hsN, hbuf⟩ := hb3 s t b i a' hrow
  -- the entry
  have he : (cut c.keySize (c.F1 t (c.otIdx t b + a) ((otInputs hash c Y).getD j 0) ^^^
        (receiverMasks c (otInputs hash c Y) rbins rnd).getD j 0), j * c.M + a,
      c.F1 t (c.otIdx t b + a) ((otInputs hash c Y).getD j 0) ^^^
        (receiverMasks c (otInputs hash c Y) rbins rnd).getD j 0) ∈
      entries c (otInputs hash c Y) (receiverMasks c (otInputs hash c Y) rbins rnd) rbins t :=
    List.mem_flatMap.mpr ⟨b, hbt, List.mem_flatMap.mpr ⟨j, hjb, List.mem_map.mpr ⟨a, List.mem_range.mpr ha, rfl⟩⟩⟩
  have hk : ∀ e ∈ entries c (otInputs hash c Y) (receiverMasks c (otInputs hash c Y) rbins rnd) rbins t,
      e.1 = cut c.keySize e.2.2 := by
    intro e he
    obtain ⟨_, _, he⟩ := List.mem_flatMap.mp he
    obtain ⟨_, _, he⟩ := List.mem_flatMap.mp he
    obtain ⟨_, _, rfl⟩ := List.mem_map.mp he
    rfl
  have hlook := lookup_hit (c := c) (hkeys t ht) hk he
  have hval : buf.getD s 0 = cut c.ms (c.F1 t (c.otIdx t b + a) ((otInputs hash c Y).getD j 0) ^^^
        (receiverMasks c (otInputs hash c Y) rbins rnd).getD j 0) := by
    rw [hbuf, hma']
    unfold sendMask
    rw [hma, hgo, BitVec.xor_comm]
  refine ⟨(List.range c.T).flatMap (recvThread c (otInputs hash c Y)
    (receiverMasks c (otInputs hash c Y) rbins rnd) rbins buf), ?_, ?_⟩
  · unfold online
    rw [if_neg (by omega), hb1]
    exact receive_ok (by omega) hms _ _ _ _
  · refine List.mem_flatMap.mpr ⟨t, List.mem_range.mpr ht, ?_⟩
    obtain ⟨hc1, hc2⟩ := row_chunk hT hsN
    refine List.mem_flatMap.mpr ⟨s / c.chunk, ?_, ?_⟩
    · exact List.mem_filter.mpr ⟨List.mem_range.mpr hc1, by simpa using hrows s t b a' hrow⟩
    · refine List.mem_filterMap.mpr ⟨s, hc2, ?_⟩
      rw [hval, hlook]
      congr 1
      show (j * c.M + a) / c.M = j
      rw [Nat.mul_comm, Nat.mul_add_div (by omega), Nat.div_eq_of_lt ha, Nat.add_zero]

/-- C39: with masks of 8 to 16 bytes every run ends with a list of indices, for every number of threads. -/
theorem C39_ends (c : Cfg) (hash : Option (Block → Block)) (X Y : List Block)
    (sbins rbins perms : Nat → List Nat) (maskPerm sched : List Nat) (rnd : Nat → Nat → Nat)
    (hT : 0 < c.T) (hB : 0 < c.B) (hov : c.B * c.T < 2 ^ 64) (h0 : 0 < c.N * c.M) (hms : 8 ≤ c.ms)
    (hms' : c.ms ≤ 16) (hS : Placed c (hashed hash X) sbins) (hp : maskPerm.Perm (List.range c.N))
    (hf : ∀ t, t < c.T → (sched.foldl (sendStep sbins) (sendStart c)).todo t = []) :
    ∃ res, online c (otInputs hash c X) (otInputs hash c Y) sbins rbins perms maskPerm rnd sched = .ok res := by
  have hs := slots_final (sInv_sched sched (sInv_start c sbins)) hf hT hov (hS.holds hB) hp
  obtain ⟨buf, hb1, _, _⟩ := sendBuffer_ok (perms := perms) (otInputs hash c X) hs
  unfold online
  rw [if_neg (by omega), hb1]
  exact ⟨_, receive_ok (by omega) hms _ _ _ _⟩

/-- C39 with one thread: common elements are reported, provided the keys of the receiver's masks are different. -/
theorem C39_one_thread_partial (c : Cfg) (hash : Option (Block → Block)) (X Y : List Block)
    (sbins rbins perms : Nat → List Nat) (maskPerm sched : List Nat) (rnd : Nat → Nat → Nat)
    (hT : c.T = 1) (hB : 0 < c.B) (hov : c.B < 2 ^ 64) (hms : 8 ≤ c.ms) (hms' : c.ms ≤ 16)
    (hS : Placed c (hashed hash X) sbins) (hR : Placed c (hashed hash Y) rbins)
    (hperms : ∀ b, b < c.B → (perms b).Perm (List.range c.M)) (hp : maskPerm.Perm (List.range c.N))
    (hf : (sched.foldl (sendStep sbins) (sendStart c)).todo 0 = [])
    (hkeys : ((entries c (otInputs hash c Y) (receiverMasks c (otInputs hash c Y) rbins rnd) rbins
      0).map (·.1)).Nodup)
    (i j : Nat) (hi : i < X.length) (hj : j < Y.length) (hij : X[i] = Y[j]) :
    ∃ res, online c (otInputs hash c X) (otInputs hash c Y) sbins rbins perms maskPerm rnd sched = .ok res ∧
      j ∈ res := by
  refine C39_reported_partial c hash X Y sbins rbins perms maskPerm sched rnd (by omega) hB (by rw [hT]; omega)
    hms hms' hS hR hperms hp (fun t ht => ?_) i j hi hj hij (fun s t b l hr => ?_) (fun t ht => ?_)
  · rw [show t = 0 by omega]; exact hf
  · rw [hT, Nat.mod_one]
    have hinv := sInv_sched (c := c) (bins := sbins) sched (sInv_start c sbins)
    have hd := hinv.done_perm (fun t ht => by rw [show t = 0 by omega]; exact hf)
    unfold sendRows at hr
    obtain ⟨d, hd1, hd2⟩ := List.mem_flatMap.mp hr
    obtain ⟨_, _, he⟩ := List.mem_map.mp hd2
    simp only [Prod.mk.injEq] at he
    have hm := hd.mem_iff.mp (List.mem_map.mpr ⟨d, hd1, rfl⟩)
    obtain ⟨u, hu, hu'⟩ := List.mem_flatMap.mp hm
    obtain ⟨_, _, hx⟩ := List.mem_map.mp hu'
    simp only [Prod.mk.injEq] at hx
    have := List.mem_range.mp hu
    omega
  · rw [show t = 0 by omega]; exact hkeys

/-- An example of a run: one thread and two threads, the same sets, the same permutation. -/
def exCfg (T : Nat) : Cfg :=
  ⟨2, 2, 1, T, 8, fun t k x => x + BitVec.ofNat 128 (16 * t + 4 * k), fun t k x => x + BitVec.ofNat 128 (64 * t + 7 * k + 1000)⟩

def exBins : Nat → List Nat := fun b => [[0], [1]].getD b []

/-- The assumptions of `C39_one_thread_partial` can be met and both elements are found. -/
example : online (exCfg 1) (otInputs none (exCfg 1) [2#128, 3#128]) (otInputs none (exCfg 1) [2#128, 3#128])
    exBins exBins (fun _ => [0]) [1, 0] (fun _ _ => 0) [0, 0] = .ok [1, 0] := by decide +kernel

/-- C39 is false of the code: with two threads the masks are spread over the chunks by a permutation of all masks,
but every thread of the receiver looks them up only in the table of its own bins. Here no element is found. -/
theorem C39_missed : ∃ (c : Cfg) (X : List Block) (bins perms : Nat → List Nat) (maskPerm sched : List Nat)
    (rnd : Nat → Nat → Nat), c.T = 2 ∧ 8 ≤ c.ms ∧ c.ms ≤ 16 ∧ Placed c (hashed none X) bins ∧
    (∀ b, b < c.B → (perms b).Perm (List.range c.M)) ∧ maskPerm.Perm (List.range c.N) ∧
    (∀ t, t < c.T → (sched.foldl (sendStep bins) (sendStart c)).todo t = []) ∧
    (∀ t, t < c.T → ((entries c (otInputs none c X) (receiverMasks c (otInputs none c X) bins rnd) bins
      t).map (·.1)).Nodup) ∧
    online c (otInputs none c X) (otInputs none c X) bins bins perms maskPerm rnd sched = .ok [] := by
  refine ⟨exCfg 2, [2#128, 3#128], exBins, fun _ => [0], [1, 0], [0, 1], fun _ _ => 0, rfl, by decide, by decide,
    ⟨rfl, ?_, ?_⟩, ?_, by decide, ?_, ?_, by decide +kernel⟩
  · intro b hb
    have : b = 0 ∨ b = 1 := by change b < 2 at hb; omega
    rcases this with rfl | rfl <;> decide
  · intro b hb
    have : b = 0 ∨ b = 1 := by change b < 2 at hb; omega
    rcases this with rfl | rfl <;> decide
  · intro b _
    exact List.Perm.refl _
  · intro t ht
    have : t = 0 ∨ t = 1 := by change t < 2 at ht; omega
    rcases this with rfl | rfl <;> decide
  · intro t ht
    have : t = 0 ∨ t = 1 := by change t < 2 at ht; omega
    rcases this with rfl | rfl <;> decide +kernel

/-- C65, sender: the OTs that thread `t` uses as OT receiver are the OTs `0, …, M * (number of its bins) - 1`, each
once: for every input of the bins one, for the other OTs `zeroEncode`. -/
theorem C65_sender (c : Cfg) (bins perms : Nat → List Nat) (t : Nat)
    (hl : ∀ b ∈ c.binsOf t, (bins b).length ≤ c.M) (hp : ∀ b ∈ c.binsOf t, (perms b).Perm (List.range c.M)) :
    ((c.binsOf t).flatMap fun b => (sendOts (bins b) (perms b)).map fun o => c.otIdx t b + o.1).Perm
      (List.range ((c.binsOf t).length * c.M)) ∧
    ((c.binsOf t).flatMap fun b => (sendOts (bins b) (perms b)).filterMap (·.2)).Perm
      ((c.binsOf t).flatMap bins) := by
  constructor
  · have e : ((c.binsOf t).flatMap fun b => (sendOts (bins b) (perms b)).map fun o => c.otIdx t b + o.1) =
        List.range ((c.binsOf t).length * c.M) := by
      rw [← flatMap_range_mul]
      have e1 : ((c.binsOf t).flatMap fun b => (sendOts (bins b) (perms b)).map fun o => c.otIdx t b + o.1) =
          (c.binsOf t).flatMap fun b => (List.range c.M).map fun l => (b - bound c.B c.T t) * c.M + l := by
        apply flatMap_congr'
        intro b hb
        rw [show ((sendOts (bins b) (perms b)).map fun o => c.otIdx t b + o.1) =
          ((sendOts (bins b) (perms b)).map (·.1)).map fun k => c.otIdx t b + k by rw [List.map_map]; rfl,
          sendOts_nums, (hp b hb).length_eq, List.length_range]
        rfl
      rw [e1]
      unfold Cfg.binsOf interval
      rw [List.flatMap_map, List.length_map, List.length_range]
      apply flatMap_congr'
      intro k _
      rw [Nat.add_sub_cancel_left]
    rw [e]
  · apply flatMap_perm'
    intro b hb
    exact sendOts_inputs (hp b hb) (hl b hb)

/-- C65, receiver, for all outputs of its random generator. -/
theorem C65_receiver (c : Cfg) (bins : Nat → List Nat) (rnd : Nat → Nat → Nat) (t : Nat)
    (hl : ∀ b ∈ c.binsOf t, (bins b).length ≤ c.M) :
    ((recvBins c.M bins rnd (List.range c.M) (c.binsOf t)).flatMap fun r => r.2.map fun o => c.otIdx t r.1 + o.1).Perm
      (List.range ((c.binsOf t).length * c.M)) ∧
    ((recvBins c.M bins rnd (List.range c.M) (c.binsOf t)).flatMap fun r => r.2.filterMap (·.2)) =
      (c.binsOf t).flatMap bins := by
  obtain ⟨h1, h2⟩ := recvBins_spec c.M bins rnd (c.binsOf t) hl (List.range c.M) (List.Perm.refl _)
  constructor
  · have e1 : ((recvBins c.M bins rnd (List.range c.M) (c.binsOf t)).flatMap fun r =>
        r.2.map fun o => c.otIdx t r.1 + o.1).Perm
        ((recvBins c.M bins rnd (List.range c.M) (c.binsOf t)).flatMap fun r =>
          (List.range c.M).map fun l => c.otIdx t r.1 + l) := by
      apply flatMap_perm'
      intro r hr
      have := (h2 r hr).1.map (fun l => c.otIdx t r.1 + l)
      rwa [List.map_map] at this
    refine e1.trans ?_
    have e2 : ((recvBins c.M bins rnd (List.range c.M) (c.binsOf t)).flatMap fun r =>
          (List.range c.M).map fun l => c.otIdx t r.1 + l) =
        (c.binsOf t).flatMap fun b => (List.range c.M).map fun l => (b - bound c.B c.T t) * c.M + l := by
      conv => rhs; rw [← h1]
      rw [List.flatMap_map]
      rfl
    rw [e2, ← flatMap_range_mul]
    unfold Cfg.binsOf interval
    rw [List.flatMap_map, List.length_map, List.length_range]
    have e3 : ((List.range (bound c.B c.T (t + 1) - bound c.B c.T t)).flatMap fun a =>
        (List.range c.M).map fun l => (bound c.B c.T t + a - bound c.B c.T t) * c.M + l) =
        (List.range (bound c.B c.T (t + 1) - bound c.B c.T t)).flatMap fun p =>
          (List.range c.M).map fun l => p * c.M + l := by
      apply flatMap_congr'
      intro k _
      rw [Nat.add_sub_cancel_left]
    rw [e3]
  · conv => rhs; rw [← h1]
    rw [List.flatMap_map]
    apply flatMap_congr'
    intro r hr
    exact (h2 r hr).2

example : (recvBins 3 (fun b => [[5, 6], [7]].getD b []) (fun b i => b + i) [0, 1, 2] [0, 1]) =
    [(0, [(0, some 5), (2, some 6), (1, none)]), (1, [(2, some 7), (0, none), (1, none)])] := by decide

/-- C66: with masks of at least eight bytes the receiver reads only inside its buffer. -/
theorem C66_reads_inside_partial (c : Cfg) (h0 : 0 < c.N * c.M) (hms : 8 ≤ c.ms) (ys : List Block)
    (bins : Nat → List Nat) (rnd : Nat → Nat → Nat) (buf : List Nat) : receive c ys bins rnd buf ≠ .ub := by
  rw [receive_ok h0 hms]
  intro h
  cases h

/-- C66 is false of the code for shorter masks: the last row of a full chunk is read as a `u64`, behind the end of
the buffer. Every run with such a mask size does this. -/
theorem C66_reads_outside (c : Cfg) (hT : 0 < c.T) (h0 : 0 < c.N * c.M) (hms : c.ms < 8) (ys : List Block)
    (bins : Nat → List Nat) (rnd : Nat → Nat → Nat) (buf : List Nat) : receive c ys bins rnd buf = .ub := by
  unfold receive
  rw [if_neg (by omega), if_neg]
  intro h
  rw [List.all_eq_true] at h
  have h1 := h 0 (List.mem_range.mpr hT)
  rw [List.all_eq_true] at h1
  have hc := chunk_pos hT h0
  have hcn : c.chunk ≤ c.N * c.M := by
    unfold Cfg.chunk
    have : (c.N * c.M + c.T - 1) / c.T ≤ c.N * c.M := by
      rw [Nat.div_le_iff_le_mul_add_pred hT]
      have := Nat.le_mul_of_pos_left (c.N * c.M) hT
      omega
    omega
  have h2 := h1 0 (List.mem_filter.mpr ⟨List.mem_range.mpr (by
    have := (row_chunk hT h0).1
    rwa [Nat.zero_div] at this), by simp⟩)
  have hlen : (c.rowsOf 0).length = c.chunk := by
    unfold Cfg.rowsOf interval
    rw [List.length_map, List.length_range]
    omega
  rw [hlen] at h2
  unfold Cfg.readsInside at h2
  rw [List.all_eq_true] at h2
  have h3 := h2 (c.chunk - 1) (List.mem_range.mpr (by omega))
  simp only [decide_eq_true_eq] at h3
  have : (c.chunk - 1) * c.ms + c.ms = c.chunk * c.ms := by
    rw [← Nat.succ_mul]; congr 1; omega
  omega

/-- C66: all threads together look up every row of the sender's buffer, once, and no other. -/
theorem C66_rows (c : Cfg) (hT : 0 < c.T) (h0 : 0 < c.N * c.M) :
    ((List.range c.T).flatMap fun t => (c.chunksOf t).flatMap c.rowsOf).Perm (List.range (c.N * c.M)) := by
  have hc := chunk_pos hT h0
  have hmem : ∀ t kk, kk ∈ c.chunksOf t ↔ kk < c.numChunks ∧ kk % c.T = t := by
    intro t kk
    unfold Cfg.chunksOf
    rw [List.mem_filter, List.mem_range, decide_eq_true_eq]
  apply (List.perm_ext_iff_of_nodup ?_ List.nodup_range).mpr
  · intro s
    rw [List.mem_range, List.mem_flatMap]
    constructor
    · rintro ⟨t, _, h⟩
      obtain ⟨kk, hk, h⟩ := List.mem_flatMap.mp h
      exact ((mem_rowsOf hc ((hmem t kk).mp hk).1).mp h).1
    · intro hs
      have h1 := (row_chunk hT hs).1
      exact ⟨s / c.chunk % c.T, List.mem_range.mpr (Nat.mod_lt _ hT), List.mem_flatMap.mpr ⟨s / c.chunk,
        (hmem _ _).mpr ⟨h1, rfl⟩, (mem_rowsOf hc h1).mpr ⟨hs, rfl⟩⟩⟩
  · rw [List.nodup_iff_pairwise_ne, List.pairwise_flatMap]
    constructor
    · intro t _
      rw [List.pairwise_flatMap]
      constructor
      · intro kk _
        exact List.nodup_iff_pairwise_ne.mp (interval_nodup _ _)
      · have hn : (c.chunksOf t).Nodup := List.nodup_range.filter _
        refine List.Pairwise.imp_of_mem ?_ (List.nodup_iff_pairwise_ne.mp hn)
        intro a b ha hb hne x hx y hy he
        rw [mem_rowsOf hc ((hmem _ _).mp ha).1] at hx
        rw [mem_rowsOf hc ((hmem _ _).mp hb).1] at hy
        exact hne (by rw [← hx.2, ← hy.2, he])
    · refine List.Pairwise.imp ?_ (List.nodup_iff_pairwise_ne.mp (List.nodup_range (n := c.T)))
      intro a b hne x hx y hy he
      obtain ⟨k, hk, hx⟩ := List.mem_flatMap.mp hx
      obtain ⟨k', hk', hy⟩ := List.mem_flatMap.mp hy
      rw [hmem] at hk hk'
      rw [mem_rowsOf hc hk.1] at hx
      rw [mem_rowsOf hc hk'.1] at hy
      exact hne (by rw [← hk.2, ← hk'.2, ← hx.2, ← hy.2, he])

example : let c : Cfg := ⟨5, 3, 2, 3, 8, fun _ _ x => x, fun _ _ x => x⟩
    (List.range c.T).map (fun t => (c.chunksOf t).flatMap c.rowsOf) = [[0, 1, 2, 3], [4, 5, 6, 7], [8, 9]] := by
  decide +kernel

/-- C96: for every number of threads, every reported index belongs to a common element, unless the masks of two different
elements agree in all transmitted bytes (`hcoll`: OT numbers of the masks are arbitrary below the number of OTs of
their thread). -/
theorem C96_sound (c : Cfg) (hash : Option (Block → Block)) (X Y : List Block)
    (sbins rbins perms : Nat → List Nat) (maskPerm sched : List Nat) (rnd : Nat → Nat → Nat)
    (hT : 0 < c.T) (hB : 0 < c.B) (hov : c.B * c.T < 2 ^ 64) (h0 : 0 < c.N * c.M)
    (hS : Placed c (hashed hash X) sbins) (hR : Placed c (hashed hash Y) rbins)
    (hperms : ∀ b, b < c.B → (perms b).Perm (List.range c.M)) (hp : maskPerm.Perm (List.range c.N))
    (hf : ∀ t, t < c.T → (sched.foldl (sendStep sbins) (sendStart c)).todo t = [])
    (hcoll : ∀ i j t t' k k' l l', i < X.length → j < Y.length → t < c.T → t' < c.T → k < c.B * c.M → k' < c.B * c.M →
      l < c.B * c.M → l' < c.B * c.M →
      cut c.ms (c.F2 t k ((otInputs hash c X).getD i 0) ^^^ c.F1 t k' ((otInputs hash c X).getD i 0)) =
        cut c.ms (c.F1 t' l ((otInputs hash c Y).getD j 0) ^^^ c.F2 t' l' ((otInputs hash c Y).getD j 0)) →
      X.getD i 0 = Y.getD j 0)
    (res : List Nat)
    (hres : online c (otInputs hash c X) (otInputs hash c Y) sbins rbins perms maskPerm rnd sched = .ok res)
    (j : Nat) (hj : j ∈ res) : ∃ h : j < Y.length, Y[j] ∈ X := by
  have hlX : X.length = c.N := by have := hS.len; simpa [hashed] using this
  have hlY : Y.length = c.N := by have := hR.len; simpa [hashed] using this
  have hHS := hS.holds hB
  have hHR := hR.holds hB
  have hinv := sInv_sched (c := c) (bins := sbins) sched (sInv_start c sbins)
  have hs := slots_final hinv hf hT hov hHS hp
  obtain ⟨buf, hb1, hb2, hb3⟩ := sendBuffer_ok (perms := perms) (otInputs hash c X) hs
  have hc := chunk_pos hT h0
  have hk : ∀ {t b l}, t < c.T → b ∈ c.binsOf t → l < c.M → c.otIdx t b + l < c.B * c.M := by
    intro t b l ht hb hl
    have := binsOf_lt hT hov ht hb
    have h2 : (b + 1) * c.M ≤ c.B * c.M := Nat.mul_le_mul_right _ this
    have h3 : c.otIdx t b ≤ b * c.M := Nat.mul_le_mul_right _ (Nat.sub_le _ _)
    rw [Nat.add_mul, Nat.one_mul] at h2
    omega
  unfold online at hres
  split at hres
  · cases hres
  · rw [hb1] at hres
    simp only [Out.bind] at hres
    unfold receive at hres
    rw [if_neg (by omega)] at hres
    split at hres
    · injection hres with hres
      rw [← hres] at hj
      obtain ⟨t, ht, hj⟩ := List.mem_flatMap.mp hj
      have ht := List.mem_range.mp ht
      obtain ⟨kk, hkk, hj⟩ := List.mem_flatMap.mp hj
      obtain ⟨s, hsr, hj⟩ := List.mem_filterMap.mp hj
      have hs0 : s < c.N * c.M := ((mem_rowsOf hc (List.mem_range.mp (List.mem_filter.mp hkk).1)).mp hsr).1
      obtain ⟨e, he, hm, hq⟩ := lookup_some hj
      obtain ⟨b, hb, he⟩ := List.mem_flatMap.mp he
      obtain ⟨idx, hidx, he⟩ := List.mem_flatMap.mp he
      obtain ⟨l, hl, rfl⟩ := List.mem_map.mp he
      have hl := List.mem_range.mp hl
      have hM : 0 < c.M := by omega
      have hij : idx = j := by
        rw [← hq]
        show idx = (idx * c.M + l) / c.M
        rw [Nat.mul_comm, Nat.mul_add_div hM, Nat.div_eq_of_lt hl, Nat.add_zero]
      subst hij
      obtain ⟨a', ha', hma'⟩ := receiverMasks_spec (otInputs hash c Y) rnd hT hov hHR hR.cap ht hb hidx
      have hbB := binsOf_lt hT hov ht hb
      have hjN : idx < Y.length := by
        rw [hlY]
        exact List.mem_range.mp (List.mem_filter.mp ((hR.mem b hbB).mem_iff.mp hidx)).1
      -- the row
      have hrow := hs.mem_iff.mpr (List.mem_map.mpr ⟨s, List.mem_range.mpr hs0, rfl⟩)
      obtain ⟨⟨o, t', b', i, l'⟩, hr1, hr2⟩ := List.mem_map.mp hrow
      simp only at hr2
      subst hr2
      obtain ⟨h1, h2, h3, h4⟩ := sendRows_inv (hinv.done_perm hf) hr1
      obtain ⟨a, ha, hma⟩ := senderMasks_spec (otInputs hash c X) hT hov hHS hS.cap hperms h1 h2 h3
      have hval := (hb3 s t' b' i l' hr1).2
      have hiN : i < X.length := by
        rw [hlX]
        exact List.mem_range.mp (List.mem_filter.mp ((hS.mem b' (binsOf_lt hT hov h1 h2)).mem_iff.mp h3)).1
      rw [hval] at hm
      unfold sendMask at hm
      simp only at hm
      rw [hma, hma'] at hm
      have := hcoll i idx t' t _ _ _ _ hiN hjN h1 ht (hk h1 h2 h4) (hk h1 h2 ha) (hk ht hb hl) (hk ht hb ha') hm.symm
      refine ⟨hjN, ?_⟩
      rw [Kkrt.getD_eq hiN, Kkrt.getD_eq hjN] at this
      rw [← this]
      exact List.getElem_mem _
    · cases hres

/-- A run whose result is not empty and for which the assumption on the masks holds: `F1` and `F2` are such that the masks
are the elements themselves. -/
example : let c : Cfg := ⟨2, 2, 1, 2, 8, fun _ _ x => x, fun _ _ _ => 0⟩
    online c [2#128, 5#128] [2#128, 3#128] exBins exBins (fun _ => [0]) [0, 1] (fun _ _ => 0) [0, 1] = .ok [0] := by
  decide +kernel

end Verif.Rr17
