import Verif.Rr17bModel
import Verif.Rr17aLemmas
/-
Helper lemmas for the RR17b model.
-/
namespace Verif.Rr17b
open Verif Part Rr17

variable {D : Type}

/-! ### ranges -/

theorem ranges_of_dvd {B T t : Nat} (hT : 0 < T) (hd : T ∣ B) (ht : t < T) (hov : (B + T) * T < 2 ^ 64) :
    bound B T t = t * (B / T) ∧ bound B T (t + 1) = (t + 1) * (B / T) ∧
    ceilStart B T t = t * (B / T) ∧ ceilEnd B T t = (t + 1) * (B / T) := by
  obtain ⟨q, rfl⟩ := hd
  have hq : T * q / T = q := Nat.mul_div_cancel_left q hT
  have hTT : T ≤ T * T := Nat.le_mul_of_pos_left T hT
  have hqT : T * q ≤ T * q * T := Nat.le_mul_of_pos_right _ hT
  rw [Nat.add_mul] at hov
  have hb : ∀ u, u ≤ T → bound (T * q) T u = u * q := by
    intro u hu
    unfold bound
    rw [Nat.mod_eq_of_lt (Nat.lt_of_le_of_lt (Nat.mul_le_mul_left _ hu) (by omega)), Nat.mul_assoc,
      Nat.mul_div_cancel_left _ hT, Nat.mul_comm]
  have hp : perThread (T * q) T = q := by
    unfold perThread
    rw [Nat.mod_eq_of_lt (by omega), show T * q + T - 1 = T * q + (T - 1) by omega, Nat.mul_add_div hT,
      Nat.div_eq_of_lt (by omega), Nat.add_zero]
  have hm : ∀ u, u ≤ T → u * q ≤ T * q := fun u hu => Nat.mul_le_mul_right q hu
  refine ⟨?_, ?_, ?_, ?_⟩
  · rw [hb t (by omega), hq]
  · rw [hb (t + 1) (by omega), hq]
  · unfold ceilStart
    rw [hp, hq, Nat.mod_eq_of_lt (by have := hm t (by omega); omega)]
  · unfold ceilEnd
    rw [hp, hq, Nat.mod_eq_of_lt (by have := hm (t + 1) (by omega); omega)]
    exact Nat.min_eq_left (hm (t + 1) (by omega))

/-! ### memory -/

theorem buffer_get {ws : List (Nat × Cell D)} {a : Nat} {x : Cell D} (h : (a, x) ∈ ws)
    (hu : ∀ y, (a, y) ∈ ws → y = x) : buffer ws a = some x := by
  unfold buffer
  cases hf : ws.reverse.find? fun w => w.1 == a with
  | none =>
    rw [List.find?_eq_none] at hf
    exact absurd (by simp) (hf (a, x) (List.mem_reverse.mpr h))
  | some w =>
    have h1 := List.find?_some hf
    have h2 := List.mem_reverse.mp (List.mem_of_find?_eq_some hf)
    simp only [beq_iff_eq] at h1
    obtain ⟨w1, w2⟩ := w
    simp only at h1
    subst h1
    rw [hu w2 h2]
    rfl

theorem offset_inj {p q S u v : Nat} (hu : u < S) (hv : v < S) (h : p * S + u = q * S + v) : p = q ∧ u = v := by
  have hS : 0 < S := by omega
  have h1 : (p * S + u) / S = p := by
    rw [Nat.mul_comm, Nat.mul_add_div hS, Nat.div_eq_of_lt hu, Nat.add_zero]
  have h2 : (q * S + v) / S = q := by
    rw [Nat.mul_comm, Nat.mul_add_div hS, Nat.div_eq_of_lt hv, Nat.add_zero]
  have : p = q := by rw [← h1, ← h2, h]
  subst this
  exact ⟨rfl, by omega⟩

/-! ### loops -/

/-- Record number `q` at its place in the memory. -/
def RecAt (c : Cfg D) (mem : Nat → Option (Cell D)) (q : Nat) (d : D) (ts : Nat → Nat) (es : Nat → Block) : Prop :=
  mem (q * c.setSize) = some (.comm d) ∧
  ∀ l, l < c.M → mem (q * c.setSize + 20 + 20 * l) = some (.pair (ts l) (es l))

variable [DecidableEq D]

theorem pairLoop_ok (c : Cfg D) (Y : List Block) (tagMap : List (Nat × Nat × Block)) (mem : Nat → Option (Cell D))
    (size : Nat) (d : D) (base : Nat) (ts : Nat → Nat) (es : Nat → Block)
    (hmem : ∀ l, l < c.M → mem (base + 20 * l) = some (.pair (ts l) (es l)))
    (hsize : base + 20 * c.M ≤ size) (n k : Nat) (hk : k + n = c.M) :
    pairLoop c Y tagMap mem size d n (base + 20 * k) =
      .ok ((interval k c.M).findSome? fun l => tryPair c Y tagMap d (ts l) (es l), base + 20 * c.M) := by
  induction n generalizing k with
  | zero =>
    have : interval k c.M = [] := by
      unfold interval; rw [show c.M - k = 0 by omega]; rfl
    rw [this]
    unfold pairLoop
    rw [show k = c.M by omega]
    rfl
  | succ n ih =>
    have hi : interval k c.M = k :: interval (k + 1) c.M := by
      unfold interval
      rw [show c.M - k = (c.M - (k + 1)) + 1 by omega, List.range_succ_eq_map, List.map_cons, List.map_map,
        Nat.add_zero]
      congr 1
      apply List.map_congr_left
      intro x _
      simp only [Function.comp]
      omega
    unfold pairLoop
    rw [hmem k (by omega)]
    simp only
    rw [if_neg (by omega), hi, List.findSome?_cons]
    cases htp : tryPair c Y tagMap d (ts k) (es k) with
    | some idx =>
      simp only
      congr 2
      omega
    | none =>
      simp only
      have := ih (k + 1) (by omega)
      rw [show base + 20 * k + 20 = base + 20 * (k + 1) by omega]
      exact this

theorem interval_succ_right {a n : Nat} : interval a (a + (n + 1)) = a :: interval (a + 1) (a + 1 + n) := by
  unfold interval
  rw [show a + (n + 1) - a = n + 1 by omega, show a + 1 + n - (a + 1) = n by omega, List.range_succ_eq_map,
    List.map_cons, List.map_map, Nat.add_zero]
  congr 1
  apply List.map_congr_left
  intro x _
  simp only [Function.comp]
  omega

/-- First match in a record. -/
def firstMatch (c : Cfg D) (Y : List Block) (tagMap : List (Nat × Nat × Block)) (d : D) (ts : Nat → Nat)
    (es : Nat → Block) : Option Nat :=
  (List.range c.M).findSome? fun l => tryPair c Y tagMap d (ts l) (es l)

theorem recordLoop_ok (c : Cfg D) (Y : List Block) (tagMap : List (Nat × Nat × Block)) (mem : Nat → Option (Cell D))
    (a num : Nat) (d : Nat → D) (ts : Nat → Nat → Nat) (es : Nat → Nat → Block)
    (hrec : ∀ q, a ≤ q → q < a + num → RecAt c mem q (d q) (ts q) (es q)) (n k : Nat) (hk : k + n = num) :
    recordLoop c Y tagMap (fun o => mem (a * c.setSize + o)) (num * c.setSize) n (k * c.setSize) =
      .ok ((interval (a + k) (a + k + n)).filterMap fun q => firstMatch c Y tagMap (d q) (ts q) (es q)) := by
  induction n generalizing k with
  | zero =>
    unfold recordLoop interval
    rw [show a + k + 0 - (a + k) = 0 by omega]
    rfl
  | succ n ih =>
    obtain ⟨h1, h2⟩ := hrec (a + k) (by omega) (by omega)
    unfold recordLoop
    have e : a * c.setSize + k * c.setSize = (a + k) * c.setSize := by rw [Nat.add_mul]
    simp only [e, h1]
    have hle : (k + 1) * c.setSize ≤ num * c.setSize := Nat.mul_le_mul_right _ (by omega)
    have hS : c.setSize = 20 * c.M + 20 := rfl
    have hk1 : (k + 1) * c.setSize = k * c.setSize + 20 + 20 * c.M := by
      rw [Nat.add_mul, Nat.one_mul, hS]; omega
    have hp := pairLoop_ok c Y tagMap (fun o => mem (a * c.setSize + o)) (num * c.setSize) (d (a + k))
      (k * c.setSize + 20) (ts (a + k)) (es (a + k))
      (fun l hl => by
        have := h2 l hl
        rw [← e] at this
        rw [← this]
        congr 1
        omega) (by omega) c.M 0 (by omega)
    rw [show k * c.setSize + 20 + 20 * 0 = k * c.setSize + 20 by omega] at hp
    rw [hp, interval_zero, interval_succ_right, List.filterMap_cons]
    have hi := ih (k + 1) (by omega)
    rw [hk1] at hi
    simp only [Out.bind]
    rw [hi]
    simp only [Out.bind]
    show Out.ok _ = _
    have hfm : (List.range c.M).findSome? (fun l => tryPair c Y tagMap (d (a + k)) (ts (a + k) l) (es (a + k) l)) =
        firstMatch c Y tagMap (d (a + k)) (ts (a + k)) (es (a + k)) := rfl
    rw [hfm]
    cases firstMatch c Y tagMap (d (a + k)) (ts (a + k)) (es (a + k)) with
    | none => simp [Nat.add_assoc]
    | some idx => simp [Nat.add_assoc]

theorem seqAll_ok {α β : Type} (f : α → Out (List β)) (g : α → List β) (l : List α)
    (h : ∀ a ∈ l, f a = .ok (g a)) : seqAll f l = .ok (l.flatMap g) := by
  induction l with
  | nil => rfl
  | cons a l ih =>
    unfold seqAll
    rw [h a (List.mem_cons_self ..), ih fun b hb => h b (List.mem_cons_of_mem _ hb)]
    rfl

theorem chunks_cover_aux (s a e : Nat) (hs : 0 < s) :
    ((List.range ((e - a + (s - 1)) / s)).map fun k => (a + k * s, min s (e - (a + k * s)))).flatMap
      (fun ch => interval ch.1 (ch.1 + ch.2)) = interval a e := by
  rw [List.flatMap_map]
  have h1 := Nat.div_add_mod (e - a + (s - 1)) s
  have h2 := Nat.mod_lt (e - a + (s - 1)) hs
  generalize (e - a + (s - 1)) / s = K at *
  have key : (List.range K).flatMap (fun k => interval (a + k * s) (a + k * s + min s (e - (a + k * s)))) =
      (List.range K).flatMap (fun k => interval (min (a + k * s) (max a e)) (min (a + (k + 1) * s) (max a e))) := by
    apply flatMap_congr'
    intro k hk
    have hk := List.mem_range.mp hk
    have h3 : (k + 1) * s ≤ K * s := Nat.mul_le_mul_right _ (by omega)
    rw [Nat.add_mul, Nat.one_mul] at h3
    rw [Nat.mul_comm] at h1
    have e1 : min (a + k * s) (max a e) = a + k * s := by omega
    have e2 : min (a + (k + 1) * s) (max a e) = a + k * s + min s (e - (a + k * s)) := by
      rw [Nat.add_mul, Nat.one_mul]; omega
    rw [e1, e2]
  simp only
  rw [key, flatMap_interval (fun k => min (a + k * s) (max a e))]
  · unfold interval
    rw [Nat.mul_comm] at h1
    rw [show min (a + 0 * s) (max a e) = a by omega, show min (a + K * s) (max a e) - a = e - a by omega]
  · intro k _
    rw [Nat.add_mul, Nat.one_mul]
    omega

/-- The chunks of a thread cover its records in order. -/
theorem chunks_cover (c : Cfg D) (t : Nat) :
    (c.chunksOf t).flatMap (fun ch => interval ch.1 (ch.1 + ch.2)) =
      interval (ceilStart c.N c.T t) (ceilEnd c.N c.T t) :=
  chunks_cover_aux (2 ^ 14) _ _ (by decide)

theorem recvThread_ok (c : Cfg D) (Y : List Block) (tagMap : List (Nat × Nat × Block)) (mem : Nat → Option (Cell D))
    (d : Nat → D) (ts : Nat → Nat → Nat) (es : Nat → Nat → Block)
    (hrec : ∀ q, q < c.N → RecAt c mem q (d q) (ts q) (es q)) (t : Nat) :
    recvThread c Y tagMap mem t =
      .ok ((interval (ceilStart c.N c.T t) (ceilEnd c.N c.T t)).filterMap fun q =>
        firstMatch c Y tagMap (d q) (ts q) (es q)) := by
  unfold recvThread
  rw [seqAll_ok _ (fun ch => (interval ch.1 (ch.1 + ch.2)).filterMap fun q =>
    firstMatch c Y tagMap (d q) (ts q) (es q))]
  · rw [← chunks_cover c t, List.filterMap_flatMap]
  · intro ch hch
    have hin : ch.1 + ch.2 ≤ c.N ∨ ch.2 = 0 := by
      unfold Cfg.chunksOf at hch
      obtain ⟨k, _, rfl⟩ := List.mem_map.mp hch
      have : ceilEnd c.N c.T t ≤ c.N := Nat.min_le_right _ _
      simp only
      omega
    have := recordLoop_ok c Y tagMap mem ch.1 ch.2 d ts es (fun q _ hq => hrec q (by omega)) ch.2 0 (by omega)
    rw [Nat.zero_mul, Nat.add_zero] at this
    exact this

theorem online_ok (c : Cfg D) (X Y : List Block) (ot : Block → Block) (r : Nat → Block) (perm : List Nat)
    (sbins : Nat → List Nat) (tagMap : List (Nat × Nat × Block)) (hT : 0 < c.T) (hov : (c.N + c.T) * c.T < 2 ^ 64)
    (d : Nat → D) (ts : Nat → Nat → Nat) (es : Nat → Nat → Block)
    (hrec : ∀ q, q < c.N → RecAt c (buffer ((List.range c.T).flatMap (threadStores c X ot r perm sbins))) q
      (d q) (ts q) (es q)) :
    online c X Y ot r perm sbins tagMap =
      .ok ((List.range c.N).filterMap fun q => firstMatch c Y tagMap (d q) (ts q) (es q)) := by
  unfold online
  rw [seqAll_ok _ _ _ fun t _ => recvThread_ok c Y tagMap _ d ts es hrec t, ← C31_ceil_ranges c.N c.T hT hov,
    List.filterMap_flatMap]

end Verif.Rr17b
