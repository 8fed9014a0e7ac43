import Verif.PrtyShareModel
import Verif.PartProps
import Mathlib.Data.List.Perm.Basic
import Mathlib.Data.List.Nodup
/-!
C142: however the threads of a PRTY party are scheduled, no mask and no hit is lost.
-/
namespace Verif.PrtyShare
open Verif

/-- All values for buffer `h` of `T` threads. -/
def valuesFor (T : Nat) (todo : Nat → List (Nat × Block)) (h : Nat) : List Block :=
  ((List.range T).flatMap todo).filterMap fun m => if m.1 = h then some m.2 else none

/-- What buffer `h` holds up to its counter. -/
def stored (s : St) (h : Nat) : List Block := (List.range (s.cnt h)).map (s.buf h)

/-- All threads are through. -/
def Done (T : Nat) (s : St) : Prop := ∀ t < T, s.todo t = [] ∧ s.pc t = .idle

/-! ### Lemmas -/

theorem flatMap_take {β : Type} (f : Nat → List β) (t : Nat) (m : β) (r : List β) (hf : f t = m :: r) :
    ∀ l : List Nat, l.Nodup → t ∈ l → (l.flatMap f).Perm (m :: l.flatMap (Function.update f t r)) := by
  intro l
  induction l with
  | nil => intro _ h; simp at h
  | cons a l ih =>
    intro hn hm
    rw [List.flatMap_cons, List.flatMap_cons]
    by_cases ha : a = t
    · subst ha
      have : l.flatMap (Function.update f a r) = l.flatMap f := by
        rw [List.flatMap_def, List.flatMap_def]
        congr 1
        apply List.map_congr_left
        intro x hx
        have hxa : x ≠ a := by
          intro e; subst e; exact (List.nodup_cons.mp hn).1 hx
        rw [Function.update_of_ne hxa]
      rw [this, hf, Function.update_self]
      exact .refl _
    · have hm' : t ∈ l := by
        rcases List.mem_cons.mp hm with h | h
        · exact absurd h.symm ha
        · exact h
      rw [Function.update_of_ne ha]
      refine (List.Perm.append_left _ (ih (List.nodup_cons.mp hn).2 hm')).trans ?_
      exact List.perm_middle

theorem values_take {T t h : Nat} {v : Block} {todo : Nat → List (Nat × Block)} {l : List (Nat × Block)} (ht : t < T)
    (hf : todo t = (h, v) :: l) (g : Nat) :
    (valuesFor T todo g).Perm ((if h = g then [v] else []) ++ valuesFor T (Function.update todo t l) g) := by
  unfold valuesFor
  have hp := (flatMap_take todo t (h, v) l hf (List.range T) List.nodup_range (List.mem_range.mpr ht)).filterMap
    fun m : Nat × Block => if m.1 = g then some m.2 else none
  refine hp.trans ?_
  rw [List.filterMap_cons]
  by_cases e : h = g
  · simp [e]
  · simp [e]

theorem stored_store (s : St) (h : Nat) (v : Block) (g : Nat) :
    (List.range (Function.update s.cnt h (s.cnt h + 1) g)).map (store s.buf h (s.cnt h) v g) =
      stored s g ++ if h = g then [v] else [] := by
  unfold stored store
  by_cases e : g = h
  · subst e
    rw [Function.update_self, Function.update_self, List.range_succ, List.map_append]
    simp only [List.map_cons, List.map_nil, Function.update_self, if_true]
    congr 1
    apply List.map_congr_left
    intro i hi
    have : i ≠ s.cnt g := by have := List.mem_range.mp hi; omega
    rw [Function.update_of_ne this]
  · rw [Function.update_of_ne e, Function.update_of_ne e, if_neg (fun h' => e h'.symm), List.append_nil]

/-- Stored and still to do together are the values. -/
theorem locked_inv (T : Nat) (all : Nat → List Block) : ∀ (sched : List Nat) (s : St), (∀ t ∈ sched, t < T) →
    (∀ g, (stored s g ++ valuesFor T s.todo g).Perm (all g)) →
    ∀ g, (stored (run locked sched s) g ++ valuesFor T (run locked sched s).todo g).Perm (all g) := by
  intro sched
  induction sched with
  | nil => intro s _ h; exact h
  | cons t sched ih =>
    intro s hs h
    show ∀ g, (stored (run locked sched (locked t s)) g ++ valuesFor T (run locked sched (locked t s)).todo g).Perm (all g)
    refine ih _ (fun x hx => hs x (List.mem_cons_of_mem _ hx)) ?_
    intro g
    have ht : t < T := hs t List.mem_cons_self
    rcases e : s.todo t with _ | ⟨⟨k, v⟩, l⟩
    · have : locked t s = s := by unfold locked; rw [e]
      rw [this]; exact h g
    · have hl : locked t s = { s with todo := Function.update s.todo t l, cnt := Function.update s.cnt k (s.cnt k + 1), buf := store s.buf k (s.cnt k) v } := by
        unfold locked; rw [e]
      rw [hl]
      show ((List.range (Function.update s.cnt k (s.cnt k + 1) g)).map (store s.buf k (s.cnt k) v g) ++
        valuesFor T (Function.update s.todo t l) g).Perm (all g)
      rw [stored_store, List.append_assoc]
      exact ((values_take ht e g).symm.append_left _).trans (h g)

theorem values_nil {T : Nat} {todo : Nat → List (Nat × Block)} (h : ∀ t < T, todo t = []) (g : Nat) :
    valuesFor T todo g = [] := by
  unfold valuesFor
  have : (List.range T).flatMap todo = [] := by
    rw [List.flatMap_eq_nil_iff]
    intro t ht
    exact h t (List.mem_range.mp ht)
  rw [this]; rfl

/-! ### The property -/

/-- C142, `outputBestComm` of the sender and the receiver's hits with more than 8-byte masks: under the mutex, every
schedule that lets the threads finish leaves exactly the values of all threads, each once, at the positions up to the
counter. -/
theorem C142_locked (T : Nat) (todo : Nat → List (Nat × Block)) (sched : List Nat) (hs : ∀ t ∈ sched, t < T)
    (hd : Done T (run locked sched (start todo))) (h : Nat) :
    (stored (run locked sched (start todo)) h).Perm (valuesFor T todo h) := by
  have := locked_inv T (valuesFor T todo) sched (start todo) hs (by intro g; exact List.Perm.refl _) h
  rwa [values_nil (fun t ht => (hd t ht).1), List.append_nil] at this

/-- Thus as many positions are used as there are values, so a buffer for that many is not left. -/
theorem C142_locked_inside (T : Nat) (todo : Nat → List (Nat × Block)) (sched : List Nat) (hs : ∀ t ∈ sched, t < T)
    (h : Nat) : (run locked sched (start todo)).cnt h ≤ (valuesFor T todo h).length := by
  have := (locked_inv T (valuesFor T todo) sched (start todo) hs (by intro g; exact List.Perm.refl _) h).length_eq
  simp only [stored, List.length_append, List.length_map, List.length_range] at this
  omega

/-- What one thread has in hand. -/
def inHand : Pc → Nat → List Block
  | .idle, _ => []
  | .loaded _ h v, g => if h = g then [v] else []
  | .half _ h v, g => if h = g then [v] else []

/-- Without lock, one thread alone (`early` as in `free`). -/
structure Alone (early : Bool) (all : Nat → List Block) (s : St) : Prop where
  idle : s.pc 0 = .idle → ∀ g, stored s g ++ valuesFor 1 s.todo g = all g
  loaded : ∀ r h v, s.pc 0 = .loaded r h v → r = s.cnt h ∧
    ∀ g, stored s g ++ ((if h = g then [v] else []) ++ valuesFor 1 s.todo g) = all g
  half : ∀ r h v, s.pc 0 = .half r h v →
    ∀ g, (List.range (if h = g then r else s.cnt g)).map (s.buf g) ++ ((if h = g then [v] else []) ++ valuesFor 1 s.todo g)
      = all g ∧ (early = true → s.cnt h = r + 1) ∧ (early = false → s.cnt h = r ∧ s.buf h r = v)

theorem values_one (todo : Nat → List (Nat × Block)) (g : Nat) :
    valuesFor 1 todo g = (todo 0).filterMap fun m => if m.1 = g then some m.2 else none := by
  unfold valuesFor
  rw [List.range_one, List.flatMap_cons, List.flatMap_nil, List.append_nil]

theorem alone_step (early : Bool) (all : Nat → List Block) (s : St) (h : Alone early all s) : Alone early all (free early 0 s) := by
  obtain ⟨h1, h2, h3⟩ := h
  rcases e : s.pc 0 with _ | ⟨r, k, v⟩ | ⟨r, k, v⟩
  · rcases e' : s.todo 0 with _ | ⟨⟨k, v⟩, l⟩
    · have : free early 0 s = s := by unfold free; rw [e]; simp only; rw [e']
      rw [this]; exact ⟨h1, h2, h3⟩
    · have : free early 0 s = { s with todo := Function.update s.todo 0 l, pc := Function.update s.pc 0 (.loaded (s.cnt k) k v) } := by
        unfold free; rw [e]; simp only; rw [e']
      rw [this]
      refine ⟨?_, ?_, ?_⟩
      · intro hp; simp at hp
      · intro r' k' v' hp
        simp only [Function.update_self, Pc.loaded.injEq] at hp
        obtain ⟨rfl, rfl, rfl⟩ := hp
        refine ⟨rfl, fun g => ?_⟩
        rw [← h1 e g, values_one, values_one, e', List.filterMap_cons]
        by_cases eg : k = g
        · simp [eg, stored]
        · simp [eg, stored]
      · intro r' k' v' hp; simp at hp
  · obtain ⟨hr, hg⟩ := h2 r k v e
    cases early with
    | true =>
      have : free true 0 s = { s with cnt := Function.update s.cnt k (r + 1), pc := Function.update s.pc 0 (.half r k v) } := by
        unfold free; rw [e]; rfl
      rw [this]
      refine ⟨fun hp => by simp at hp, fun _ _ _ hp => by simp at hp, ?_⟩
      intro r' k' v' hp g
      simp only [Function.update_self, Pc.half.injEq] at hp
      obtain ⟨rfl, rfl, rfl⟩ := hp
      refine ⟨?_, fun _ => by simp, fun h => by simp at h⟩
      rw [← hg g]
      unfold stored
      by_cases eg : k = g
      · subst eg; simp [hr]
      · simp [eg, Function.update_of_ne (Ne.symm eg)]
    | false =>
      have : free false 0 s = { s with buf := store s.buf k r v, pc := Function.update s.pc 0 (.half r k v) } := by
        unfold free; rw [e]; rfl
      rw [this]
      refine ⟨fun hp => by simp at hp, fun _ _ _ hp => by simp at hp, ?_⟩
      intro r' k' v' hp g
      simp only [Function.update_self, Pc.half.injEq] at hp
      obtain ⟨rfl, rfl, rfl⟩ := hp
      refine ⟨?_, fun h => by simp at h, fun _ => ⟨hr.symm, by simp [store]⟩⟩
      rw [← hg g]
      unfold stored store
      by_cases eg : k = g
      · subst eg
        simp only [if_true, Function.update_self, hr]
        congr 1
        apply List.map_congr_left
        intro i hi
        have : i ≠ s.cnt k := by have := List.mem_range.mp hi; omega
        rw [Function.update_of_ne this]
      · simp [eg, Function.update_of_ne (Ne.symm eg)]
  · cases early with
    | true =>
      have : free true 0 s = { s with buf := store s.buf k r v, pc := Function.update s.pc 0 .idle } := by
        unfold free; rw [e]; rfl
      rw [this]
      refine ⟨?_, fun _ _ _ hp => by simp at hp, fun _ _ _ hp => by simp at hp⟩
      intro _ g
      obtain ⟨ha, hc, _⟩ := h3 r k v e g
      rw [← ha]
      have hc := hc rfl
      unfold stored store
      by_cases eg : k = g
      · subst eg
        simp only [if_true, hc, Function.update_self, List.range_succ, List.map_append, List.append_assoc]
        congr 1
        · apply List.map_congr_left
          intro i hi
          have : i ≠ r := by have := List.mem_range.mp hi; omega
          rw [Function.update_of_ne this]
        · simp
      · simp [eg, Function.update_of_ne (Ne.symm eg)]
    | false =>
      have : free false 0 s = { s with cnt := Function.update s.cnt k (r + 1), pc := Function.update s.pc 0 .idle } := by
        unfold free; rw [e]; rfl
      rw [this]
      refine ⟨?_, fun _ _ _ hp => by simp at hp, fun _ _ _ hp => by simp at hp⟩
      intro _ g
      obtain ⟨ha, _, hc⟩ := h3 r k v e g
      obtain ⟨_, hb⟩ := hc rfl
      rw [← ha]
      unfold stored
      by_cases eg : k = g
      · subst eg
        simp only [if_true, Function.update_self, List.range_succ, List.map_append, List.append_assoc]
        simp [hb]
      · simp [eg, Function.update_of_ne (Ne.symm eg)]

/-- C142 without lock (`output` of the sender, hits of `output` with short masks), the part that is true: with one thread
the values are stored in order. -/
theorem C142_free_partial (early : Bool) (todo : Nat → List (Nat × Block)) (k : Nat)
    (hd : Done 1 (run (free early) (List.replicate k 0) (start todo))) (h : Nat) :
    stored (run (free early) (List.replicate k 0) (start todo)) h = valuesFor 1 todo h := by
  have key : ∀ k s, Alone early (valuesFor 1 todo) s → Alone early (valuesFor 1 todo) (run (free early) (List.replicate k 0) s) := by
    intro k
    induction k with
    | zero => intro s hs; exact hs
    | succ k ih => intro s hs; exact ih _ (alone_step early _ s hs)
  have h0 : Alone early (valuesFor 1 todo) (start todo) :=
    ⟨fun _ g => by simp [start, stored], fun _ _ _ hp => by simp [start] at hp, fun _ _ _ hp => by simp [start] at hp⟩
  have := (key k _ h0).idle (hd 0 (by decide)).2 h
  rwa [values_nil (fun t ht => by
    have : t = 0 := by omega
    subst this; exact (hd 0 (by decide)).1), List.append_nil] at this

/-- The value `v` of buffer `h` is nowhere. -/
def Gone (h : Nat) (v : Block) (s : St) : Prop :=
  (∀ i, s.buf h i ≠ v) ∧ (∀ t, (h, v) ∉ s.todo t) ∧ ∀ t r, s.pc t ≠ .loaded r h v ∧ s.pc t ≠ .half r h v

theorem store_ne {buf : Nat → Nat → Block} {h k r i : Nat} {v w : Block} (hb : ∀ i, buf h i ≠ v) (hw : k = h → w ≠ v) :
    store buf k r w h i ≠ v := by
  unfold store
  by_cases e : h = k
  · subst e
    rw [Function.update_self]
    by_cases e' : i = r
    · subst e'; rw [Function.update_self]; exact hw rfl
    · rw [Function.update_of_ne e']; exact hb i
  · rw [Function.update_of_ne e]; exact hb i

theorem gone_step (early : Bool) (h : Nat) (v : Block) (t : Nat) (s : St) (hg : Gone h v s) : Gone h v (free early t s) := by
  obtain ⟨h1, h2, h3⟩ := hg
  have upd : ∀ p : Pc, (∀ r, p ≠ .loaded r h v ∧ p ≠ .half r h v) →
      ∀ t' r, Function.update s.pc t p t' ≠ .loaded r h v ∧ Function.update s.pc t p t' ≠ .half r h v := by
    intro p hp t' r
    by_cases e : t' = t
    · subst e; rw [Function.update_self]; exact hp r
    · rw [Function.update_of_ne e]; exact h3 t' r
  rcases e : s.pc t with _ | ⟨r, k, w⟩ | ⟨r, k, w⟩
  · rcases e' : s.todo t with _ | ⟨⟨k, w⟩, l⟩
    · have : free early t s = s := by unfold free; rw [e]; simp only; rw [e']
      rw [this]; exact ⟨h1, h2, h3⟩
    · have : free early t s = { s with todo := Function.update s.todo t l, pc := Function.update s.pc t (.loaded (s.cnt k) k w) } := by
        unfold free; rw [e]; simp only; rw [e']
      rw [this]
      have hm := h2 t
      rw [e', List.mem_cons, not_or] at hm
      refine ⟨h1, ?_, upd _ ?_⟩
      · intro t'
        show (h, v) ∉ Function.update s.todo t l t'
        by_cases et : t' = t
        · subst et; rw [Function.update_self]; exact hm.2
        · rw [Function.update_of_ne et]; exact h2 t'
      · intro r
        refine ⟨fun hp => hm.1 ?_, fun hp => by simp at hp⟩
        injection hp with _ a b
        rw [a, b]
  · have hkw : k = h → w ≠ v := by
      intro ek ew; subst ek; subst ew; exact (h3 t r).1 e
    have hp : ∀ r', (Pc.half r k w ≠ .loaded r' h v ∧ Pc.half r k w ≠ .half r' h v) := by
      intro r'
      refine ⟨fun hp => by simp at hp, fun hp => ?_⟩
      injection hp with _ a b
      exact hkw a b
    cases early with
    | true =>
      have : free true t s = { s with cnt := Function.update s.cnt k (r + 1), pc := Function.update s.pc t (.half r k w) } := by
        unfold free; rw [e]; rfl
      rw [this]
      exact ⟨h1, h2, upd _ hp⟩
    | false =>
      have : free false t s = { s with buf := store s.buf k r w, pc := Function.update s.pc t (.half r k w) } := by
        unfold free; rw [e]; rfl
      rw [this]
      exact ⟨fun i => store_ne h1 hkw, h2, upd _ hp⟩
  · have hkw : k = h → w ≠ v := by
      intro ek ew; subst ek; subst ew; exact (h3 t r).2 e
    cases early with
    | true =>
      have : free true t s = { s with buf := store s.buf k r w, pc := Function.update s.pc t .idle } := by
        unfold free; rw [e]; rfl
      rw [this]
      exact ⟨fun i => store_ne h1 hkw, h2, upd _ (fun r => ⟨by simp, by simp⟩)⟩
    | false =>
      have : free false t s = { s with cnt := Function.update s.cnt k (r + 1), pc := Function.update s.pc t .idle } := by
        unfold free; rw [e]; rfl
      rw [this]
      exact ⟨h1, h2, upd _ (fun r => ⟨by simp, by simp⟩)⟩

theorem gone_run (early : Bool) (h : Nat) (v : Block) : ∀ (sched : List Nat) (s : St), Gone h v s →
    Gone h v (run (free early) sched s) := by
  intro sched
  induction sched with
  | nil => intro s hs; exact hs
  | cons t sched ih => intro s hs; exact ih _ (gone_step early h v t s hs)

/-- The first six steps of two threads that store alternately. -/
theorem clash (early : Bool) (todo : Nat → List (Nat × Block)) (t u h : Nat) (v w : Block) (l l' : List (Nat × Block))
    (htu : t ≠ u) (ht : todo t = (h, v) :: l) (hu : todo u = (h, w) :: l') :
    run (free early) [t, u, t, u, t, u] (start todo) =
      ⟨Function.update (Function.update todo t l) u l', fun _ => .idle, Function.update (fun _ => 0) h 1,
        store (fun _ _ => 0) h 0 w⟩ := by
  have hut : u ≠ t := fun e => htu e.symm
  cases early <;>
  · simp only [run, List.foldl_cons, List.foldl_nil, start]
    simp [free, ht, hu, htu, hut, Function.update_of_ne, store]
    funext x
    by_cases h1 : x = t <;> by_cases h2 : x = u <;> simp_all [Function.update_of_ne]

/-- C142 without lock is false as soon as two threads have a value for the same buffer: there is a schedule after which
the value of one of them is not in the buffer, whatever happens later. -/
theorem C142_free_lost (early : Bool) (todo : Nat → List (Nat × Block)) (t u h : Nat) (v w : Block)
    (l l' : List (Nat × Block)) (htu : t ≠ u) (ht : todo t = (h, v) :: l) (hu : todo u = (h, w) :: l')
    (hv : v ≠ 0) (hvw : w ≠ v) (h1 : (h, v) ∉ l) (h2 : ∀ x, x ≠ t → (h, v) ∉ todo x) (later : List Nat) (i : Nat) :
    (run (free early) ([t, u, t, u, t, u] ++ later) (start todo)).buf h i ≠ v := by
  have e : run (free early) ([t, u, t, u, t, u] ++ later) (start todo) =
      run (free early) later (run (free early) [t, u, t, u, t, u] (start todo)) := by
    unfold run; rw [List.foldl_append]
  rw [e, clash early todo t u h v w l l' htu ht hu]
  refine (gone_run early h v later _ ⟨?_, ?_, ?_⟩).1 i
  · intro i
    exact store_ne (buf := fun _ _ => 0) (fun _ => hv.symm) (fun _ => hvw)
  · intro x
    show (h, v) ∉ Function.update (Function.update todo t l) u l' x
    have hu' : (h, v) ∉ l' := by
      have := h2 u (fun e => htu e.symm)
      rw [hu, List.mem_cons, not_or] at this
      exact this.2
    by_cases hx : x = u
    · subst hx; rw [Function.update_self]; exact hu'
    · rw [Function.update_of_ne hx]
      by_cases hx' : x = t
      · subst hx'; rw [Function.update_self]; exact h1
      · rw [Function.update_of_ne hx']; exact h2 x hx'
  · intro x r
    exact ⟨by simp, by simp⟩

/-- C142, `outputBigPoly` of the sender: whatever the order in which the threads store, position `i` holds mask `i`. -/
theorem C142_big (mask : Nat → Block) (n T : Nat) (hT : 0 < T) (hov : n * T < 2 ^ 64) (order : List Nat) (b : Nat → Block)
    (ho : order.Perm ((List.range T).flatMap fun t => Part.interval (Part.bound n T t) (Part.bound n T (t + 1)))) (i : Nat) :
    bigStores mask order b i = if i < n then mask i else b i := by
  rw [Part.C31_scaled_ranges n T hT hov] at ho
  have key : ∀ (order : List Nat) (b : Nat → Block), bigStores mask order b i = if i ∈ order then mask i else b i := by
    intro order
    induction order with
    | nil => intro b; rfl
    | cons a l ih =>
      intro b
      show bigStores mask l (Function.update b a (mask a)) i = _
      rw [ih]
      by_cases h : i ∈ l
      · simp [h]
      · by_cases e : i = a
        · subst e; simp [h]
        · simp [h, e, Function.update_of_ne]
  rw [key]
  simp only [ho.mem_iff, List.mem_range]

/-! ### Non-vacuity -/

/-- Two threads with two values each. -/
def exTodo : Nat → List (Nat × Block)
  | 0 => [(0, 5), (1, 6)]
  | 1 => [(0, 7), (1, 8)]
  | _ => []

/-- Under the mutex a schedule that finishes. -/
example : stored (run locked [1, 0, 0, 1] (start exTodo)) 0 = [7, 5] ∧ stored (run locked [1, 0, 0, 1] (start exTodo)) 1 = [6, 8] ∧
    Done 2 (run locked [1, 0, 0, 1] (start exTodo)) := by
  refine ⟨by decide +kernel, by decide +kernel, ?_⟩
  intro t ht
  have : t = 0 ∨ t = 1 := by omega
  rcases this with rfl | rfl <;> exact ⟨by decide, rfl⟩
/-- Without it 5 is lost. -/
example : stored (run (free true) [0, 1, 0, 1, 0, 1, 0, 0, 0, 1, 1, 1] (start exTodo)) 0 = [7] ∧
    stored (run (free true) [0, 1, 0, 1, 0, 1, 0, 0, 0, 1, 1, 1] (start exTodo)) 1 = [6, 8] := by decide +kernel
/-- One thread stores all. -/
example : stored (run (free true) [0, 0, 0, 0, 0, 0] (start exTodo)) 0 = [5] := by decide +kernel
example : bigStores (fun i => BitVec.ofNat 128 (i + 10)) [2, 0, 1] (fun _ => 0) 1 = 11 := by decide +kernel

end Verif.PrtyShare
