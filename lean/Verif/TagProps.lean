import Verif.TagLemmas
/-!
Property theorems C137: RR17b's threads read what they share only after all of it has been written.
-/
namespace Verif.Tag
open Verif

theorem ok_threads (p : Bool → Nat → Nat) (sr : Nat → List Nat) (ch : Nat → List Nat) (ss : Nat → List Nat)
    (m : Nat → Nat) : Ok (fun t => receiver (p false t) (sr t) (ch t)) (fun t => sender (p true t) (ss t) (m t)) := by
  have hmid : ∀ (l : List Nat) (x : Act), x ∈ l.flatMap (fun k => List.replicate k Act.ins ++ [.corr]) → x = .ins ∨ x = .corr := by
    intro l x hx
    simp only [List.mem_flatMap, List.mem_append, List.mem_replicate, List.mem_singleton] at hx
    tauto
  have hend : ∀ (l : List Nat) (x : Act), x ∈ l.flatMap (fun k => Act.rcv :: List.replicate k .find) → x = .rcv ∨ x = .find := by
    intro l x hx
    simp only [List.mem_flatMap, List.mem_cons, List.mem_replicate] at hx
    tauto
  have henc : ∀ (l : List Nat) (x : Act), x ∈ l.flatMap (fun k => Act.rcv :: List.replicate k .enc) → x = .rcv ∨ x = .enc := by
    intro l x hx
    simp only [List.mem_flatMap, List.mem_cons, List.mem_replicate] at hx
    tauto
  have hconst : ∀ (b : Bool) (l : List Act) (n : Nat), (∀ x ∈ l, rank b x = n) → l.Pairwise fun x y => rank b x ≤ rank b y := by
    intro b l n h
    apply List.pairwise_of_forall_mem_list
    intro x hx y hy
    rw [h x hx, h y hy]; exact Nat.le_refl _
  have happ : ∀ (b : Bool) (l l' : List Act), l.Pairwise (fun x y => rank b x ≤ rank b y) →
      l'.Pairwise (fun x y => rank b x ≤ rank b y) → (∀ x ∈ l, ∀ y ∈ l', rank b x ≤ rank b y) →
      (l ++ l').Pairwise fun x y => rank b x ≤ rank b y := fun b l l' h1 h2 h3 => List.pairwise_append.2 ⟨h1, h2, h3⟩
  refine ⟨?_, ?_, ?_, ?_, ?_, ?_, ?_, ?_⟩
  · intro b t
    cases b with
    | false =>
      show (receiver _ _ _).Pairwise _
      unfold receiver
      have m1 : ∀ x ∈ List.replicate (p false t) Act.push, rank false x = 0 := by
        intro x hx; rw [List.eq_of_mem_replicate hx]; rfl
      have m2 : ∀ x ∈ (sr t).flatMap (fun k => List.replicate k Act.ins ++ [.corr]), rank false x = 2 := by
        intro x hx; rcases hmid _ x hx with rfl | rfl <;> rfl
      have m3 : ∀ x ∈ (ch t).flatMap (fun k => Act.rcv :: List.replicate k .find), rank false x = 4 := by
        intro x hx; rcases hend _ x hx with rfl | rfl <;> rfl
      have s1 := happ false _ [Act.bar 0] (hconst _ _ _ m1) (List.pairwise_singleton _ _)
        (by intro x hx y hy; rw [m1 x hx]; exact Nat.zero_le _)
      have s2 := happ false _ _ s1 (hconst _ _ _ m2) (by
        intro x hx y hy
        rw [m2 y hy]
        rcases List.mem_append.1 hx with hx | hx
        · rw [m1 x hx]; decide
        · rw [List.mem_singleton.1 hx]; decide)
      have s3 := happ false _ [Act.chk] s2 (List.pairwise_singleton _ _) (by
        intro x hx y hy
        rw [List.mem_singleton.1 hy]
        rcases List.mem_append.1 hx with hx | hx
        · rcases List.mem_append.1 hx with hx | hx
          · rw [m1 x hx]; decide
          · rw [List.mem_singleton.1 hx]; decide
        · rw [m2 x hx]; decide)
      exact happ false _ _ s3 (hconst _ _ _ m3) (by
        intro x hx y hy
        rw [m3 y hy]
        rcases List.mem_append.1 hx with hx | hx
        · rcases List.mem_append.1 hx with hx | hx
          · rcases List.mem_append.1 hx with hx | hx
            · rw [m1 x hx]; decide
            · rw [List.mem_singleton.1 hx]; decide
          · rw [m2 x hx]; decide
        · rw [List.mem_singleton.1 hx]; decide)
    | true =>
      show (sender _ _ _).Pairwise _
      unfold sender
      have m1 : ∀ x ∈ List.replicate (p true t) Act.push, rank true x = 0 := by
        intro x hx; rw [List.eq_of_mem_replicate hx]; rfl
      have m2 : ∀ x ∈ (ss t).flatMap (fun k => Act.rcv :: List.replicate k .enc), rank true x = 2 := by
        intro x hx; rcases henc _ x hx with rfl | rfl <;> rfl
      have m3 : ∀ x ∈ List.replicate (m t) Act.chunk, rank true x = 5 := by
        intro x hx; rw [List.eq_of_mem_replicate hx]; rfl
      have s1 := happ true _ [Act.bar 0] (hconst _ _ _ m1) (List.pairwise_singleton _ _)
        (by intro x hx y hy; rw [m1 x hx]; exact Nat.zero_le _)
      have s2 := happ true _ _ s1 (hconst _ _ _ m2) (by
        intro x hx y hy
        rw [m2 y hy]
        rcases List.mem_append.1 hx with hx | hx
        · rw [m1 x hx]; decide
        · rw [List.mem_singleton.1 hx]; decide)
      have s3 := happ true _ [Act.chk] s2 (List.pairwise_singleton _ _) (by
        intro x hx y hy
        rw [List.mem_singleton.1 hy]
        rcases List.mem_append.1 hx with hx | hx
        · rcases List.mem_append.1 hx with hx | hx
          · rw [m1 x hx]; decide
          · rw [List.mem_singleton.1 hx]; decide
        · rw [m2 x hx]; decide)
      have s4 := happ true _ [Act.bar 1] s3 (List.pairwise_singleton _ _) (by
        intro x hx y hy
        rw [List.mem_singleton.1 hy]
        rcases List.mem_append.1 hx with hx | hx
        · rcases List.mem_append.1 hx with hx | hx
          · rcases List.mem_append.1 hx with hx | hx
            · rw [m1 x hx]; decide
            · rw [List.mem_singleton.1 hx]; decide
          · rw [m2 x hx]; decide
        · rw [List.mem_singleton.1 hx]; decide)
      exact happ true _ _ s4 (hconst _ _ _ m3) (by
        intro x hx y hy
        rw [m3 y hy]
        rcases List.mem_append.1 hx with hx | hx
        · rcases List.mem_append.1 hx with hx | hx
          · rcases List.mem_append.1 hx with hx | hx
            · rcases List.mem_append.1 hx with hx | hx
              · rw [m1 x hx]; decide
              · rw [List.mem_singleton.1 hx]; decide
            · rw [m2 x hx]; decide
          · rw [List.mem_singleton.1 hx]; decide
        · rw [List.mem_singleton.1 hx]; decide)
  · intro b t
    have z : ∀ l : List Act, (∀ x ∈ l, x ≠ .chk) → l.count .chk = 0 := fun l h =>
      List.count_eq_zero.2 fun hc => h _ hc rfl
    have hrep : ∀ (n : Nat) (a : Act), a ≠ .chk → (List.replicate n a).count .chk = 0 := fun n a ha =>
      z _ fun x hx => by rw [List.eq_of_mem_replicate hx]; exact ha
    cases b with
    | false =>
      show (receiver _ _ _).count _ = 1
      unfold receiver
      simp only [List.count_append]
      rw [hrep _ _ (by decide), z ((sr t).flatMap _) (fun x hx => by rcases hmid _ x hx with rfl | rfl <;> decide),
        z ((ch t).flatMap _) (fun x hx => by rcases hend _ x hx with rfl | rfl <;> decide)]
      decide
    | true =>
      show (sender _ _ _).count _ = 1
      unfold sender
      simp only [List.count_append]
      rw [hrep _ _ (by decide), z ((ss t).flatMap _) (fun x hx => by rcases henc _ x hx with rfl | rfl <;> decide), hrep _ _ (by decide)]
      decide
  · intro b t
    cases b with
    | false => show _ ∈ receiver _ _ _; simp [receiver]
    | true => show _ ∈ sender _ _ _; simp [sender]
  · intro t; simp [sender]
  · intro t; simp [sender]
  · intro t; simp [sender]
  · intro t; simp [receiver]
  · intro t pre r e
    have hA : ∀ x ∈ List.replicate (p false t) Act.push ++ [.bar 0] ++
        (sr t).flatMap (fun k => List.replicate k .ins ++ [.corr]) ++ [.chk], x ≠ .find := by
      intro x hx
      rcases List.mem_append.1 hx with hx | hx
      · rcases List.mem_append.1 hx with hx | hx
        · rcases List.mem_append.1 hx with hx | hx
          · rw [List.eq_of_mem_replicate hx]; decide
          · rw [List.mem_singleton.1 hx]; decide
        · rcases hmid _ x hx with rfl | rfl <;> decide
      · rw [List.mem_singleton.1 hx]; decide
    unfold receiver at e
    revert e hA
    generalize List.replicate (p false t) Act.push ++ [.bar 0] ++
      (sr t).flatMap (fun k => List.replicate k .ins ++ [.corr]) ++ [.chk] = A
    intro e hA
    cases hc : ch t with
    | nil =>
      rw [hc] at e
      simp only [List.flatMap_nil, List.append_nil] at e
      exact absurd rfl (hA .find (by rw [e]; simp))
    | cons k ks =>
      rw [hc] at e
      simp only [List.flatMap_cons, List.cons_append] at e
      rcases List.append_eq_append_iff.1 e with ⟨a', h1, h2⟩ | ⟨c', h1, h2⟩
      · cases a' with
        | nil => simp at h2
        | cons x a' =>
          simp only [List.cons_append, List.cons.injEq] at h2
          rw [h1, ← h2.1]; simp
      · cases c' with
        | nil => simp at h2
        | cons x c' =>
          simp only [List.cons_append, List.cons.injEq] at h2
          exact absurd h2.1.symm (hA x (by rw [h1]; simp))

/-- C137. Whatever the order of the steps, no bin is read while elements are still put into bins, the receiver's table
is not searched while tags are still inserted, and no chunk is sent while encodings are still written. -/
theorem C137_complete_before_read (T : Nat) (p : Bool → Nat → Nat) (binsR chunksR binsS : Nat → List Nat) (chunksS : Nat → Nat)
    (sched : List (Bool × Nat)) :
    ∃ s, run T (start (fun t => receiver (p false t) (binsR t) (chunksR t))
      (fun t => sender (p true t) (binsS t) (chunksS t))) sched = .ok s := by
  have hO := ok_threads p binsR chunksR binsS chunksS
  obtain ⟨s, e, -⟩ := Inv.run (T := T) hO sched (Inv.start hO)
  exact ⟨s, e⟩

/-- A run of two threads each, to the end. -/
example : ∃ s, run 2 (start (fun _ => receiver 1 [1] [1]) (fun _ => sender 1 [1] 1))
    [(false, 0), (false, 1), (true, 0), (true, 1), (false, 0), (false, 1), (true, 0), (true, 1), (false, 0), (false, 1),
      (false, 0), (false, 1), (true, 0), (true, 1), (true, 0), (true, 1), (true, 0), (true, 1), (true, 0), (true, 1),
      (true, 0), (true, 1), (false, 0), (false, 1), (false, 0), (false, 1)] = .ok s ∧
    ∀ b : Bool, ∀ t < 2, s.prog b t = [] := by
  refine ⟨_, rfl, ?_⟩
  decide

/-- A sender that does not wait for its other threads before it sends. -/
def eager (p : Nat) (steps : List Nat) (m : Nat) : List Act :=
  List.replicate p .push ++ [.bar 0] ++ steps.flatMap (fun k => .rcv :: List.replicate k .enc) ++ [.chk] ++
    List.replicate m .chunk

/-- C137: the receiver relies on the sender's barrier. With a sender without it, thread 0 of the receiver searches the
table while thread 1 has not inserted anything. -/
theorem C137_relies_on_sender : run 2 (start (fun _ => receiver 0 [1] [1]) (fun _ => eager 0 [0] 1))
    [(false, 0), (false, 1), (true, 0), (true, 1), (false, 0), (false, 0), (true, 0), (false, 0), (true, 0), (false, 0),
      (false, 0)] = .ub := by rfl

end Verif.Tag
