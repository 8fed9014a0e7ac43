import Verif.SizeModel
import Verif.KkrtModel
import Verif.DcwModel
import Verif.Rr16Model
import Verif.ReuseRunModel
import Verif.PrtyOnlineProps
/-!
Property theorems C157: a set of another size than the one given to `init` is refused.
-/
namespace Verif.Size
open Verif

/-- `f n rest items` refuses every list that does not have `n` elements, without doing any of `rest`, and does `rest` for
every list with `n` elements. -/
def Guards (f : Nat → (List Block → Out (List Nat)) → List Block → Out (List Nat)) : Prop :=
  ∀ (n : Nat) (rest : List Block → Out (List Nat)) (items : List Block),
    (items.length ≠ n → f n rest items = .throw) ∧ (items.length = n → f n rest items = rest items)

/-- C157 for RR17a, RR17b, GRR18 and the DRRN client. -/
theorem C157_guards : Guards rr17aSend ∧ Guards rr17aRecv ∧ Guards rr17bSend ∧ Guards rr17bRecv ∧ Guards grr18Send ∧
    Guards grr18Recv ∧ Guards drrnClient := by
  refine ⟨?_, ?_, ?_, ?_, ?_, ?_, ?_⟩ <;> intro n rest items <;>
    simp only [rr17aSend, rr17aRecv, rr17bSend, rr17bRecv, grr18Send, grr18Recv, drrnClient] <;>
    exact ⟨fun h => if_pos h, fun h => if_neg (by simp [h])⟩

/-- C157 for KKRT: both parties, and a receiver object that was used before. -/
theorem C157_kkrt (F : Nat → Block → Nat) (aes : Block → Block) (mb step n : Nat) (items : List Block)
    (h : items.length ≠ n) :
    (∀ nb perm inv junk sched, Kkrt.send F aes mb step n nb perm inv junk sched items = .throw) ∧
      (∀ ns c msgs, Kkrt.recv F aes mb step n ns c items msgs = .throw) ∧
      ∀ ns o msgs, ReuseRun.kkrtSend F aes mb step n ns o items msgs = .throw :=
  ⟨fun _ _ _ _ _ => if_pos h, fun _ _ _ => if_pos h, fun _ _ _ => if_pos h⟩

/-- C157 for DCW: both parties. -/
theorem C157_dcw (hashes : List (Block → Block)) (bf n : Nat) (items : List Block) (h : items.length ≠ n) :
    (∀ recvd, Dcw.encode hashes bf recvd n items = .throw) ∧
      ∀ msgs corr, Dcw.send hashes bf msgs n corr items = .throw :=
  ⟨fun _ => if_pos h, fun _ _ => if_pos h⟩

/-- C157 for RR16: both parties. -/
theorem C157_rr16 (checked : Bool) (hash : Block → List Nat) (bf total n T : Nat) (sampled : Nat → Bool)
    (msgs : Nat → Bool → Block) (recvd : Nat → Block) (zeros ones ord tord perm : List Nat) (srcS items : List Block)
    (h : items.length ≠ n) :
    Rr16.send checked hash bf total n sampled msgs perm items = .throws ∧
      Rr16.run checked hash bf total n T sampled msgs recvd zeros ones ord tord srcS items = .throw :=
  ⟨if_pos h, if_pos h⟩

/-! ### PRTY -/

/-- On channel `t` the message with number `j` does not come or has fewer bytes than the receiver reads from it. -/
def Lacks (sent read : Nat → List Nat) (t j : Nat) : Prop :=
  ∃ k : Nat, (read t)[j]? = some k ∧ ∀ m : Nat, (sent t)[j]? = some m → m < k

theorem sum_le_of {a b : List Nat} (h : ∀ j k : Nat, b[j]? = some k → ∃ m : Nat, a[j]? = some m ∧ k ≤ m) :
    b.sum ≤ a.sum := by
  induction b generalizing a with
  | nil => simp
  | cons y b ih =>
    obtain ⟨m, h1, h2⟩ := h 0 y rfl
    cases a with
    | nil => simp at h1
    | cons x a =>
      have : m = x := by simpa using h1.symm
      subst this
      have := ih (a := a) fun j k hj => h (j + 1) k (by simpa using hj)
      simp only [List.sum_cons]
      omega

theorem sum_map_le {l : List Nat} {f g : Nat → Nat} (h : ∀ t ∈ l, f t ≤ g t) : (l.map f).sum ≤ (l.map g).sum := by
  induction l with
  | nil => simp
  | cons a l ih =>
    simp only [List.map_cons, List.sum_cons]
    have := h a (by simp)
    have := ih fun t ht => h t (by simp [ht])
    omega

theorem lacks {n N T hash : Nat} (hT : 0 < T) (hh : 0 < hash) (hov : n * T < 2 ^ 64) (hov' : N * T < 2 ^ 64) (h : n < N) :
    ∃ t j, t < T ∧ Lacks (PrtyOnline.masks n hash T) (PrtyOnline.masks N hash T) t j := by
  apply Classical.byContradiction
  intro hc
  have key : ∀ t ∈ List.range T, Online.share N T t ≤ Online.share n T t := by
    intro t ht
    have : (PrtyOnline.masks N hash T t).sum ≤ (PrtyOnline.masks n hash T t).sum := by
      apply sum_le_of
      intro j k hj
      apply Classical.byContradiction
      intro hn
      refine hc ⟨t, j, List.mem_range.mp ht, k, hj, fun m hm => ?_⟩
      apply Classical.byContradiction
      intro hlt
      exact hn ⟨m, hm, by omega⟩
    rw [PrtyOnline.masks_sum, PrtyOnline.masks_sum] at this
    exact Nat.le_of_mul_le_mul_right this (by omega)
  have := sum_map_le key
  rw [PrtyOnline.share_sum N T hT hov', PrtyOnline.share_sum n T hT hov] at this
  omega

/-- C157 fails for PRTY (`output`), which compares no sizes: if the sender's set is smaller than announced, some thread of
the receiver waits for a message that does not come or reads behind the end of one. -/
theorem C157_prty_fewer (n announced T hash : Nat) (hT : 0 < T) (hh : 0 < hash) (hov : announced * T < 2 ^ 64)
    (h : n < announced) :
    ∃ t j, t < T ∧ Lacks (PrtyOnline.masks n hash T) (PrtyOnline.masks announced hash T) t j :=
  lacks hT hh (Nat.lt_of_le_of_lt (Nat.mul_le_mul_right T (Nat.le_of_lt h)) hov) hov h

/-- C157 fails for PRTY (`output`): if the sender's set is larger than announced, masks of the sender are not looked at, as
some message is longer than what the receiver reads of it, or is not received. -/
theorem C157_prty_more (n announced T hash : Nat) (hT : 0 < T) (hh : 0 < hash) (hov : n * T < 2 ^ 64)
    (h : announced < n) :
    ∃ t j, t < T ∧ Lacks (PrtyOnline.masks announced hash T) (PrtyOnline.masks n hash T) t j :=
  lacks hT hh (Nat.lt_of_le_of_lt (Nat.mul_le_mul_right T (Nat.le_of_lt h)) hov) hov h

/-! ### examples -/

example : rr17aSend 2 (fun l => .ok (l.map (·.toNat))) [5, 6] = .ok [5, 6] ∧
    rr17aSend 2 (fun l => .ok (l.map (·.toNat))) [5] = .throw ∧
    rr17aSend 2 (fun l => .ok (l.map (·.toNat))) [5, 6, 7] = .throw := by
  decide

example : ∃ bf : List Nat, ReuseRun.kkrtSend (fun _ _ => 0) id 4 2 2 1 ReuseRun.kkrtNew [1, 2, 3] [bf] = .throw :=
  ⟨[], (C157_kkrt _ _ _ _ _ _ (by decide)).2.2 _ _ _⟩

/-- Two threads, three masks announced, two sent: the second thread gets half of what it reads. -/
example : Lacks (PrtyOnline.masks 2 10 2) (PrtyOnline.masks 3 10 2) 1 0 := ⟨20, by decide, by decide⟩

end Verif.Size
