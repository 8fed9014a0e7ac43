import Verif.BenchDrrnModel
/-!
Property theorem C180: the three drivers of the benchmark of DRRN.

Specification vocabulary: the trials are counted and listed without the loops; `servCfg`, `cliCfg`, `setOf` read the arguments
of the calls off the events of a driver.
-/
namespace Verif.Bench
open Verif
variable {D : Type}

/-- Arguments of `DrrnPsiServer::init`: trial and big block size. -/
def servCfg : PirEv D → Option (PirCfg D × Nat)
  | .initServer _ c b => some (c, b)
  | _ => none

/-- Arguments of `DrrnPsiClient::init`: trial, number of hash functions, statistical security, big block size. -/
def cliCfg : PirEv D → Option (PirCfg D × Nat × Nat × Nat)
  | .initClient c h s b => some (c, h, s, b)
  | _ => none

/-- Arguments of `setInputs`. -/
def inputsOf : PirEv D → Option (List Block × Nat × Nat)
  | .setInputs s h p => some (s, h, p)
  | _ => none

/-- Trial and set of the online phase. -/
def onlineOf : PirEv D → Option (PirCfg D × List Block)
  | .online c s => some (c, s)
  | _ => none

/-- Greetings sent to a partner. -/
def sentTo (k : Nat) : PirEv D → Option Nat
  | .send to v => if to = k then some v else none
  | _ => none

/-- Greetings insisted on from a partner. -/
def wantedFrom (k : Nat) : PirEv D → Option Nat
  | .expect frm v => if frm = k then some v else none
  | _ => none

/-- The trials, in the order of the loops. -/
def pirCfgs (P : PirParams D) : List (PirCfg D) := P.items2.flatMap (pirInner P)

theorem inner_server {P : PirParams D} {m : Nat} {c : PirCfg D} (h : c ∈ pirInner P m) : c.server = m := by
  simp only [pirInner, List.mem_flatMap, List.mem_replicate] at h
  obtain ⟨n, _, t, _, s, _, _, rfl⟩ := h
  rfl

/-- Reading something off each trial of a server that gives one result per trial. -/
theorem srvLoop_filterMap {β : Type} (f : PirEv D → Option β) (g : List Block → PirCfg D → β) (st : Nat → Block)
    (P : PirParams D) (idx : Nat) (h : ∀ s c, (srvTrial P idx s c).filterMap f = [g s c]) (ms : List Nat) (p : Nat) :
    (srvLoop st P idx ms p).filterMap f =
      (List.range ms.length).flatMap fun k =>
        (pirInner P (ms.getD k 0)).map (g (window st (p + (ms.take k).sum) (ms.getD k 0))) := by
  induction ms generalizing p with
  | nil => rfl
  | cons m ms ih =>
    have h1 : ∀ (s : List Block) (l : List (PirCfg D)),
        (l.flatMap (srvTrial P idx s)).filterMap f = l.map (g s) := by
      intro s l
      induction l with
      | nil => rfl
      | cons c l ihl => rw [List.flatMap_cons, List.filterMap_append, h, ihl]; rfl
    unfold srvLoop
    rw [List.filterMap_append, h1, ih, List.length_cons, List.range_succ_eq_map, List.flatMap_cons, List.flatMap_map]
    congr 1
    · apply flatMap_congr'
      intro k _
      simp [Nat.add_assoc]
where
  flatMap_congr' {α β : Type} {l : List α} {f g : α → List β} (h : ∀ a ∈ l, f a = g a) : l.flatMap f = l.flatMap g := by
    induction l with
    | nil => rfl
    | cons a l ih =>
      rw [List.flatMap_cons, List.flatMap_cons, h a (List.mem_cons_self ..),
        ih fun x hx => h x (List.mem_cons_of_mem _ hx)]

/-- The same if the result does not depend on the set. -/
theorem srvLoop_filterMap' {β : Type} (f : PirEv D → Option β) (g : PirCfg D → β) (st : Nat → Block)
    (P : PirParams D) (idx : Nat) (h : ∀ s c, (srvTrial P idx s c).filterMap f = [g c]) (ms : List Nat) (p : Nat) :
    (srvLoop st P idx ms p).filterMap f = (ms.flatMap (pirInner P)).map g := by
  induction ms generalizing p with
  | nil => rfl
  | cons m ms ih =>
    have h1 : ∀ (s : List Block) (l : List (PirCfg D)),
        (l.flatMap (srvTrial P idx s)).filterMap f = l.map g := by
      intro s l
      induction l with
      | nil => rfl
      | cons c l ihl => rw [List.flatMap_cons, List.filterMap_append, h, ihl]; rfl
    unfold srvLoop
    rw [List.filterMap_append, h1, ih, List.flatMap_cons, List.map_append]

theorem cliTrials_filterMap' {β : Type} (f : PirEv D → Option β) (g : PirCfg D → β) (st : Nat → Block)
    (P : PirParams D) (h : ∀ s c, (cliTrial P s c).filterMap f = [g c]) (cs : List (PirCfg D)) (p : Nat) :
    (cliTrials st P cs p).filterMap f = cs.map g := by
  induction cs generalizing p with
  | nil => rfl
  | cons c cs ih =>
    unfold cliTrials
    rw [List.filterMap_append, h, ih]
    rfl

theorem cliTrials_sets (st : Nat → Block) (P : PirParams D) (cs : List (PirCfg D)) (p j : Nat) (c : PirCfg D)
    (hj : cs[j]? = some c) :
    ((cliTrials st P cs p).filterMap onlineOf)[j]? =
      some (c, (List.range c.client).map fun i => st (p + ((cs.take j).map (·.client)).sum + i)) := by
  induction cs generalizing p j with
  | nil => simp at hj
  | cons c' cs ih =>
    unfold cliTrials
    rw [List.filterMap_append]
    have h1 : (cliTrial P (window st p c'.client) c').filterMap onlineOf = [(c', window st p c'.client)] := rfl
    rw [h1]
    cases j with
    | zero =>
      simp at hj
      subst hj
      simp [window]
    | succ j =>
      simp at hj
      have := ih (p + c'.client) j hj
      simp only [List.singleton_append, List.getElem?_cons_succ]
      rw [this]
      simp [Nat.add_assoc]

theorem flatMap_length' {α β : Type} (l : List α) (f : α → List β) (k : Nat) (h : ∀ a ∈ l, (f a).length = k) :
    (l.flatMap f).length = l.length * k := by
  induction l with
  | nil => simp
  | cons a l ih =>
    rw [List.flatMap_cons, List.length_append, h a (List.mem_cons_self ..),
      ih fun x hx => h x (List.mem_cons_of_mem _ hx), List.length_cons, Nat.succ_mul, Nat.add_comm]

theorem inner_length (P : PirParams D) (m : Nat) :
    (pirInner P m).length = P.items.length * (P.threads.length * (P.scalers.length * P.trials)) := by
  unfold pirInner
  refine flatMap_length' _ _ _ fun n _ => flatMap_length' _ _ _ fun t _ => flatMap_length' _ _ _ fun s _ => ?_
  rw [List.length_replicate]

/-- Position `j` of a list made of pieces of length `k`. -/
theorem flatMap_getElem? {α β : Type} (l : List α) (f : α → List β) (k : Nat) (h : ∀ a ∈ l, (f a).length = k) (j : Nat) :
    (l.flatMap f)[j]? = (l[j / k]?).bind fun a => (f a)[j % k]? := by
  induction l generalizing j with
  | nil => simp
  | cons a l ih =>
    have ha := h a (List.mem_cons_self ..)
    have ih := ih fun x hx => h x (List.mem_cons_of_mem _ hx)
    rw [List.flatMap_cons]
    by_cases hj : j < k
    · rw [List.getElem?_append_left (by omega), Nat.div_eq_of_lt hj, Nat.mod_eq_of_lt hj]
      rfl
    · rw [List.getElem?_append_right (by omega), ih, ha]
      by_cases hk : k = 0
      · subst hk
        have h0 : ∀ x ∈ a :: l, f x = [] := fun x hx => List.length_eq_zero_iff.mp (h x hx)
        have : ∀ (o : Option α), (∀ x, o = some x → x ∈ a :: l) → ∀ q : Nat, (o.bind fun a => (f a)[q]?) = none := by
          intro o ho q
          cases o with
          | none => rfl
          | some x => rw [Option.bind_some, h0 x (ho x rfl)]; rfl
        rw [this _ (fun x hx => List.mem_cons_of_mem _ (List.mem_of_getElem? hx)),
          this _ (fun x hx => List.mem_of_getElem? hx)]
      · obtain ⟨d, rfl⟩ : ∃ d, j = d + k := ⟨j - k, by omega⟩
        rw [Nat.add_sub_cancel, Nat.add_div_right d (by omega), Nat.add_mod_right]
        rfl

theorem range_getD {α : Type} (l : List α) (x : α) : ((List.range l.length).map fun k => l.getD k x) = l := by
  apply List.ext_getElem (by simp)
  intro i h1 h2
  simp [List.getElem?_eq_getElem h2]

/-- C180. The trials are all combinations of server set size, client set size, number of threads and scaler, each as often as
there are trials. -/
theorem C180_configs (P : PirParams D) :
    (pirCfgs P).length = P.items2.length * (P.items.length * (P.threads.length * (P.scalers.length * P.trials))) ∧
    ∀ c, c ∈ pirCfgs P ↔ 0 < P.trials ∧ c.server ∈ P.items2 ∧ c.client ∈ P.items ∧ c.threads ∈ P.threads ∧
      c.scaler ∈ P.scalers := by
  constructor
  · exact flatMap_length' _ _ _ fun m _ => inner_length P m
  · intro c
    simp only [pirCfgs, pirInner, List.mem_flatMap, List.mem_replicate]
    constructor
    · rintro ⟨m, hm, n, hn, t, ht, s, hs, h0, rfl⟩
      exact ⟨by omega, hm, hn, ht, hs⟩
    · rintro ⟨h0, hm, hn, ht, hs⟩
      exact ⟨c.server, hm, c.client, hn, c.threads, ht, c.scaler, hs, by omega, rfl⟩

/-- C180. The servers 1 and 2 and the client make the same trials in the same order with the same big block size; both sides use
statistical security 10 and the same number of hash functions. -/
theorem C180_same_trials (prng prng' : Nat → Nat → Block) (P : PirParams D) (idx : Nat) (hi : idx = 1 ∨ idx = 2) :
    ∃ es, pirServer prng P idx = .ok es ∧
      es.filterMap servCfg = (pirCfgs P).map (fun c => (c, P.bigBlock)) ∧
      es.filterMap (fun e => (inputsOf e).map (·.2)) = (pirCfgs P).map (fun _ => (P.numHash, 10)) ∧
      (pirClient prng' P).filterMap cliCfg = (pirCfgs P).map (fun c => (c, P.numHash, 10, P.bigBlock)) := by
  have hn : ¬ (idx < 1 ∨ 2 < idx) := by omega
  refine ⟨_, if_neg hn, ?_, ?_, ?_⟩
  · exact srvLoop_filterMap' _ _ _ P idx (fun s c => rfl) _ _
  · exact srvLoop_filterMap' _ _ _ P idx (fun s c => rfl) _ _
  · exact cliTrials_filterMap' _ _ _ P (fun s c => rfl) _ _

/-- C180. The greetings in a trial are those that the other side insists on: 1010 from the first server, 1011 from the second, 10021
from the client. -/
theorem C180_greetings (prng prng' : Nat → Nat → Block) (P : PirParams D) (idx : Nat) (hi : idx = 1 ∨ idx = 2) :
    ∃ es, pirServer prng P idx = .ok es ∧
      es.filterMap (sentTo 0) = (pirClient prng' P).filterMap (wantedFrom (idx - 1)) ∧
      (pirClient prng' P).filterMap (sentTo (idx - 1)) = es.filterMap (wantedFrom 0) := by
  have hn : ¬ (idx < 1 ∨ 2 < idx) := by omega
  refine ⟨_, if_neg hn, ?_, ?_⟩
  · rw [srvLoop_filterMap' (sentTo 0) (fun _ => idx - 1 + 1010) _ P idx (fun s c => rfl)]
    unfold pirClient
    rcases hi with rfl | rfl
    · rw [cliTrials_filterMap' (wantedFrom (1 - 1)) (fun _ => 1 - 1 + 1010) _ P (fun s c => rfl)]
    · rw [cliTrials_filterMap' (wantedFrom (2 - 1)) (fun _ => 2 - 1 + 1010) _ P (fun s c => rfl)]
  · rw [srvLoop_filterMap' (wantedFrom 0) (fun _ => 10021) _ P idx (fun s c => rfl)]
    unfold pirClient
    rcases hi with rfl | rfl
    · rw [cliTrials_filterMap' (sentTo (1 - 1)) (fun _ => 10021) _ P (fun s c => rfl)]
    · rw [cliTrials_filterMap' (sentTo (2 - 1)) (fun _ => 10021) _ P (fun s c => rfl)]

/-- C180. The set of a server in trial `j` has the announced size. It is a piece of the stream that depends on which of the server
set sizes the trial belongs to only: it is drawn once for all the trials with this size, after the sets of the earlier sizes. -/
theorem C180_server_sets (prng : Nat → Nat → Block) (P : PirParams D) (idx : Nat) (hi : idx = 1 ∨ idx = 2) :
    ∃ es, pirServer prng P idx = .ok es ∧
      (∀ j c, (pirCfgs P)[j]? = some c → (es.filterMap onlineOf)[j]? = some (c, (List.range c.server).map fun i =>
        prng keyC ((P.items2.take (j / (P.items.length * (P.threads.length * (P.scalers.length * P.trials))))).sum + i))) ∧
      (es.filterMap onlineOf).length = (pirCfgs P).length ∧
      es.filterMap (fun e => (inputsOf e).map (·.1)) = es.filterMap (fun e => (onlineOf e).map (·.2)) := by
  have hn : ¬ (idx < 1 ∨ 2 < idx) := by omega
  have e : (srvLoop (prng keyC) P idx P.items2 0).filterMap onlineOf =
      (List.range P.items2.length).flatMap fun k => (pirInner P (P.items2.getD k 0)).map fun c =>
        (c, (List.range c.server).map fun i => prng keyC ((P.items2.take k).sum + i)) := by
    rw [srvLoop_filterMap onlineOf (fun s c => (c, s)) _ P idx (fun s c => rfl)]
    apply srvLoop_filterMap.flatMap_congr'
    intro k _
    apply List.map_congr_left
    intro c hc
    rw [inner_server hc, Nat.zero_add]
    rfl
  have hcfg : pirCfgs P = (List.range P.items2.length).flatMap fun k => pirInner P (P.items2.getD k 0) := by
    unfold pirCfgs
    conv => lhs; rw [← range_getD P.items2 0]
    rw [List.flatMap_map]
  refine ⟨_, if_neg hn, ?_, ?_, ?_⟩
  · intro j c hj
    rw [hcfg, flatMap_getElem? _ _ _ fun k _ => inner_length P _] at hj
    rw [e, flatMap_getElem? _ _ (P.items.length * (P.threads.length * (P.scalers.length * P.trials)))
      fun k _ => by rw [List.length_map, inner_length]]
    cases hk : (List.range P.items2.length)[j / (P.items.length * (P.threads.length * (P.scalers.length * P.trials)))]? with
    | none => rw [hk] at hj; simp at hj
    | some k =>
      rw [hk] at hj
      have hk' := List.getElem?_eq_some_iff.mp hk
      obtain ⟨hlt, hk'⟩ := hk'
      rw [List.getElem_range] at hk'
      simp only [Option.bind_some] at hj ⊢
      rw [List.getElem?_map, hj, ← hk']
      rfl
  · rw [e, hcfg]
    simp [List.length_flatMap]
  · rw [srvLoop_filterMap (fun e => (inputsOf e).map (·.1)) (fun s _ => s) _ P idx (fun s c => rfl),
      srvLoop_filterMap (fun e => (onlineOf e).map (·.2)) (fun s _ => s) _ P idx (fun s c => rfl)]

/-- C180. The two servers hold the same set in every trial. -/
theorem C180_servers_agree (prng : Nat → Nat → Block) (P : PirParams D) :
    ∃ es es', pirServer prng P 1 = .ok es ∧ pirServer prng P 2 = .ok es' ∧
      es.filterMap onlineOf = es'.filterMap onlineOf := by
  obtain ⟨es, h1, h2, h3, _⟩ := C180_server_sets prng P 1 (Or.inl rfl)
  obtain ⟨es', h1', h2', h3', _⟩ := C180_server_sets prng P 2 (Or.inr rfl)
  refine ⟨es, es', h1, h1', ?_⟩
  apply List.ext_getElem?
  intro j
  cases hj : (pirCfgs P)[j]? with
  | none =>
    have := List.getElem?_eq_none_iff.mp hj
    rw [List.getElem?_eq_none (by omega), List.getElem?_eq_none (by omega)]
  | some c => rw [h2 j c hj, h2' j c hj]

/-- C180. The set of the client in trial `j` has the announced size and is the next piece of its own stream. -/
theorem C180_client_sets (prng : Nat → Nat → Block) (P : PirParams D) (j : Nat) (c : PirCfg D)
    (hj : (pirCfgs P)[j]? = some c) :
    ((pirClient prng P).filterMap onlineOf)[j]? = some (c, (List.range c.client).map fun i =>
      prng keyA ((((pirCfgs P).take j).map (·.client)).sum + i)) := by
  have := cliTrials_sets (prng keyA) P (pirCfgs P) 0 j c hj
  simp only [Nat.zero_add] at this
  exact this

/-- C180. The keys of the client and of the servers are different: if no block occurs in both streams the client has no element in
common with the servers in any trial. -/
theorem C180_disjoint (prng : Nat → Nat → Block) (hst : ∀ i j, prng keyA i ≠ prng keyC j) (P : PirParams D) (idx : Nat)
    (es : List (PirEv D)) (h : pirServer prng P idx = .ok es) (a b : PirCfg D × List Block)
    (ha : a ∈ es.filterMap onlineOf) (hb : b ∈ (pirClient prng P).filterMap onlineOf) (x : Block) (hx : x ∈ a.2) :
    x ∉ b.2 := by
  have hi : idx = 1 ∨ idx = 2 := by
    unfold pirServer at h
    split at h
    · simp at h
    · omega
  obtain ⟨es', h1, h2, h5, _⟩ := C180_server_sets prng P idx hi
  rw [h1] at h
  simp at h
  subst h
  obtain ⟨j', hj', rfl⟩ := List.getElem_of_mem ha
  have hc' : (pirCfgs P)[j']? = some ((pirCfgs P)[j']'(by omega)) := List.getElem?_eq_getElem (by omega)
  have h6 := h2 j' _ hc'
  rw [List.getElem?_eq_getElem hj'] at h6
  simp only [Option.some.injEq] at h6
  rw [h6] at hx
  obtain ⟨i, _, rfl⟩ := List.mem_map.mp hx
  have hlen : ((pirClient prng P).filterMap onlineOf).length = (pirCfgs P).length := by
    have := cliTrials_filterMap' (fun e => (onlineOf e).map (·.1)) id (prng keyA) P (fun s c => rfl) (pirCfgs P) 0
    have h3 := congrArg List.length this
    rw [← List.map_filterMap, List.length_map, List.length_map] at h3
    exact h3
  obtain ⟨j, hj, rfl⟩ := List.getElem_of_mem hb
  have hc : (pirCfgs P)[j]? = some ((pirCfgs P)[j]'(by omega)) := List.getElem?_eq_getElem (by omega)
  have h4 := C180_client_sets prng P j _ hc
  rw [List.getElem?_eq_getElem hj] at h4
  simp only [Option.some.injEq] at h4
  rw [h4]
  intro hm
  obtain ⟨i', _, e⟩ := List.mem_map.mp hm
  exact hst _ _ e

/-- C180. Any other server index is refused. -/
theorem C180_index (prng : Nat → Nat → Block) (P : PirParams D) (idx : Nat) :
    pirServer prng P idx = .throw ↔ idx ≠ 1 ∧ idx ≠ 2 := by
  unfold pirServer
  split
  · simp; omega
  · simp; omega

/-- Streams without a common block exist, and a run with two server set sizes and two trials. -/
example : (∀ i j, (fun (k : Nat) (_ : Nat) => BitVec.ofNat 128 k) keyA i ≠ (fun (k : Nat) (_ : Nat) => BitVec.ofNat 128 k) keyC j) ∧
    ((pirClient (fun _ i => BitVec.ofNat 128 i) (⟨[2, 3], [1], [1], [()], 2, 3, 8⟩ : PirParams Unit)).filterMap onlineOf).map (·.2) =
      [[0], [1], [2], [3]] ∧
    ((srvLoop (fun i => BitVec.ofNat 128 i) (⟨[2, 3], [1], [1], [()], 2, 3, 8⟩ : PirParams Unit) 1 [2, 3] 0).filterMap onlineOf).map (·.2) =
      [[0, 1], [0, 1], [2, 3, 4], [2, 3, 4]] := by
  refine ⟨fun _ _ => by
    show BitVec.ofNat 128 keyA ≠ BitVec.ofNat 128 keyC
    decide +kernel, by decide +kernel, by decide +kernel⟩

end Verif.Bench
