import Verif.NetModel
import Verif.SessionLemmas
import Mathlib.Tactic.ByContra
/-!
The order of the steps does not matter; scripts can be put together.
-/
namespace Verif.Net
open Verif Session

variable {ι : Type} [DecidableEq ι]

/-- Two steps that can be joined. -/
def Joins (t u : St ι) : Prop := t = u ∨ ∃ v, Step t v ∧ Step u v

theorem Joins.symm {t u : St ι} : Joins t u → Joins u t
  | .inl e => .inl e.symm
  | .inr ⟨v, h1, h2⟩ => .inr ⟨v, h2, h1⟩

theorem step_of_eq {s t u : St ι} (h : Step s t) (e : t = u) : Step s u := e ▸ h

section cases
open Function
variable {s : St ι}

theorem send_send {p p' n r p₂ p₂' n₂ r₂} (h : s.pc p = .io p' (.send n) :: r)
    (h₂ : s.pc p₂ = .io p₂' (.send n₂) :: r₂) :
    Joins (⟨update s.pc p r, update s.q (p, p') (s.q (p, p') ++ [n])⟩ : St ι)
      ⟨update s.pc p₂ r₂, update s.q (p₂, p₂') (s.q (p₂, p₂') ++ [n₂])⟩ := by
  by_cases e : p = p₂
  · subst e
    rw [h] at h₂
    injection h₂ with h1 h2
    injection h1 with h3 h4
    injection h4 with h5
    subst h2 h3 h5
    exact .inl rfl
  · have hk : (p, p') ≠ (p₂, p₂') := fun c => e (congrArg Prod.fst c)
    refine .inr ⟨_, .send (p := p₂) (p' := p₂') (n := n₂) (r := r₂) ?_,
      step_of_eq (.send (p := p) (p' := p') (n := n) (r := r) ?_) ?_⟩
    · simp only; rw [update_of_ne (Ne.symm e)]; exact h₂
    · simp only; rw [update_of_ne e]; exact h
    · simp only [St.mk.injEq]
      rw [update_of_ne hk, update_of_ne hk.symm]
      exact ⟨update_comm (Ne.symm e) _ _ _, update_comm hk.symm _ _ _⟩

theorem send_recv {p p' n r p₂ p₂' n₂ r₂ l} (h : s.pc p = .io p' (.send n) :: r)
    (h₂ : s.pc p₂ = .io p₂' (.recv n₂) :: r₂) (hq : s.q (p₂', p₂) = n₂ :: l) :
    Joins (⟨update s.pc p r, update s.q (p, p') (s.q (p, p') ++ [n])⟩ : St ι)
      ⟨update s.pc p₂ r₂, update s.q (p₂', p₂) l⟩ := by
  have e : p ≠ p₂ := by
    rintro rfl
    rw [h] at h₂
    injection h₂ with h1 _
    injection h1 with _ h4
    cases h4
  by_cases hk : (p, p') = (p₂', p₂)
  · obtain ⟨rfl, rfl⟩ := Prod.mk.inj hk
    refine .inr ⟨_, .recv (p := p') (p' := p) (n := n₂) (r := r₂) (l := l ++ [n]) ?_ ?_,
      step_of_eq (.send (p := p) (p' := p') (n := n) (r := r) ?_) ?_⟩
    · simp only; rw [update_of_ne (Ne.symm e)]; exact h₂
    · simp only; rw [update_self, hq]; rfl
    · simp only; rw [update_of_ne e]; exact h
    · simp only [St.mk.injEq, update_idem, update_self]
      exact ⟨update_comm (Ne.symm e) _ _ _, trivial⟩
  · refine .inr ⟨_, .recv (p := p₂) (p' := p₂') (n := n₂) (r := r₂) (l := l) ?_ ?_,
      step_of_eq (.send (p := p) (p' := p') (n := n) (r := r) ?_) ?_⟩
    · simp only; rw [update_of_ne (Ne.symm e)]; exact h₂
    · simp only; rw [update_of_ne (Ne.symm hk)]; exact hq
    · simp only; rw [update_of_ne e]; exact h
    · simp only [St.mk.injEq]
      rw [update_of_ne hk]
      exact ⟨update_comm (Ne.symm e) _ _ _, update_comm (Ne.symm hk) _ _ _⟩

theorem recv_recv {p p' n r l p₂ p₂' n₂ r₂ l₂} (h : s.pc p = .io p' (.recv n) :: r) (hq : s.q (p', p) = n :: l)
    (h₂ : s.pc p₂ = .io p₂' (.recv n₂) :: r₂) (hq₂ : s.q (p₂', p₂) = n₂ :: l₂) :
    Joins (⟨update s.pc p r, update s.q (p', p) l⟩ : St ι) ⟨update s.pc p₂ r₂, update s.q (p₂', p₂) l₂⟩ := by
  by_cases e : p = p₂
  · subst e
    rw [h] at h₂
    injection h₂ with h1 h2
    injection h1 with h3 h4
    injection h4 with h5
    subst h2 h3 h5
    rw [hq] at hq₂
    injection hq₂ with _ h6
    subst h6
    exact .inl rfl
  · have hk : (p', p) ≠ (p₂', p₂) := fun c => e (congrArg Prod.snd c)
    refine .inr ⟨_, .recv (p := p₂) (p' := p₂') (n := n₂) (r := r₂) (l := l₂) ?_ ?_,
      step_of_eq (.recv (p := p) (p' := p') (n := n) (r := r) (l := l) ?_ ?_) ?_⟩
    · simp only; rw [update_of_ne (Ne.symm e)]; exact h₂
    · simp only; rw [update_of_ne hk.symm]; exact hq₂
    · simp only; rw [update_of_ne e]; exact h
    · simp only; rw [update_of_ne hk]; exact hq
    · simp only [St.mk.injEq]
      exact ⟨update_comm (Ne.symm e) _ _ _, update_comm hk.symm _ _ _⟩

theorem send_ot {p p' n r a b k rl m ra rb} (h : s.pc p = .io p' (.send n) :: r) (hne : a ≠ b)
    (ha : s.pc a = .io b (.ot k rl m) :: ra) (hb : s.pc b = .io a (.ot k (!rl) m) :: rb)
    (h1 : s.q (a, b) = []) (h2 : s.q (b, a) = []) :
    Joins (⟨update s.pc p r, update s.q (p, p') (s.q (p, p') ++ [n])⟩ : St ι)
      ⟨update (update s.pc a ra) b rb, s.q⟩ := by
  have ea : a ≠ p := by
    rintro rfl
    rw [h] at ha; injection ha with h1 _; injection h1 with _ h4; cases h4
  have eb : b ≠ p := by
    rintro rfl
    rw [h] at hb; injection hb with h1 _; injection h1 with _ h4; cases h4
  refine .inr ⟨_, .ot (p := a) (p' := b) (k := k) (rl := rl) (n := m) (r := ra) (r' := rb) hne ?_ ?_ ?_ ?_,
    step_of_eq (.send (p := p) (p' := p') (n := n) (r := r) ?_) ?_⟩
  · simp only; rw [update_of_ne ea]; exact ha
  · simp only; rw [update_of_ne eb]; exact hb
  · simp only; rw [update_of_ne (fun c => ea (congrArg Prod.fst c))]; exact h1
  · simp only; rw [update_of_ne (fun c => eb (congrArg Prod.fst c))]; exact h2
  · simp only; rw [update_of_ne eb.symm, update_of_ne ea.symm]; exact h
  · simp only [St.mk.injEq, and_true]
    rw [update_comm ea.symm, update_comm eb.symm]

theorem recv_ot {p p' n r l a b k rl m ra rb} (h : s.pc p = .io p' (.recv n) :: r) (hq : s.q (p', p) = n :: l)
    (hne : a ≠ b) (ha : s.pc a = .io b (.ot k rl m) :: ra) (hb : s.pc b = .io a (.ot k (!rl) m) :: rb)
    (h1 : s.q (a, b) = []) (h2 : s.q (b, a) = []) :
    Joins (⟨update s.pc p r, update s.q (p', p) l⟩ : St ι) ⟨update (update s.pc a ra) b rb, s.q⟩ := by
  have ea : a ≠ p := by
    rintro rfl
    rw [h] at ha; injection ha with h1 _; injection h1 with _ h4; cases h4
  have eb : b ≠ p := by
    rintro rfl
    rw [h] at hb; injection hb with h1 _; injection h1 with _ h4; cases h4
  refine .inr ⟨_, .ot (p := a) (p' := b) (k := k) (rl := rl) (n := m) (r := ra) (r' := rb) hne ?_ ?_ ?_ ?_,
    step_of_eq (.recv (p := p) (p' := p') (n := n) (r := r) (l := l) ?_ ?_) ?_⟩
  · simp only; rw [update_of_ne ea]; exact ha
  · simp only; rw [update_of_ne eb]; exact hb
  · simp only; rw [update_of_ne (fun c => eb (congrArg Prod.snd c))]; exact h1
  · simp only; rw [update_of_ne (fun c => ea (congrArg Prod.snd c))]; exact h2
  · simp only; rw [update_of_ne eb.symm, update_of_ne ea.symm]; exact h
  · exact hq
  · simp only [St.mk.injEq, and_true]
    rw [update_comm ea.symm, update_comm eb.symm]

theorem ot_ot {a b k rl m ra rb c d k₂ rl₂ m₂ rc rd} (hne : a ≠ b)
    (ha : s.pc a = .io b (.ot k rl m) :: ra) (hb : s.pc b = .io a (.ot k (!rl) m) :: rb)
    (h1 : s.q (a, b) = []) (h2 : s.q (b, a) = []) (hne₂ : c ≠ d)
    (hc : s.pc c = .io d (.ot k₂ rl₂ m₂) :: rc) (hd : s.pc d = .io c (.ot k₂ (!rl₂) m₂) :: rd)
    (h3 : s.q (c, d) = []) (h4 : s.q (d, c) = []) :
    Joins (⟨update (update s.pc a ra) b rb, s.q⟩ : St ι) ⟨update (update s.pc c rc) d rd, s.q⟩ := by
  have key : ∀ {x y u v : ι} {k k₂ rl rl₂ m m₂ rx ru}, s.pc x = .io y (.ot k rl m) :: rx →
      s.pc u = .io v (.ot k₂ rl₂ m₂) :: ru → x = u → y = v ∧ rx = ru := by
    intro x y u v k k₂ rl rl₂ m m₂ rx ru hx hu e
    subst e
    rw [hx] at hu
    injection hu with h1 h2
    injection h1 with h3 _
    exact ⟨h3, h2⟩
  by_cases e1 : a = c
  · obtain ⟨e2, e3⟩ := key ha hc e1
    obtain ⟨_, e4⟩ := key hb hd e2
    subst e1 e2 e3 e4
    exact .inl rfl
  by_cases e1' : a = d
  · obtain ⟨e2, e3⟩ := key ha hd e1'
    obtain ⟨_, e4⟩ := key hb hc e2
    subst e1' e2 e3 e4
    exact .inl (by rw [update_comm hne])
  by_cases e2 : b = c
  · exact absurd (key hb hc e2).1 e1'
  by_cases e2' : b = d
  · exact absurd (key hb hd e2').1 e1
  refine .inr ⟨_, .ot (p := c) (p' := d) (k := k₂) (rl := rl₂) (n := m₂) (r := rc) (r' := rd) hne₂ ?_ ?_ h3 h4,
    step_of_eq (.ot (p := a) (p' := b) (k := k) (rl := rl) (n := m) (r := ra) (r' := rb) hne ?_ ?_ h1 h2) ?_⟩
  · simp only; rw [update_of_ne (Ne.symm e2), update_of_ne (Ne.symm e1)]; exact hc
  · simp only; rw [update_of_ne (Ne.symm e2'), update_of_ne (Ne.symm e1')]; exact hd
  · simp only; rw [update_of_ne e1', update_of_ne e1]; exact ha
  · simp only; rw [update_of_ne e2', update_of_ne e2]; exact hb
  · simp only [St.mk.injEq, and_true]
    rw [update_comm (Ne.symm e1'), update_comm (Ne.symm e1), update_comm (Ne.symm e2'), update_comm (Ne.symm e2)]

/-- What a barrier does to the scripts. -/
def passed (f : ι → List (Op ι)) (g : List ι) : ι → List (Op ι) := fun p => if p ∈ g then (f p).tail else f p

theorem passed_update (f : ι → List (Op ι)) (g : List ι) {p : ι} (h : p ∉ g) (r) :
    passed (update f p r) g = update (passed f g) p r := by
  funext i
  by_cases e : i = p
  · subst e; simp [passed, h]
  · simp [passed, update_of_ne e]

theorem notMem_of_io {g : List ι} (hg : ∀ p ∈ g, ∃ r, s.pc p = .sync g :: r) {p p' a r}
    (h : s.pc p = .io p' a :: r) : p ∉ g := by
  intro hp
  obtain ⟨r', hr⟩ := hg p hp
  rw [h] at hr
  injection hr with h1 _
  cases h1

theorem sync_sync {g g' : List ι} (hn : g ≠ []) (hg : ∀ p ∈ g, ∃ r, s.pc p = .sync g :: r) (hn' : g' ≠ [])
    (hg' : ∀ p ∈ g', ∃ r, s.pc p = .sync g' :: r) :
    Joins (⟨passed s.pc g, s.q⟩ : St ι) ⟨passed s.pc g', s.q⟩ := by
  by_cases hd : ∃ p, p ∈ g ∧ p ∈ g'
  · obtain ⟨p, h1, h2⟩ := hd
    obtain ⟨r, hr⟩ := hg p h1
    obtain ⟨r', hr'⟩ := hg' p h2
    rw [hr] at hr'
    injection hr' with e _
    injection e with e
    subst e
    exact .inl rfl
  · have hd' : ∀ p ∈ g, p ∉ g' := fun p h1 h2 => hd ⟨p, h1, h2⟩
    refine .inr ⟨_, .sync (g := g') hn' ?_, step_of_eq (.sync (g := g) hn ?_) ?_⟩
    · intro p hp
      have : p ∉ g := fun h => hd' p h hp
      simp only [passed, this, if_false]; exact hg' p hp
    · intro p hp
      simp only [passed, hd' p hp, if_false]; exact hg p hp
    · simp only [St.mk.injEq, and_true]
      funext i
      by_cases h1 : i ∈ g
      · have := hd' i h1; simp [passed, h1, this]
      · simp [passed, h1]

theorem send_sync {p p' n r} {g : List ι} (h : s.pc p = .io p' (.send n) :: r) (hn : g ≠ [])
    (hg : ∀ p ∈ g, ∃ r, s.pc p = .sync g :: r) :
    Joins (⟨update s.pc p r, update s.q (p, p') (s.q (p, p') ++ [n])⟩ : St ι) ⟨passed s.pc g, s.q⟩ := by
  have hp := notMem_of_io hg h
  refine .inr ⟨_, .sync (g := g) hn ?_, step_of_eq (.send (p := p) (p' := p') (n := n) (r := r) ?_) ?_⟩
  · intro i hi
    have : i ≠ p := fun e => hp (e ▸ hi)
    simp only; rw [update_of_ne this]; exact hg i hi
  · simp only [passed, hp, if_false]; exact h
  · simp only [St.mk.injEq, and_true]
    exact (passed_update _ _ hp _).symm

theorem recv_sync {p p' n r l} {g : List ι} (h : s.pc p = .io p' (.recv n) :: r) (hq : s.q (p', p) = n :: l)
    (hn : g ≠ []) (hg : ∀ p ∈ g, ∃ r, s.pc p = .sync g :: r) :
    Joins (⟨update s.pc p r, update s.q (p', p) l⟩ : St ι) ⟨passed s.pc g, s.q⟩ := by
  have hp := notMem_of_io hg h
  refine .inr ⟨_, .sync (g := g) hn ?_, step_of_eq (.recv (p := p) (p' := p') (n := n) (r := r) (l := l) ?_ hq) ?_⟩
  · intro i hi
    have : i ≠ p := fun e => hp (e ▸ hi)
    simp only; rw [update_of_ne this]; exact hg i hi
  · simp only [passed, hp, if_false]; exact h
  · simp only [St.mk.injEq, and_true]
    exact (passed_update _ _ hp _).symm

theorem ot_sync {a b k rl m ra rb} {g : List ι} (hne : a ≠ b)
    (ha : s.pc a = .io b (.ot k rl m) :: ra) (hb : s.pc b = .io a (.ot k (!rl) m) :: rb)
    (h1 : s.q (a, b) = []) (h2 : s.q (b, a) = []) (hn : g ≠ []) (hg : ∀ p ∈ g, ∃ r, s.pc p = .sync g :: r) :
    Joins (⟨update (update s.pc a ra) b rb, s.q⟩ : St ι) ⟨passed s.pc g, s.q⟩ := by
  have hga := notMem_of_io hg ha
  have hgb := notMem_of_io hg hb
  refine .inr ⟨_, .sync (g := g) hn ?_,
    step_of_eq (.ot (p := a) (p' := b) (k := k) (rl := rl) (n := m) (r := ra) (r' := rb) hne ?_ ?_ h1 h2) ?_⟩
  · intro i hi
    have e1 : i ≠ a := fun e => hga (e ▸ hi)
    have e2 : i ≠ b := fun e => hgb (e ▸ hi)
    simp only; rw [update_of_ne e2, update_of_ne e1]; exact hg i hi
  · simp only [passed, hga, if_false]; exact ha
  · simp only [passed, hgb, if_false]; exact hb
  · simp only [St.mk.injEq, and_true]
    rw [← passed_update _ _ hga, ← passed_update _ _ hgb]
    rfl

end cases

/-- Two steps from the same state can be joined. -/
theorem diamond {s t u : St ι} (h1 : Step s t) (h2 : Step s u) : Joins t u := by
  cases h1 with
  | send h =>
    cases h2 with
    | send h' => exact send_send h h'
    | recv h' hq => exact send_recv h h' hq
    | ot hne ha hb q1 q2 => exact send_ot h hne ha hb q1 q2
    | sync hn hg => exact send_sync h hn hg
  | recv h hq =>
    cases h2 with
    | send h' => exact (send_recv h' h hq).symm
    | recv h' hq' => exact recv_recv h hq h' hq'
    | ot hne ha hb q1 q2 => exact recv_ot h hq hne ha hb q1 q2
    | sync hn hg => exact recv_sync h hq hn hg
  | ot hne ha hb q1 q2 =>
    cases h2 with
    | send h' => exact (send_ot h' hne ha hb q1 q2).symm
    | recv h' hq => exact (recv_ot h' hq hne ha hb q1 q2).symm
    | ot hne' ha' hb' q1' q2' => exact ot_ot hne ha hb q1 q2 hne' ha' hb' q1' q2'
    | sync hn hg => exact ot_sync hne ha hb q1 q2 hn hg
  | sync hn hg =>
    cases h2 with
    | send h' => exact (send_sync h' hn hg).symm
    | recv h' hq' => exact (recv_sync h' hq' hn hg).symm
    | ot hne' ha' hb' q1' q2' => exact (ot_sync hne' ha' hb' q1' q2' hn hg).symm
    | sync hn' hg' => exact sync_sync hn hg hn' hg'

theorem strip {s f : St ι} (hr : Reach s f) (hf : Stuck f) : ∀ {t}, Step s t → Reach t f := by
  induction hr with
  | refl => intro t h; exact absurd h (hf t)
  | head h1 hr ih =>
    intro t h
    rcases diamond h h1 with e | ⟨v, hv1, hv2⟩
    · rw [e]; exact hr
    · exact .head hv1 (ih hf hv2)

/-- If one run ends in `f`, every run does. -/
theorem confluent {s t : St ι} (ht : Reach s t) : ∀ {f}, Reach s f → Stuck f → Reach t f := by
  induction ht with
  | refl => intro f h _; exact h
  | head h1 _ ih => intro f hf hs; exact ih (strip hf hs h1) hs

theorem Reach.trans {s t u : St ι} (h1 : Reach s t) : Reach t u → Reach s u := by
  induction h1 with
  | refl => exact id
  | head h _ ih => exact fun h2 => .head h (ih h2)

theorem Final.stuck {s : St ι} (h : Final s) : Stuck s := by
  intro t ht
  cases ht with
  | send e => rw [h.1] at e; cases e
  | recv e => rw [h.1] at e; cases e
  | ot _ e => rw [h.1] at e; cases e
  | @sync g hn e =>
    cases g with
    | nil => exact hn rfl
    | cons p g =>
      obtain ⟨r, hr⟩ := e p (List.mem_cons_self ..)
      rw [h.1] at hr; cases hr

theorem eq_of_stuck {s t : St ι} (h : Reach s t) (hs : Stuck s) : s = t := by
  cases h with
  | refl => rfl
  | head h _ => exact absurd h (hs _)

theorem completes_of_run {f : ι → List (Op ι)} {u : St ι} (h : Reach (start f) u) (hu : Final u) : Completes f := by
  intro s hs hst
  rw [eq_of_stuck (confluent hs h hu.stuck) hst]
  exact hu

/-- A script that can be run to its end without what follows. -/
def Pre (f : ι → List (Op ι)) : Prop := ∀ r : ι → List (Op ι), Reach (start fun i => f i ++ r i) (start r)

theorem Pre.nil : Pre (fun _ : ι => []) := fun _ => .refl

theorem Pre.append {f g : ι → List (Op ι)} (hf : Pre f) (hg : Pre g) : Pre (fun i => f i ++ g i) := by
  intro r
  have h := (hf fun i => g i ++ r i).trans (hg r)
  simp only [← List.append_assoc] at h
  exact h

theorem Pre.completes {f : ι → List (Op ι)} (h : Pre f) : Completes f := by
  have := h fun _ => []
  simp only [List.append_nil] at this
  exact completes_of_run this ⟨fun _ => rfl, fun _ => rfl⟩

theorem Pre.congr {f g : ι → List (Op ι)} (h : Pre f) (e : ∀ i, g i = f i) : Pre g := by
  rw [funext e]; exact h

/-- Barrier of a group. -/
theorem Pre.sync {g : List ι} (hn : g ≠ []) : Pre (fun i => if i ∈ g then [Op.sync g] else []) := by
  intro r
  refine .head (.sync (g := g) hn ?_) ?_
  · intro p hp; exact ⟨r p, by simp [start, hp]⟩
  · have : (⟨fun p => if p ∈ g then ((start fun i => (if i ∈ g then [Op.sync g] else []) ++ r i).pc p).tail
        else (start fun i => (if i ∈ g then [Op.sync g] else []) ++ r i).pc p,
        (start fun i => (if i ∈ g then [Op.sync g] else []) ++ r i).q⟩ : St ι) = start r := by
      simp only [start, St.mk.injEq, and_true]
      funext i
      by_cases h : i ∈ g <;> simp [h]
    rw [this]; exact .refl

/-! ### Two processes on their channel -/

/-- The state of a channel between `p` and `p'` (`a` belongs to `p`), in front of `r`; `q` are the messages on the other
channels. -/
def embed (p p' : ι) (r : ι → List (Op ι)) (q : ι × ι → List Nat) (s : Session.St) : St ι :=
  ⟨Function.update (Function.update r p (s.a.map (.io p') ++ r p)) p' (s.b.map (.io p) ++ r p'),
   Function.update (Function.update q (p, p') s.toB) (p', p) s.toA⟩

theorem embed_step {p p' : ι} (hne : p ≠ p') (r : ι → List (Op ι)) (q : ι × ι → List Nat) {s t : Session.St}
    (h : Session.Step s t) : Step (embed p p' r q s) (embed p p' r q t) := by
  have hk : (p, p') ≠ (p', p) := fun c => hne (congrArg Prod.fst c)
  cases h with
  | @sendA n a b x y =>
    refine step_of_eq (.send (p := p) (p' := p') (n := n) (r := a.map (.io p') ++ r p) ?_) ?_
    · simp [embed, Function.update_of_ne hne]
    · simp only [embed, St.mk.injEq]
      constructor
      · rw [Function.update_comm hne.symm, Function.update_idem]
      · rw [Function.update_of_ne hk, Function.update_self, Function.update_comm hk.symm, Function.update_idem]
  | @sendB n a b x y =>
    refine step_of_eq (.send (p := p') (p' := p) (n := n) (r := b.map (.io p) ++ r p') ?_) ?_
    · simp [embed]
    · simp only [embed, St.mk.injEq]
      constructor
      · rw [Function.update_idem]
      · rw [Function.update_self, Function.update_idem]
  | @recvA n a b x y =>
    refine step_of_eq (.recv (p := p) (p' := p') (n := n) (r := a.map (.io p') ++ r p) (l := y) ?_ ?_) ?_
    · simp [embed, Function.update_of_ne hne]
    · simp [embed]
    · simp only [embed, St.mk.injEq]
      constructor
      · rw [Function.update_comm hne.symm, Function.update_idem]
      · rw [Function.update_idem]
  | @recvB n a b x y =>
    refine step_of_eq (.recv (p := p') (p' := p) (n := n) (r := b.map (.io p) ++ r p') (l := x) ?_ ?_) ?_
    · simp [embed]
    · simp [embed, Function.update_of_ne hk]
    · simp only [embed, St.mk.injEq]
      constructor
      · rw [Function.update_idem]
      · rw [Function.update_comm hk.symm, Function.update_idem]
  | @ot k rl n a b =>
    refine step_of_eq (.ot (p := p) (p' := p') (k := k) (rl := rl) (n := n) (r := a.map (.io p') ++ r p)
      (r' := b.map (.io p) ++ r p') hne ?_ ?_ ?_ ?_) ?_
    · simp [embed, Function.update_of_ne hne]
    · simp [embed]
    · simp [embed, Function.update_of_ne hk]
    · simp [embed]
    · simp only [embed, St.mk.injEq, and_true]
      rw [Function.update_comm hne.symm, Function.update_idem, Function.update_idem]

theorem embed_reach {p p' : ι} (hne : p ≠ p') (r : ι → List (Op ι)) (q : ι × ι → List Nat) {s t : Session.St}
    (h : Session.Reach s t) : Reach (embed p p' r q s) (embed p p' r q t) := by
  induction h with
  | refl => exact .refl
  | head h _ ih => exact .head (embed_step hne r q h) ih

/-- The scripts of two processes on their channel. -/
def pair (p p' : ι) (a b : List Act) : ι → List (Op ι) :=
  fun i => if i = p then a.map (.io p') else if i = p' then b.map (.io p) else []

theorem Pre.pair {p p' : ι} (hne : p ≠ p') {a b : List Act} (h : Session.Pre a b) : Pre (pair p p' a b) := by
  intro r
  have h0 := h [] []
  rw [List.append_nil, List.append_nil] at h0
  have h1 := embed_reach hne r (fun _ => []) h0
  have e1 : embed p p' r (fun _ => []) ⟨a, b, [], []⟩ = start fun i => Net.pair p p' a b i ++ r i := by
    simp only [embed, start, St.mk.injEq]
    constructor
    · funext i
      by_cases hi : i = p'
      · subst hi; simp [Net.pair, hne.symm]
      · by_cases hj : i = p
        · subst hj; simp [Net.pair, hne]
        · simp [Net.pair, hi, hj, Function.update_of_ne]
    · funext c; simp [Function.update]
  have e2 : embed p p' r (fun _ => []) ⟨[], [], [], []⟩ = start r := by
    simp only [embed, start, St.mk.injEq]
    constructor
    · simp
    · funext c; simp [Function.update]
  rw [e1, e2] at h1
  exact h1

/-- Independent scripts. -/
theorem Pre.all {f : Nat → ι → List (Op ι)} {T : Nat} (h : ∀ t < T, Pre (f t)) :
    Pre (fun i => (List.range T).flatMap (f · i)) := by
  induction T with
  | zero => exact .nil
  | succ T ih =>
    refine Pre.congr (Pre.append (ih fun t ht => h t (by omega)) (h T (by omega))) ?_
    intro i
    rw [List.range_succ, List.flatMap_append]
    simp

/-! ### Two parties with threads -/

theorem mem_group {b b' : Bool} {T t : Nat} : ((b', t) : Thread) ∈ group b T ↔ b' = b ∧ t < T := by
  unfold group
  simp only [List.mem_map, List.mem_range, Prod.mk.injEq]
  constructor
  · rintro ⟨x, hx, rfl, rfl⟩; exact ⟨rfl, hx⟩
  · rintro ⟨rfl, h⟩; exact ⟨t, h, rfl, rfl⟩

theorem group_ne {T : Nat} (h : 0 < T) (b : Bool) : group b T ≠ [] := by
  intro e
  have : ((b, 0) : Thread) ∈ group b T := mem_group.mpr ⟨rfl, h⟩
  rw [e] at this; cases this

/-! ### Necessary condition -/

/-- The messages that a process sends to `p'`. -/
def sends (p' : ι) (l : List (Op ι)) : List Nat :=
  l.filterMap fun | .io x (.send n) => if x = p' then some n else none | _ => none

/-- The messages that a process receives from `p'`. -/
def recvs (p' : ι) (l : List (Op ι)) : List Nat :=
  l.filterMap fun | .io x (.recv n) => if x = p' then some n else none | _ => none

/-- What `p'` has received from `p` in a step. -/
theorem flow_step {s t : St ι} (h : Step s t) (p p' : ι) :
    ∃ d, recvs p (s.pc p') = d ++ recvs p (t.pc p') ∧
      s.q (p, p') ++ sends p' (s.pc p) = d ++ (t.q (p, p') ++ sends p' (t.pc p)) := by
  cases h with
  | @send x x' n r e =>
    refine ⟨[], ?_, ?_⟩
    · simp only [List.nil_append]
      by_cases hx : p' = x
      · subst hx; rw [Function.update_self, e]; simp [recvs]
      · rw [Function.update_of_ne hx]
    · simp only [List.nil_append]
      by_cases hx : p = x
      · subst hx
        rw [Function.update_self, e]
        by_cases hx' : x' = p'
        · subst hx'; simp [sends]
        · have : (p, p') ≠ (p, x') := fun c => hx' (congrArg Prod.snd c).symm
          rw [Function.update_of_ne this]; simp [sends, hx']
      · have : (p, p') ≠ (x, x') := fun c => hx (congrArg Prod.fst c)
        rw [Function.update_of_ne this, Function.update_of_ne hx]
  | @recv x x' n r l e hq =>
    have h1 : sends p' (Function.update s.pc x r p) = sends p' (s.pc p) := by
      by_cases hx : p = x
      · subst hx; rw [Function.update_self, e]; simp [sends]
      · rw [Function.update_of_ne hx]
    simp only [h1]
    by_cases hx : p' = x
    · subst hx
      rw [Function.update_self, e]
      by_cases hx' : x' = p
      · subst hx'
        refine ⟨[n], by simp [recvs], ?_⟩
        rw [Function.update_self, hq]; simp
      · have : (p, p') ≠ (x', p') := fun c => hx' (congrArg Prod.fst c).symm
        rw [Function.update_of_ne this]
        exact ⟨[], by simp [recvs, hx'], by simp⟩
    · have : (p, p') ≠ (x', x) := fun c => hx (congrArg Prod.snd c)
      rw [Function.update_of_ne this, Function.update_of_ne hx]
      exact ⟨[], by simp, by simp⟩
  | @ot x x' k rl n r r' hne e1 e2 q1 q2 =>
    have key : ∀ (F : List (Op ι) → List Nat), (∀ y k rl n l, F (.io y (.ot k rl n) :: l) = F l) → ∀ i,
        F (Function.update (Function.update s.pc x r) x' r' i) = F (s.pc i) := by
      intro F hF i
      by_cases h1 : i = x'
      · subst h1; rw [Function.update_self, e2, hF]
      · rw [Function.update_of_ne h1]
        by_cases h2 : i = x
        · subst h2; rw [Function.update_self, e1, hF]
        · rw [Function.update_of_ne h2]
    refine ⟨[], ?_, ?_⟩
    · simp only [List.nil_append]
      rw [key (recvs p) (by intros; simp [recvs])]
    · simp only [List.nil_append]
      rw [key (sends p') (by intros; simp [sends])]
  | @sync g hn hg =>
    have key : ∀ (F : List (Op ι) → List Nat), (∀ g l, F (.sync g :: l) = F l) → ∀ i,
        F (if i ∈ g then (s.pc i).tail else s.pc i) = F (s.pc i) := by
      intro F hF i
      by_cases h1 : i ∈ g
      · obtain ⟨r, hr⟩ := hg i h1
        simp only [h1, if_true, hr, List.tail_cons, hF]
      · simp [h1]
    refine ⟨[], ?_, ?_⟩
    · simp only [List.nil_append]
      rw [key (recvs p) (by intros; simp [recvs])]
    · simp only [List.nil_append]
      rw [key (sends p') (by intros; simp [sends])]

theorem flow {s t : St ι} (h : Reach s t) (p p' : ι) :
    ∃ d, recvs p (s.pc p') = d ++ recvs p (t.pc p') ∧
      s.q (p, p') ++ sends p' (s.pc p) = d ++ (t.q (p, p') ++ sends p' (t.pc p)) := by
  induction h with
  | refl => exact ⟨[], by simp, by simp⟩
  | head h1 _ ih =>
    obtain ⟨d, e1, e2⟩ := flow_step h1 p p'
    obtain ⟨d', e3, e4⟩ := ih
    exact ⟨d ++ d', by rw [e1, e3]; simp, by rw [e2, e4]; simp⟩

/-- If the processes can get through, every process receives the messages that the other one sends. -/
theorem balanced {s t : St ι} (h : Reach s t) (ht : Final t) (p p' : ι) :
    s.q (p, p') ++ sends p' (s.pc p) = recvs p (s.pc p') := by
  obtain ⟨d, e1, e2⟩ := flow h p p'
  rw [e1, e2, ht.1, ht.1, ht.2]
  rfl

theorem fails_of_unbalanced {f : ι → List (Op ι)} {p p' : ι} (h : sends p' (f p) ≠ recvs p (f p')) : Fails f := by
  intro s hs hf
  exact h (by simpa [start] using balanced hs hf p p')

/-- A process that gets through has received the first messages that the other one sends. -/
theorem prefix_of_done {f : ι → List (Op ι)} {s : St ι} (h : Reach (start f) s) (p p' : ι) (hd : s.pc p' = []) :
    recvs p (f p') <+: sends p' (f p) := by
  obtain ⟨d, e1, e2⟩ := flow h p p'
  rw [hd] at e1
  simp only [start, List.nil_append] at e1 e2
  refine ⟨s.q (p, p') ++ sends p' (s.pc p), ?_⟩
  rw [e1, e2]
  simp [recvs]

/-! ### Every run ends -/

/-- The sum of the lengths of the scripts of the processes in `l`. -/
def remaining (l : List ι) (s : St ι) : Nat := (l.map fun p => (s.pc p).length).sum

theorem sum_le {α : Type} (f g : α → Nat) (h : ∀ p, f p ≤ g p) (l : List α) : (l.map f).sum ≤ (l.map g).sum := by
  induction l with
  | nil => simp
  | cons x l ih => have := h x; simp only [List.map_cons, List.sum_cons]; omega

theorem sum_lt {α : Type} (f g : α → Nat) (h : ∀ p, f p ≤ g p) {x : α} (hx : f x < g x) :
    ∀ {l : List α}, x ∈ l → (l.map f).sum < (l.map g).sum
  | y :: l, hm => by
    simp only [List.map_cons, List.sum_cons]
    rcases List.mem_cons.mp hm with rfl | hm
    · have := sum_le f g h l; omega
    · have := sum_lt f g h hx hm; have := h y; omega

/-- A step does not lengthen a script and shortens one. -/
theorem step_shortens {s t : St ι} (h : Step s t) :
    (∀ p, (t.pc p).length ≤ (s.pc p).length) ∧ ∃ p, (t.pc p).length < (s.pc p).length := by
  have upd : ∀ (f : ι → List (Op ι)) (p : ι) (o) (r), f p = o :: r → ∀ i,
      ((Function.update f p r) i).length ≤ (f i).length := by
    intro f p o r e i
    by_cases hi : i = p
    · subst hi; rw [Function.update_self, e]; simp
    · rw [Function.update_of_ne hi]; exact Nat.le_refl _
  cases h with
  | @send x x' n r e => exact ⟨upd _ _ _ _ e, x, by simp only; rw [Function.update_self, e]; simp⟩
  | @recv x x' n r l e hq => exact ⟨upd _ _ _ _ e, x, by simp only; rw [Function.update_self, e]; simp⟩
  | @ot x x' k rl n r r' hne e1 e2 q1 q2 =>
    refine ⟨fun i => Nat.le_trans (upd (Function.update s.pc x r) x' (.io x (.ot k (!rl) n)) r'
      (by rw [Function.update_of_ne hne.symm]; exact e2) i) (upd _ _ _ _ e1 i), x', ?_⟩
    simp only; rw [Function.update_self, e2]; simp
  | @sync g hn hg =>
    constructor
    · intro i
      simp only
      split
      · simp
      · exact Nat.le_refl _
    · cases g with
      | nil => exact absurd rfl hn
      | cons p g =>
        refine ⟨p, ?_⟩
        obtain ⟨r, hr⟩ := hg p (List.mem_cons_self ..)
        simp [hr]

/-- If only the processes in `l` have something to do, every step lowers the number of operations left. -/
theorem remaining_lt {l : List ι} {s t : St ι} (hl : ∀ p, p ∉ l → s.pc p = []) (h : Step s t) :
    (∀ p, p ∉ l → t.pc p = []) ∧ remaining l t < remaining l s := by
  obtain ⟨h1, x, hx⟩ := step_shortens h
  constructor
  · intro p hp
    have := h1 p
    rw [hl p hp] at this
    exact List.length_eq_zero_iff.mp (by simpa using this)
  · refine sum_lt _ _ h1 hx ?_
    by_contra hm
    rw [hl x hm] at hx
    simp at hx

/-- Runs of a given number of steps. -/
inductive Run : Nat → St ι → St ι → Prop
  | refl {s} : Run 0 s s
  | head {n s t u} : Step s t → Run n t u → Run (n + 1) s u

theorem run_bounded {l : List ι} {n : Nat} {s t : St ι} (h : Run n s t) :
    (∀ p, p ∉ l → s.pc p = []) → n + remaining l t ≤ remaining l s := by
  induction h with
  | refl => intro _; omega
  | head h1 _ ih =>
    intro hl
    obtain ⟨h2, h3⟩ := remaining_lt hl h1
    have := ih h2
    omega

end Verif.Net
