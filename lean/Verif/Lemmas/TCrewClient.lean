import Verif.Lemmas.TCrewCount
import Verif.Spec.Crew

namespace TCrew
open Finset

def Call.isWait : Call → Bool
  | .wait => true
  | .enq _ => false

/-- The jobs in a list of calls. -/
def jobsOf (l : List Call) : List Job := l.filterMap fun | .enq j => some j | .wait => none

/-- The jobs of client `c` that have been handed to a member, in order. -/
def State.handed (s : State) (c : Nat) : List Job := (s.assigned.filter (fun p => decide (p.1 = c))).map (·.2)

/-- The job of an enqueue call that has not handed it over yet. -/
def CPc.held : CPc → List Job
  | .enqLock j => [j]
  | .enqSleep j => [j]
  | _ => []

theorem held_woken (p : CPc) : p.woken.held = p.held := by cases p <;> rfl

/-- What a step does to client `d`. -/
structure Keep (s s' : State) (d : Nat) : Prop where
  todo : (s'.clients d).todo = (s.clients d).todo
  made : (s'.clients d).made = (s.clients d).made

structure Cl (prog : Nat → List Call) (s : State) : Prop where
  prog : ∀ c, (s.clients c).made ++ (s.clients c).todo = prog c
  jobs : ∀ c, jobsOf (s.clients c).made = s.handed c ++ (s.clients c).pc.held

theorem jobsOf_append (l l' : List Call) : jobsOf (l ++ l') = jobsOf l ++ jobsOf l' := by simp [jobsOf]

theorem handed_append (s : State) (c d : Nat) (j : Job) (s' : State) (h : s'.assigned = s.assigned ++ [(c, j)]) :
    s'.handed d = if d = c then s.handed d ++ [j] else s.handed d := by
  unfold State.handed
  rw [h]
  by_cases hd : d = c
  · subst hd; simp
  · have : ¬ c = d := fun h => hd h.symm
    simp [hd, this]

theorem handed_same (s s' : State) (d : Nat) (h : s'.assigned = s.assigned) : s'.handed d = s.handed d := by
  unfold State.handed; rw [h]

/-- A step that leaves the clients' lists and held jobs alone. -/
theorem Cl.of_same {prog : Nat → List Call} {s s' : State} (h : Cl prog s) (ha : s'.assigned = s.assigned)
    (hc : ∀ d, (s'.clients d).made = (s.clients d).made ∧ (s'.clients d).todo = (s.clients d).todo ∧ (s'.clients d).pc.held = (s.clients d).pc.held) : Cl prog s' := by
  constructor
  · intro c; rw [(hc c).1, (hc c).2.1]; exact h.prog c
  · intro c; rw [(hc c).1, (hc c).2.2, handed_same s s' c ha]; exact h.jobs c

theorem setClient_same (s0 s : State) (c : Nat) (x : Client) (hs : s0.clients = s.clients) (hm : x.made = (s.clients c).made) (ht : x.todo = (s.clients c).todo) (hp : x.pc.held = (s.clients c).pc.held) (d : Nat) :
    ((s0.setClient c x).clients d).made = (s.clients d).made ∧ ((s0.setClient c x).clients d).todo = (s.clients d).todo ∧
      ((s0.setClient c x).clients d).pc.held = (s.clients d).pc.held := by
  rw [clients_setClient]
  split
  · rename_i he; subst he; exact ⟨hm, ht, hp⟩
  · rw [hs]; exact ⟨rfl, rfl, rfl⟩

theorem waitBody_clients (s : State) (c : Nat) (r : Int) (d : Nat) (hp : (s.clients c).pc.held = []) :
    ((s.waitBody c r).clients d).made = (s.clients d).made ∧ ((s.waitBody c r).clients d).todo = (s.clients d).todo ∧
      ((s.waitBody c r).clients d).pc.held = (s.clients d).pc.held := by
  unfold State.waitBody
  simp only []
  split
  · exact setClient_same s s c { s.clients c with pc := .waitSleep r } rfl rfl rfl hp.symm d
  · exact setClient_same { s with cntCompleted := s.cntCompleted - r, cntEnqueued := s.cntEnqueued - r } s c
      { s.clients c with pc := .ready, rets := (s.clients c).rets ++ [r] } rfl rfl rfl hp.symm d

theorem cl_step {prog : Nat → List Call} {l : Label} {s s' : State} (hst : Step l s s') (h : Cl prog s) : Cl prog s' := by
  cases hst with
  | beginEnq c j rest hp ht =>
    constructor
    · intro d
      rw [clients_setClient]
      split
      · rename_i he; subst he
        simp only [List.append_assoc, List.singleton_append]
        rw [← ht]; exact h.prog d
      · exact h.prog d
    · intro d
      have := h.jobs d
      show _ = s.handed d ++ _
      rw [clients_setClient]
      split
      · rename_i he; subst he
        rw [hp] at this
        simp only [jobsOf_append, this]
        simp [CPc.held, jobsOf]
      · exact this
  | beginWait c rest hp ht =>
    constructor
    · intro d
      rw [clients_setClient]
      split
      · rename_i he; subst he
        simp only [List.append_assoc, List.singleton_append]
        rw [← ht]; exact h.prog d
      · exact h.prog d
    · intro d
      have := h.jobs d
      show _ = s.handed d ++ _
      rw [clients_setClient]
      split
      · rename_i he; subst he
        rw [hp] at this
        simp only [jobsOf_append, this]
        simp [CPc.held, jobsOf]
      · exact this
  | enqFull c j hp hf => exact h.of_same rfl (setClient_same s s c { s.clients c with pc := .enqSleep j } rfl rfl rfl (by rw [hp]; rfl))
  | enqGive c j m hp hf =>
    constructor
    · intro d
      rw [clients_setClient]
      split
      · rename_i he; subst he; exact h.prog d
      · exact h.prog d
    · intro d
      have := h.jobs d
      rw [handed_append s c d j _ rfl, clients_setClient]
      by_cases he : d = c
      · subst he
        rw [hp] at this
        simp only [if_true, this]
        simp [CPc.held]
      · rw [if_neg he, if_neg he]; exact this
  | signal c m hp => exact h.of_same (signal_fields s m).1 (setClient_same (s.signal m) s c { s.clients c with pc := .ready } (clients_signal s m) rfl rfl (by rw [hp]; rfl))
  | waitLock c hp => exact h.of_same (wait_fields s c _).1 (fun d => waitBody_clients s c _ d (by rw [hp]; rfl))
  | waitWake c r hp => exact h.of_same (wait_fields s c _).1 (fun d => waitBody_clients s c _ d (by rw [hp]; rfl))
  | loopIdle m ht hj => exact h.of_same rfl (fun d => ⟨rfl, rfl, held_woken _⟩)
  | loopWork m j ht hj => exact h.of_same rfl (fun d => ⟨rfl, rfl, rfl⟩)
  | callNull m ht hj => exact h.of_same rfl (fun d => ⟨rfl, rfl, rfl⟩)
  | call m j ht hj => exact h.of_same rfl (fun d => ⟨rfl, rfl, rfl⟩)
  | ret m j ht => exact h.of_same rfl (fun d => ⟨rfl, rfl, rfl⟩)
  | clear m ht => exact h.of_same rfl (fun d => ⟨rfl, rfl, rfl⟩)
  | count m ht => exact h.of_same rfl (fun d => ⟨rfl, rfl, rfl⟩)
  | stay m ht => exact h.of_same rfl (fun d => ⟨rfl, rfl, rfl⟩)
  | relinquish m ht hm => exact h.of_same rfl (fun d => ⟨rfl, rfl, rfl⟩)
  | leave m ht => exact h.of_same rfl (fun d => ⟨rfl, rfl, rfl⟩)
  | farewell h0 => exact h.of_same rfl (fun d => ⟨rfl, rfl, held_woken _⟩)
  | spuriousWorker m ht => exact h.of_same rfl (fun d => ⟨rfl, rfl, rfl⟩)
  | spuriousClient c hne => exact h.of_same rfl (setClient_same s s c { s.clients c with pc := (s.clients c).pc.woken } rfl rfl rfl (held_woken _))

theorem cl_init (prog : Nat → List Call) : Cl prog (init prog) := ⟨fun _ => rfl, fun _ => rfl⟩

/-! ### Wake-ups are not lost. -/

/-- Somebody is going to broadcast. -/
def Promise (s : State) : Prop :=
  0 < s.leaving ∨ ∃ m, (s.members m).thread = some .stats ∨ (s.members m).thread = some .quit ∨
    ((s.members m).thread = some .start ∧ (s.members m).busy = true ∧ (s.members m).task = none)

structure Wake (s : State) : Prop where
  enq : ∀ c j, (s.clients c).pc = .enqSleep j → (∀ m, m < maxThreads → (s.members m).busy = true) ∨ 0 < s.leaving
  wait : ∀ c r, (s.clients c).pc = .waitSleep r → s.cntCompleted < r ∨ Promise s

theorem woken_not_sleep (p : CPc) : (∀ j, p.woken ≠ .enqSleep j) ∧ ∀ r, p.woken ≠ .waitSleep r := by
  cases p <;> simp [CPc.woken]

/-- After a broadcast nobody sleeps. -/
theorem wake_broadcast (s : State) : Wake s.broadcast :=
  ⟨fun _ j h => absurd h ((woken_not_sleep _).1 j), fun _ r h => absurd h ((woken_not_sleep _).2 r)⟩

/-- A step in which no new client falls asleep and members only get busier. -/
theorem Wake.of_keep {s s' : State} (h : Wake s) (he : ∀ c j, (s'.clients c).pc = .enqSleep j → (s.clients c).pc = .enqSleep j)
    (hw : ∀ c r, (s'.clients c).pc = .waitSleep r → (s.clients c).pc = .waitSleep r)
    (hb : ∀ m, (s.members m).busy = true → (s'.members m).busy = true) (hl : s'.leaving = s.leaving)
    (hp : ∀ r, s.cntCompleted < r → s'.cntCompleted < r ∨ Promise s') (hp' : Promise s → Promise s') : Wake s' := by
  constructor
  · intro c j hc
    rcases h.enq c j (he c j hc) with h1 | h1
    · exact Or.inl fun m hm => hb m (h1 m hm)
    · exact Or.inr (by omega)
  · intro c r hc
    rcases h.wait c r (hw c r hc) with h1 | h1
    · exact hp r h1
    · exact Or.inr (hp' h1)

/-- A promise survives a change of one member that keeps that member's promise. -/
theorem promise_one {s s' : State} (m : Nat) (x : Member) (hm : ∀ i, s'.members i = if i = m then x else s.members i) (hl : s.leaving ≤ s'.leaving)
    (hx : ((s.members m).thread = some .stats ∨ (s.members m).thread = some .quit ∨
      ((s.members m).thread = some .start ∧ (s.members m).busy = true ∧ (s.members m).task = none)) → Promise s') (h : Promise s) : Promise s' := by
  rcases h with h | ⟨i, h⟩
  · exact Or.inl (by omega)
  · by_cases hi : i = m
    · subst hi; exact hx h
    · refine Or.inr ⟨i, ?_⟩
      rw [hm, if_neg hi]; exact h

theorem promise_same {s s' : State} (hm : s'.members = s.members) (hl : s'.leaving = s.leaving) (h : Promise s) : Promise s' := by
  unfold Promise at *; rw [hm, hl]; exact h

/-- Only one client changes, to a state that is not sleeping. -/
theorem set_not_sleep (s0 s : State) (c : Nat) (x : Client) (hs : s0.clients = s.clients) (h1 : ∀ j, x.pc ≠ .enqSleep j) (h2 : ∀ r, x.pc ≠ .waitSleep r) :
    (∀ d j, ((s0.setClient c x).clients d).pc = .enqSleep j → (s.clients d).pc = .enqSleep j) ∧
    (∀ d r, ((s0.setClient c x).clients d).pc = .waitSleep r → (s.clients d).pc = .waitSleep r) := by
  constructor
  · intro d j h
    rw [clients_setClient] at h
    split at h
    · exact absurd h (h1 j)
    · rw [hs] at h; exact h
  · intro d j h
    rw [clients_setClient] at h
    split at h
    · exact absurd h (h2 j)
    · rw [hs] at h; exact h

theorem wake_waitBody (s : State) (c : Nat) (r : Int) (hi : 0 ≤ r) (h : Wake s) : Wake (s.waitBody c r) := by
  have hmem := members_waitBody s c r
  have hl := (wait_fields s c r).2.2.2.2
  by_cases hlt : s.cntCompleted < r
  · have e : s.waitBody c r = s.setClient c { s.clients c with pc := .waitSleep r } := by
      unfold State.waitBody; simp only []; rw [if_pos hlt]
    rw [e]
    constructor
    · intro d j hd
      rw [clients_setClient] at hd
      split at hd
      · cases hd
      · exact h.enq d j hd
    · intro d r' hd
      rw [clients_setClient] at hd
      split at hd
      · simp only [CPc.waitSleep.injEq] at hd; subst hd; exact Or.inl hlt
      · exact h.wait d r' hd
  · have e : s.waitBody c r = ({ s with cntCompleted := s.cntCompleted - r, cntEnqueued := s.cntEnqueued - r } : State).setClient c
        { s.clients c with pc := .ready, rets := (s.clients c).rets ++ [r] } := by
      unfold State.waitBody; simp only []; rw [if_neg hlt]
    have hs := set_not_sleep ({ s with cntCompleted := s.cntCompleted - r, cntEnqueued := s.cntEnqueued - r } : State) s c
        { s.clients c with pc := .ready, rets := (s.clients c).rets ++ [r] } rfl (by simp) (by simp)
    rw [e]
    refine h.of_keep hs.1 hs.2 (fun m hm => hm) rfl (fun r' hr' => Or.inl ?_) (fun hp => hp)
    show s.cntCompleted - r < r'
    omega

theorem promise_waitBody (s : State) (c : Nat) (r : Int) (h : Promise s) : Promise (s.waitBody c r) :=
  promise_same (members_waitBody s c r) (wait_fields s c r).2.2.2.2 h

/-- Completed counts and wait targets are not negative. -/
structure NonNeg (s : State) : Prop where
  done : 0 ≤ s.cntCompleted
  target : ∀ c r, (s.clients c).pc = .waitSleep r ∨ (s.clients c).pc = .waitWake r → 0 ≤ r

theorem NonNeg.of_set {s s' : State} (h : NonNeg s) (hd : 0 ≤ s'.cntCompleted) (c : Nat) (x : Client)
    (hx : ∀ d, s'.clients d = if d = c then x else s.clients d) (hp : ∀ r, x.pc = .waitSleep r ∨ x.pc = .waitWake r → 0 ≤ r) : NonNeg s' := by
  refine ⟨hd, fun d r hr => ?_⟩
  rw [hx] at hr
  split at hr
  · exact hp r hr
  · exact h.target d r hr

theorem woken_target {p : CPc} {r : Int} (h : p.woken = .waitSleep r ∨ p.woken = .waitWake r) : p = .waitSleep r ∨ p = .waitWake r := by
  cases p <;> simp_all [CPc.woken]

theorem nonneg_waitBody (s : State) (c : Nat) (r : Int) (hr : 0 ≤ r) (h : NonNeg s) : NonNeg (s.waitBody c r) := by
  unfold State.waitBody
  simp only []
  split
  · refine h.of_set (s' := s.setClient c { s.clients c with pc := .waitSleep r }) h.done c { s.clients c with pc := .waitSleep r } (fun d => rfl) (fun r' h' => ?_)
    rcases h' with h' | h'
    · simp only [CPc.waitSleep.injEq] at h'; omega
    · cases h'
  · rename_i hlt
    refine h.of_set (s' := State.setClient _ c { s.clients c with pc := .ready, rets := (s.clients c).rets ++ [r] }) ?_ c
      { s.clients c with pc := .ready, rets := (s.clients c).rets ++ [r] } (fun d => rfl) (fun r' h' => ?_)
    · show 0 ≤ s.cntCompleted - r; omega
    · rcases h' with h' | h' <;> cases h'

theorem cnt_le {s : State} (h : Cnt s) : s.cntCompleted ≤ s.cntEnqueued := by
  have := h.c; omega

theorem nonneg_step {l : Label} {s s' : State} (hst : Step l s s') (hc : Cnt s) (h : NonNeg s) : NonNeg s' := by
  cases hst with
  | beginEnq c j rest hp ht =>
    exact h.of_set h.done c _ (fun d => rfl) (fun r h' => by rcases h' with h' | h' <;> cases h')
  | beginWait c rest hp ht =>
    exact h.of_set h.done c _ (fun d => rfl) (fun r h' => by rcases h' with h' | h' <;> cases h')
  | enqFull c j hp hf =>
    exact h.of_set h.done c _ (fun d => rfl) (fun r h' => by rcases h' with h' | h' <;> cases h')
  | enqGive c j m hp hf =>
    exact h.of_set h.done c _ (fun d => rfl) (fun r h' => by rcases h' with h' | h' <;> cases h')
  | signal c m hp =>
    refine h.of_set (by show 0 ≤ (s.signal m).cntCompleted; rw [(signal_fields s m).2.2.2.2.1]; exact h.done) c { s.clients c with pc := .ready } (fun d => ?_)
      (fun r h' => by rcases h' with h' | h' <;> cases h')
    rw [clients_setClient, clients_signal]
  | waitLock c hp => exact nonneg_waitBody s c _ (by have := cnt_le hc; have := h.done; omega) h
  | waitWake c r hp => exact nonneg_waitBody s c r (h.target c r (Or.inr hp)) h
  | loopIdle m ht hj => exact ⟨h.done, fun d r hr => h.target d r (woken_target hr)⟩
  | loopWork m j ht hj => exact ⟨h.done, h.target⟩
  | callNull m ht hj => exact ⟨h.done, h.target⟩
  | call m j ht hj => exact ⟨h.done, h.target⟩
  | ret m j ht => exact ⟨h.done, h.target⟩
  | clear m ht => exact ⟨h.done, h.target⟩
  | count m ht => exact ⟨by show 0 ≤ s.cntCompleted + 1; have := h.done; omega, h.target⟩
  | stay m ht => exact ⟨h.done, h.target⟩
  | relinquish m ht hm => exact ⟨h.done, h.target⟩
  | leave m ht => exact ⟨h.done, h.target⟩
  | farewell h0 => exact ⟨h.done, fun d r hr => h.target d r (woken_target hr)⟩
  | spuriousWorker m ht => exact ⟨h.done, h.target⟩
  | spuriousClient c hne =>
    exact h.of_set h.done c { s.clients c with pc := (s.clients c).pc.woken } (fun d => rfl) (fun r h' => h.target c r (woken_target h'))

theorem wake_step {l : Label} {s s' : State} (hst : Step l s s') (hi : Inv s) (hc : Cnt s) (hn : NonNeg s) (h : Wake s) : Wake s' := by
  cases hst with
  | beginEnq c j rest hp ht =>
    have hs := set_not_sleep s s c { s.clients c with pc := .enqLock j, todo := rest, made := (s.clients c).made ++ [.enq j] } rfl (by simp) (by simp)
    exact h.of_keep hs.1 hs.2 (fun _ h => h) rfl (fun r h => Or.inl h) (fun h => h)
  | beginWait c rest hp ht =>
    have hs := set_not_sleep s s c { s.clients c with pc := .waitLock, todo := rest, made := (s.clients c).made ++ [.wait] } rfl (by simp) (by simp)
    exact h.of_keep hs.1 hs.2 (fun _ h => h) rfl (fun r h => Or.inl h) (fun h => h)
  | enqFull c j hp hf =>
    constructor
    · intro d i hd
      rw [clients_setClient] at hd
      split at hd
      · exact Or.inl (firstFree_none hf)
      · exact h.enq d i hd
    · intro d r hd
      rw [clients_setClient] at hd
      split at hd
      · cases hd
      · exact h.wait d r hd
  | enqGive c j m hp hf =>
    have hs := set_not_sleep (({ s with cntEnqueued := s.cntEnqueued + 1, assigned := s.assigned ++ [(c, j)] } : State).setMember m ((s.members m).give j)) s c
      { s.clients c with pc := .enqSig m } rfl (by simp) (by simp)
    obtain ⟨hm, hb⟩ := firstFree_some hf
    have hok := hi.mem m
    refine h.of_keep hs.1 hs.2 (fun i h' => ?_) rfl (fun r h => Or.inl h) (promise_one m ((s.members m).give j) (fun i => rfl) (Nat.le_refl _) ?_)
    · show (if i = m then _ else _ : Member).busy = true
      split
      · rfl
      · exact h'
    · intro hx
      exfalso
      rcases hx with hx | hx | hx
      · simp only [Member.ok, hx] at hok; simp [hok.2.1] at hb
      · simp only [Member.ok, hx] at hok; simp [hok.2.1] at hb
      · simp [hx.2.1] at hb
  | signal c m hp =>
    have hs := set_not_sleep (s.signal m) s c { s.clients c with pc := .ready } (clients_signal s m) (by simp) (by simp)
    have hf := signal_fields s m
    refine h.of_keep hs.1 hs.2 (fun i h' => ?_) hf.2.2.2.2.2 (fun r h => Or.inl (by show (s.signal m).cntCompleted < r; rw [hf.2.2.2.2.1]; exact h)) ?_
    · rw [members_setClient, members_signal]
      split
      · rename_i he; rw [he.1] at h'; exact h'
      · exact h'
    · intro hp'
      by_cases ha : (s.members m).thread = some .asleep
      · refine promise_one m { s.members m with thread := some .start } (fun i => members_signal_one s m ha i) (by show s.leaving ≤ (s.signal m).leaving; rw [hf.2.2.2.2.2]) ?_ hp'
        intro hx
        rw [ha] at hx
        simp at hx
      · have he : s.signal m = s := by unfold State.signal; rw [if_neg ha]
        rw [he]; exact hp'
  | waitLock c hp => exact wake_waitBody s c _ (by have := cnt_le hc; have := hn.done; omega) h
  | waitWake c r hp => exact wake_waitBody s c r (hn.target c r (Or.inr hp)) h
  | loopIdle m ht hj => exact wake_broadcast _
  | loopWork m j ht hj =>
    refine h.of_keep (fun _ _ h => h) (fun _ _ h => h) (fun i h' => ?_) rfl (fun r h => Or.inl h)
      (promise_one m { s.members m with thread := some .call } (fun i => rfl) (Nat.le_refl _) (fun hx => ?_))
    · rw [members_setMember]; split
      · rename_i he; subst he; exact h'
      · exact h'
    · rw [ht, hj] at hx; simp at hx
  | callNull m ht hj => exact h.of_keep (fun _ _ h => h) (fun _ _ h => h) (fun _ h => h) rfl (fun r h => Or.inl h) (fun h => h)
  | call m j ht hj =>
    refine h.of_keep (fun _ _ h => h) (fun _ _ h => h) (fun i h' => ?_) rfl (fun r h => Or.inl h)
      (promise_one m { s.members m with thread := some (.running j) } (fun i => rfl) (Nat.le_refl _) (fun hx => ?_))
    · rw [members_setMember]; split
      · rename_i he; subst he; exact h'
      · exact h'
    · rw [ht] at hx; simp at hx
  | ret m j ht =>
    refine h.of_keep (fun _ _ h => h) (fun _ _ h => h) (fun i h' => ?_) rfl (fun r h => Or.inl h)
      (promise_one m { s.members m with thread := some .back } (fun i => rfl) (Nat.le_refl _) (fun hx => ?_))
    · rw [members_setMember]; split
      · rename_i he; subst he; exact h'
      · exact h'
    · rw [ht] at hx; simp at hx
  | clear m ht =>
    refine h.of_keep (fun _ _ h => h) (fun _ _ h => h) (fun i h' => ?_) rfl (fun r h => Or.inl h)
      (promise_one m { s.members m with task := none, thread := some .count } (fun i => rfl) (Nat.le_refl _) (fun hx => ?_))
    · rw [members_setMember]; split
      · rename_i he; subst he; exact h'
      · exact h'
    · rw [ht] at hx; simp at hx
  | count m ht =>
    have hpr : Promise (({ s with cntCompleted := s.cntCompleted + 1 } : State).setMember m { s.members m with thread := some .stats }) := by
      refine Or.inr ⟨m, Or.inl ?_⟩
      rw [members_setMember, if_pos rfl]
    refine h.of_keep (fun _ _ h => h) (fun _ _ h => h) (fun i h' => ?_) rfl (fun r h => Or.inr hpr) (fun _ => hpr)
    rw [members_setMember]; split
    · rename_i he; subst he; exact h'
    · exact h'
  | stay m ht =>
    have hok := hi.mem m
    simp only [Member.ok, ht] at hok
    refine h.of_keep (fun _ _ h => h) (fun _ _ h => h) (fun i h' => ?_) rfl (fun r h => Or.inl h)
      (promise_one m { s.members m with thread := some .start } (fun i => rfl) (Nat.le_refl _) (fun _ => ?_))
    · rw [members_setMember]; split
      · rename_i he; subst he; exact h'
      · exact h'
    · refine Or.inr ⟨m, Or.inr (Or.inr ?_)⟩
      rw [members_setMember, if_pos rfl]
      exact ⟨rfl, hok.2.1, hok.2.2⟩
  | relinquish m ht hm =>
    refine h.of_keep (fun _ _ h => h) (fun _ _ h => h) (fun i h' => ?_) rfl (fun r h => Or.inl h)
      (promise_one m { s.members m with thread := some .quit } (fun i => rfl) (Nat.le_refl _) (fun _ => ?_))
    · rw [members_setMember]; split
      · rename_i he; subst he; exact h'
      · exact h'
    · refine Or.inr ⟨m, Or.inr (Or.inl ?_)⟩
      rw [members_setMember, if_pos rfl]
  | leave m ht => exact ⟨fun _ _ _ => Or.inr (Nat.succ_pos _), fun _ _ _ => Or.inr (Or.inl (Nat.succ_pos _))⟩
  | farewell h0 => exact wake_broadcast _
  | spuriousWorker m ht =>
    refine h.of_keep (fun _ _ h => h) (fun _ _ h => h) (fun i h' => ?_) rfl (fun r h => Or.inl h)
      (promise_one m { s.members m with thread := some .start } (fun i => rfl) (Nat.le_refl _) (fun hx => ?_))
    · rw [members_setMember]; split
      · rename_i he; subst he; exact h'
      · exact h'
    · rw [ht] at hx; simp at hx
  | spuriousClient c hne =>
    have hs := set_not_sleep s s c { s.clients c with pc := (s.clients c).pc.woken } rfl (woken_not_sleep _).1 (woken_not_sleep _).2
    exact h.of_keep hs.1 hs.2 (fun _ h => h) rfl (fun r h => Or.inl h) (fun h => h)

/-- All the invariants. -/
structure All (prog : Nat → List Call) (s : State) : Prop where
  inv : Inv s
  cnt : Cnt s
  cl : Cl prog s
  nn : NonNeg s
  wake : Wake s

theorem run_all (prog : Nat → List Call) (ls : List Label) (s : State) (h : run (init prog) ls = some s) : All prog s := by
  refine run_induct (P := All prog) prog ⟨inv_init prog, cnt_init prog, cl_init prog, ⟨Int.le_refl 0, ?_⟩, ⟨?_, ?_⟩⟩ ?_ ls s h
  · intro c r hr; rcases hr with hr | hr <;> cases hr
  · intro c j hr; cases hr
  · intro c r hr; cases hr
  · exact fun l s s' hst hi => ⟨inv_step hst hi.inv, cnt_step hst hi.inv hi.cnt, cl_step hst hi.cl, nonneg_step hst hi.cnt hi.nn,
      wake_step hst hi.inv hi.cnt hi.nn hi.wake⟩

end TCrew
