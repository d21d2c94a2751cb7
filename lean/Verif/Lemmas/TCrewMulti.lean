import Verif.Lemmas.TCrewLive

namespace TCrew
open Finset

/-! ### Several clients that enqueue, one that waits. -/

def CPc.waiting : CPc → Bool
  | .waitLock => true
  | .waitSleep _ => true
  | .waitWake _ => true
  | _ => false

theorem waiting_woken (p : CPc) : p.woken.waiting = p.waiting := by cases p <;> rfl

structure OneWaiter (s : State) : Prop where
  others : ∀ c, c ≠ 0 → (s.clients c).pc.waiting = false
  target : ∀ r, (s.clients 0).pc = .waitSleep r ∨ (s.clients 0).pc = .waitWake r → r ≤ s.cntEnqueued

theorem OneWaiter.of_set {s s' : State} (h : OneWaiter s) (c : Nat) (x : Client) (hx : ∀ d, s'.clients d = if d = c then x else s.clients d)
    (hw : x.pc.waiting = false) (he : s.cntEnqueued ≤ s'.cntEnqueued) : OneWaiter s' := by
  constructor
  · intro d hd
    rw [hx]; split
    · exact hw
    · exact h.others d hd
  · intro r hr
    rw [hx] at hr
    split at hr
    · rcases hr with hr | hr <;> rw [hr] at hw <;> cases hw
    · have := h.target r hr; omega

theorem OneWaiter.of_woken {s s' : State} (h : OneWaiter s) (hx : ∀ d, s'.clients d = { s.clients d with pc := (s.clients d).pc.woken }) (he : s'.cntEnqueued = s.cntEnqueued) : OneWaiter s' := by
  constructor
  · intro d hd
    rw [hx]; simp only [waiting_woken]; exact h.others d hd
  · intro r hr
    rw [hx] at hr
    have := h.target r (woken_target hr)
    omega

theorem OneWaiter.of_same {s s' : State} (h : OneWaiter s) (hx : s'.clients = s.clients) (he : s'.cntEnqueued = s.cntEnqueued) : OneWaiter s' := by
  constructor
  · rw [hx]; exact h.others
  · rw [hx, he]; exact h.target

theorem one_waitBody {s : State} (h : OneWaiter s) (r : Int) (hr : r ≤ s.cntEnqueued) : OneWaiter (s.waitBody 0 r) := by
  unfold State.waitBody
  simp only []
  split
  · constructor
    · intro d hd; rw [clients_setClient, if_neg hd]; exact h.others d hd
    · intro r' hr'
      rw [clients_setClient, if_pos rfl] at hr'
      rcases hr' with h' | h'
      · simp only [CPc.waitSleep.injEq] at h'; subst h'; exact hr
      · cases h'
  · constructor
    · intro d hd; rw [clients_setClient, if_neg hd]; exact h.others d hd
    · intro r' hr'
      rw [clients_setClient, if_pos rfl] at hr'
      rcases hr' with h' | h' <;> cases h'

theorem one_step {prog : Nat → List Call} (hprog : ∀ c, c ≠ 0 → Call.wait ∉ prog c) {l : Label} {s s' : State} (hst : Step l s s') (hcl : Cl prog s) (h : OneWaiter s) : OneWaiter s' := by
  cases hst with
  | beginEnq c j rest hp ht => exact h.of_set c { s.clients c with pc := .enqLock j, todo := rest, made := (s.clients c).made ++ [.enq j] } (fun d => rfl) rfl (Int.le_refl _)
  | beginWait c rest hp ht =>
    have h0 : c = 0 := by
      by_contra hne
      apply hprog c hne
      rw [← hcl.prog c, ht]
      simp
    subst h0
    constructor
    · intro d hd; rw [clients_setClient, if_neg hd]; exact h.others d hd
    · rw [clients_setClient, if_pos rfl]
      intro r hr; rcases hr with h' | h' <;> cases h'
  | enqFull c j hp hf => exact h.of_set c { s.clients c with pc := .enqSleep j } (fun d => rfl) rfl (Int.le_refl _)
  | enqGive c j m hp hf => exact h.of_set c { s.clients c with pc := .enqSig m } (fun d => rfl) rfl (by show s.cntEnqueued ≤ s.cntEnqueued + 1; omega)
  | signal c m hp =>
    exact h.of_set c { s.clients c with pc := .ready } (fun d => by rw [clients_setClient, clients_signal]) rfl
      (by show s.cntEnqueued ≤ (s.signal m).cntEnqueued; rw [(signal_fields s m).2.2.2.1])
  | waitLock c hp =>
    have h0 : c = 0 := by by_contra hne; have := h.others c hne; rw [hp] at this; cases this
    subst h0
    exact one_waitBody h _ (Int.le_refl _)
  | waitWake c r hp =>
    have h0 : c = 0 := by by_contra hne; have := h.others c hne; rw [hp] at this; cases this
    subst h0
    exact one_waitBody h _ (h.target r (Or.inr hp))
  | loopIdle m ht hj => exact h.of_woken (fun d => rfl) rfl
  | loopWork m j ht hj => exact h.of_same rfl rfl
  | callNull m ht hj => exact h.of_same rfl rfl
  | call m j ht hj => exact h.of_same rfl rfl
  | ret m j ht => exact h.of_same rfl rfl
  | clear m ht => exact h.of_same rfl rfl
  | count m ht => exact h.of_same rfl rfl
  | stay m ht => exact h.of_same rfl rfl
  | relinquish m ht hm => exact h.of_same rfl rfl
  | leave m ht => exact h.of_same rfl rfl
  | farewell h0 => exact h.of_woken (fun d => rfl) rfl
  | spuriousWorker m ht => exact h.of_same rfl rfl
  | spuriousClient c hne =>
    constructor
    · intro d hd
      rw [clients_setClient]; split
      · rename_i he; subst he; simp only [waiting_woken]; exact h.others d hd
      · exact h.others d hd
    · intro r hr
      rw [clients_setClient] at hr
      split at hr
      · rename_i he; rw [← he] at hr; exact h.target r (woken_target hr)
      · exact h.target r hr

theorem run_one (prog : Nat → List Call) (hprog : ∀ c, c ≠ 0 → Call.wait ∉ prog c) (ls : List Label) (s : State) (h : run (init prog) ls = some s) : OneWaiter s := by
  refine (run_induct (P := fun s => Cl prog s ∧ OneWaiter s) prog ⟨cl_init prog, ⟨fun _ _ => rfl, ?_⟩⟩ ?_ ls s h).2
  · intro r hr; rcases hr with h' | h' <;> cases h'
  · exact fun l s s' hst hi => ⟨cl_step hst hi.1, one_step hprog hst hi.1 hi.2⟩

/-- A stuck state with one waiting client: everybody is done. -/
theorem stuck_done {prog : Nat → List Call} {s : State} (hs : Stuck s) (hall : All prog s) (ho : OneWaiter s) (c : Nat) :
    (s.clients c).pc = .ready ∧ (s.clients c).todo = [] := by
  rcases stuck_client hs c with h | ⟨j, h⟩ | ⟨r, h⟩
  · exact h
  · exact absurd h (stuck_no_enq hs hall.inv hall.wake c j)
  · exfalso
    have h0 : c = 0 := by by_contra hne; have := ho.others c hne; rw [h] at this; cases this
    subst h0
    have h1 := stuck_wait hs hall.inv hall.wake 0 r h
    have h2 := ho.target r (Or.inl h)
    have h3 := (stuck_counts hs hall.inv hall.cnt).2
    omega

/-! ### Counting the jobs of all clients. -/

theorem cnt_handed (l : List (Nat × Job)) (n : Nat) (hl : ∀ p ∈ l, p.1 < n) (j : Job) :
    cnt j l = ∑ c ∈ range n, ((l.filter (fun p => decide (p.1 = c))).map (·.2)).count j := by
  induction l with
  | nil => simp [cnt]
  | cons p l ih =>
    have h1 := ih (fun q hq => hl q (List.mem_cons_of_mem _ hq))
    have hp := hl p List.mem_cons_self
    have h2 : ∀ c, (((p :: l).filter (fun p => decide (p.1 = c))).map (·.2)).count j =
        ((l.filter (fun p => decide (p.1 = c))).map (·.2)).count j + if c = p.1 then (if p.2 = j then 1 else 0) else 0 := by
      intro c
      by_cases hc : c = p.1
      · subst hc; simp [List.count_cons]
      · have : ¬ p.1 = c := fun h => hc h.symm
        simp [hc, this]
    simp only [h2]
    rw [Finset.sum_add_distrib, ← h1, Finset.sum_ite_eq' (range n) p.1, if_pos (mem_range.mpr hp)]
    unfold cnt
    simp [List.count_cons]

theorem assigned_small {prog : Nat → List Call} {s : State} (n : Nat) (hprog : ∀ c, n ≤ c → prog c = []) (hcl : Cl prog s) : ∀ p ∈ s.assigned, p.1 < n := by
  intro p hp
  by_contra hn
  have h1 := hcl.jobs p.1
  have h2 := hcl.prog p.1
  rw [hprog p.1 (by omega)] at h2
  rw [(List.append_eq_nil_iff.mp h2).1] at h1
  have h3 : s.handed p.1 = [] := (List.append_eq_nil_iff.mp h1.symm).1
  have h4 : p.2 ∈ s.handed p.1 := by
    unfold State.handed
    rw [List.mem_map]
    exact ⟨p, List.mem_filter.mpr ⟨hp, by simp⟩, rfl⟩
  rw [h3] at h4
  cases h4

theorem stuck_of {s : State} (hm : ∀ m, (s.members m).thread = none ∨ (s.members m).thread = some .asleep) (hl : s.leaving = 0)
    (hc : ∀ c, ((s.clients c).pc = .ready ∧ (s.clients c).todo = []) ∨ (∃ j, (s.clients c).pc = .enqSleep j) ∨ ∃ r, (s.clients c).pc = .waitSleep r) : Stuck s := by
  intro l hl'
  cases l with
  | begin c => rcases hc c with h | ⟨j, h⟩ | ⟨r, h⟩ <;> simp [step, h]
  | enqueue c => rcases hc c with h | ⟨j, h⟩ | ⟨r, h⟩ <;> simp [step, h]
  | signal c => rcases hc c with h | ⟨j, h⟩ | ⟨r, h⟩ <;> simp [step, h]
  | wait c => rcases hc c with h | ⟨j, h⟩ | ⟨r, h⟩ <;> simp [step, h]
  | loopTop m => rcases hm m with h | h <;> simp [step, h]
  | call m => rcases hm m with h | h <;> simp [step, h]
  | ret m => rcases hm m with h | h <;> simp [step, h]
  | clear m => rcases hm m with h | h <;> simp [step, h]
  | count m => rcases hm m with h | h <;> simp [step, h]
  | stay m => rcases hm m with h | h <;> simp [step, h]
  | relinquish m => rcases hm m with h | h <;> simp [step, h]
  | leave m => rcases hm m with h | h <;> simp [step, h]
  | farewell => simp [step, hl]
  | spuriousWorker m => cases hl'
  | spuriousClient c => cases hl'

end TCrew
