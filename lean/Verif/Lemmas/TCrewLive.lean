import Verif.Lemmas.TCrewClient
import Mathlib.Tactic.Ring
import Mathlib.Algebra.BigOperators.Ring.Finset

namespace TCrew
open Finset

/-! ### Clients that make no calls. -/

theorem woken_ready {p : CPc} : p.woken = .ready ↔ p = .ready := by cases p <;> simp [CPc.woken]

theorem idle_waitBody (s : State) (c d : Nat) (r : Int) (hne : (s.clients d).pc = .ready) (hc : (s.clients c).pc ≠ .ready) :
    ((s.waitBody c r).clients d).pc = .ready := by
  have hdc : d ≠ c := fun h => hc (h ▸ hne)
  unfold State.waitBody
  simp only []
  split <;> rw [clients_setClient, if_neg hdc] <;> exact hne

theorem idle_step {prog : Nat → List Call} {l : Label} {s s' : State} (hst : Step l s s') (hcl : Cl prog s) (c : Nat) (hc : prog c = [])
    (h : (s.clients c).pc = .ready) : (s'.clients c).pc = .ready := by
  have htodo : (s.clients c).todo = [] := by
    have := hcl.prog c
    rw [hc] at this
    exact (List.append_eq_nil_iff.mp this).2
  have set : ∀ (s0 : State) (d : Nat) (x : Client), s0.clients = s.clients → d ≠ c → ((s0.setClient d x).clients c).pc = .ready := by
    intro s0 d x hs hd
    rw [clients_setClient, if_neg (fun h => hd h.symm), hs]; exact h
  cases hst with
  | beginEnq d j rest hp ht => exact set s d _ rfl (fun he => by subst he; rw [htodo] at ht; cases ht)
  | beginWait d rest hp ht => exact set s d _ rfl (fun he => by subst he; rw [htodo] at ht; cases ht)
  | enqFull d j hp hf => exact set s d _ rfl (fun he => by subst he; rw [h] at hp; cases hp)
  | enqGive d j m hp hf => exact set _ d _ rfl (fun he => by subst he; rw [h] at hp; cases hp)
  | signal d m hp => exact set _ d _ (clients_signal s m) (fun he => by subst he; rw [h] at hp; cases hp)
  | waitLock d hp => exact idle_waitBody s d c _ h (by rw [hp]; simp)
  | waitWake d r hp => exact idle_waitBody s d c _ h (by rw [hp]; simp)
  | loopIdle m ht hj => exact woken_ready.mpr h
  | loopWork m j ht hj => exact h
  | callNull m ht hj => exact h
  | call m j ht hj => exact h
  | ret m j ht => exact h
  | clear m ht => exact h
  | count m ht => exact h
  | stay m ht => exact h
  | relinquish m ht hm => exact h
  | leave m ht => exact h
  | farewell h0 => exact woken_ready.mpr h
  | spuriousWorker m ht => exact h
  | spuriousClient d hne => exact set s d _ rfl (fun he => by subst he; rw [h] at hne; exact hne rfl)

theorem run_idle (prog : Nat → List Call) (ls : List Label) (s : State) (h : run (init prog) ls = some s) (c : Nat) (hc : prog c = []) : (s.clients c).pc = .ready :=
  (run_induct (P := fun s => All prog s ∧ (s.clients c).pc = .ready) prog ⟨run_all prog [] _ rfl, rfl⟩
    (fun l s s' hst hi => ⟨⟨inv_step hst hi.1.inv, cnt_step hst hi.1.inv hi.1.cnt, cl_step hst hi.1.cl, nonneg_step hst hi.1.cnt hi.1.nn,
      wake_step hst hi.1.inv hi.1.cnt hi.1.nn hi.1.wake⟩, idle_step hst hi.1.cl c hc hi.2⟩) ls s h).2

/-! ### A state in which only spurious wake-ups are possible. -/

def Stuck (s : State) : Prop := ∀ l, l.spurious = false → step l s = none

theorem stuck_member {s : State} (hs : Stuck s) (m : Nat) : (s.members m).thread = none ∨ (s.members m).thread = some .asleep := by
  cases h : (s.members m).thread with
  | none => exact Or.inl rfl
  | some p =>
    right
    cases p with
    | start =>
      have := hs (.loopTop m) rfl
      simp only [step, h, if_true] at this
      split at this <;> cases this
    | asleep => rfl
    | call =>
      have := hs (.call m) rfl
      simp only [step, h, if_true] at this
      split at this <;> cases this
    | running j => have := hs (.ret m) rfl; simp only [step, h] at this; cases this
    | back => have := hs (.clear m) rfl; simp only [step, h, if_true] at this; cases this
    | count => have := hs (.count m) rfl; simp only [step, h, if_true] at this; cases this
    | stats => have := hs (.stay m) rfl; simp only [step, h, if_true] at this; cases this
    | quit => have := hs (.leave m) rfl; simp only [step, h, if_true] at this; cases this

theorem stuck_leaving {s : State} (hs : Stuck s) : s.leaving = 0 := by
  have := hs .farewell rfl
  simp only [step] at this
  split at this
  · cases this
  · omega

theorem stuck_client {s : State} (hs : Stuck s) (c : Nat) :
    ((s.clients c).pc = .ready ∧ (s.clients c).todo = []) ∨ (∃ j, (s.clients c).pc = .enqSleep j) ∨ ∃ r, (s.clients c).pc = .waitSleep r := by
  cases h : (s.clients c).pc with
  | ready =>
    left
    refine ⟨rfl, ?_⟩
    have := hs (.begin c) rfl
    simp only [step, h] at this
    cases ht : (s.clients c).todo with
    | nil => rfl
    | cons a rest => rw [ht] at this; cases a <;> cases this
  | enqLock j =>
    have := hs (.enqueue c) rfl
    simp only [step, h] at this
    split at this <;> cases this
  | enqSleep j => exact Or.inr (Or.inl ⟨j, rfl⟩)
  | enqSig m => have := hs (.signal c) rfl; simp only [step, h] at this; cases this
  | waitLock => have := hs (.wait c) rfl; simp only [step, h] at this; cases this
  | waitSleep r => exact Or.inr (Or.inr ⟨r, rfl⟩)
  | waitWake r => have := hs (.wait c) rfl; simp only [step, h] at this; cases this

theorem stuck_task {s : State} (hs : Stuck s) (hi : Inv s) (m : Nat) : (s.members m).task = none ∧ (s.members m).busy = false := by
  have hok := hi.mem m
  rcases stuck_member hs m with h | h
  · simp only [Member.ok, h] at hok
    exact ⟨hok.2.2, hok.2.1⟩
  · have hn : (s.members m).task = none := by
      by_contra hne
      obtain ⟨c, hc⟩ := hi.sig m h hne
      have := hs (.signal c) rfl
      simp only [step, hc] at this
      cases this
    simp only [Member.ok, h] at hok
    refine ⟨hn, ?_⟩
    cases hb : (s.members m).busy with
    | false => rfl
    | true => exact absurd hn (hok.2.mpr hb)

theorem stuck_counts {s : State} (hs : Stuck s) (hi : Inv s) (hc : Cnt s) :
    (∀ j, cnt j s.assigned = cnt j s.finished) ∧ s.cntEnqueued = s.cntCompleted := by
  refine ⟨fun j => ?_, ?_⟩
  · have h1 : tot (runs j) s = 0 := tot_zero _ _ (fun i => by
      unfold runs
      rcases stuck_member hs i with h | h <;> simp [h])
    have h2 : tot (pend j) s = 0 := tot_zero _ _ (fun i => by unfold pend; simp [(stuck_task hs hi i).1])
    rw [hc.a j, hc.b j, h1, h2]; rfl
  · have h1 := hc.c
    have h2 : tot infl s = 0 := tot_zero _ _ (fun i => by
      unfold infl
      rcases stuck_member hs i with h | h <;> simp [h, (stuck_task hs hi i).1])
    rw [h2] at h1
    omega

/-- In a stuck state no enqueue call is blocked. -/
theorem stuck_no_enq {s : State} (hs : Stuck s) (hi : Inv s) (hw : Wake s) (c : Nat) (j : Job) : (s.clients c).pc ≠ .enqSleep j := by
  intro h
  rcases hw.enq c j h with h1 | h1
  · have := h1 0 (by decide)
    rw [(stuck_task hs hi 0).2] at this
    cases this
  · have := stuck_leaving hs; omega

theorem stuck_wait {s : State} (hs : Stuck s) (hi : Inv s) (hw : Wake s) (c : Nat) (r : Int) (h : (s.clients c).pc = .waitSleep r) : s.cntCompleted < r := by
  rcases hw.wait c r h with h1 | h1 | ⟨m, h1⟩
  · exact h1
  · have := stuck_leaving hs; omega
  · rcases stuck_member hs m with h2 | h2 <;> rw [h2] at h1 <;> simp at h1

/-! ### A single client. -/

open Spec.Crew

/-- The calls of client 0 that have returned, or, for enqueue, have handed over their job. -/
structure Sole (s : State) : Prop where
  ret : ∀ r, (s.clients 0).pc = .waitSleep r ∨ (s.clients 0).pc = .waitWake r → r = s.cntEnqueued
  calls : match (s.clients 0).pc with
    | .ready => (s.clients 0).rets = waitCounts Call.isWait 0 (s.clients 0).made ∧ s.cntEnqueued = sinceWait Call.isWait 0 (s.clients 0).made
    | .enqSig _ => (s.clients 0).rets = waitCounts Call.isWait 0 (s.clients 0).made ∧ s.cntEnqueued = sinceWait Call.isWait 0 (s.clients 0).made ∧
        (s.clients 0).made.getLast? ≠ some .wait
    | .enqLock j | .enqSleep j => ∃ l, (s.clients 0).made = l ++ [.enq j] ∧ (s.clients 0).rets = waitCounts Call.isWait 0 l ∧ s.cntEnqueued = sinceWait Call.isWait 0 l
    | .waitLock | .waitSleep _ | .waitWake _ => ∃ l, (s.clients 0).made = l ++ [.wait] ∧ (s.clients 0).rets = waitCounts Call.isWait 0 l ∧ s.cntEnqueued = sinceWait Call.isWait 0 l
  bar : (s.clients 0).pc = .ready → (s.clients 0).made.getLast? = some .wait → s.cntEnqueued ≤ s.cntCompleted

/-- A step of the workers. -/
theorem Sole.of_same {s s' : State} (h : Sole s) (hc : s'.clients 0 = s.clients 0) (he : s'.cntEnqueued = s.cntEnqueued) (hd : s.cntCompleted ≤ s'.cntCompleted) : Sole s' := by
  constructor
  · rw [hc, he]; exact h.ret
  · rw [hc, he]; exact h.calls
  · rw [hc, he]; intro h1 h2; have := h.bar h1 h2; omega

theorem Sole.of_woken {s s' : State} (h : Sole s) (hc : s'.clients 0 = { s.clients 0 with pc := (s.clients 0).pc.woken }) (he : s'.cntEnqueued = s.cntEnqueued)
    (hd : s.cntCompleted ≤ s'.cntCompleted) : Sole s' := by
  obtain ⟨h1, h2, h3⟩ := h
  have h4 : ∀ r, (s.clients 0).pc.woken = .waitSleep r ∨ (s.clients 0).pc.woken = .waitWake r → r = s.cntEnqueued := fun r hr => h1 r (woken_target hr)
  constructor
  · rw [hc, he]; exact h4
  · rw [hc, he]
    cases hp : (s.clients 0).pc <;> rw [hp] at h2 <;> exact h2
  · rw [hc, he]
    intro h5 h6
    have := h3 (woken_ready.mp h5) h6
    omega

theorem getLast_snoc (l : List Call) (c : Call) : (l ++ [c]).getLast? = some c := by simp

theorem sole_waitBody {s : State} (h : Sole s) (r : Int) (hr : r = s.cntEnqueued) (hp : (s.clients 0).pc = .waitLock ∨ (s.clients 0).pc = .waitWake r) : Sole (s.waitBody 0 r) := by
  have hcalls : ∃ l, (s.clients 0).made = l ++ [.wait] ∧ (s.clients 0).rets = waitCounts Call.isWait 0 l ∧ s.cntEnqueued = sinceWait Call.isWait 0 l := by
    have := h.calls
    rcases hp with hp | hp <;> rw [hp] at this <;> exact this
  obtain ⟨l, h1, h2, h3⟩ := hcalls
  by_cases hlt : s.cntCompleted < r
  · have e : s.waitBody 0 r = s.setClient 0 { s.clients 0 with pc := .waitSleep r } := by
      unfold State.waitBody; simp only []; rw [if_pos hlt]
    rw [e]
    constructor
    · rw [clients_setClient, if_pos rfl]
      intro r' hr'
      rcases hr' with h' | h'
      · simp only [CPc.waitSleep.injEq] at h'; rw [← h', hr]; rfl
      · cases h'
    · rw [clients_setClient, if_pos rfl]
      exact ⟨l, h1, h2, h3⟩
    · rw [clients_setClient, if_pos rfl]
      intro h'; cases h'
  · have e : s.waitBody 0 r = ({ s with cntCompleted := s.cntCompleted - r, cntEnqueued := s.cntEnqueued - r } : State).setClient 0
        { s.clients 0 with pc := .ready, rets := (s.clients 0).rets ++ [r] } := by
      unfold State.waitBody; simp only []; rw [if_neg hlt]
    rw [e]
    constructor
    · rw [clients_setClient, if_pos rfl]
      intro r' hr'
      rcases hr' with h' | h' <;> cases h'
    · rw [clients_setClient, if_pos rfl]
      show (s.clients 0).rets ++ [r] = waitCounts Call.isWait 0 (s.clients 0).made ∧ s.cntEnqueued - r = _
      rw [h1]
      refine ⟨?_, ?_⟩
      · rw [waitCounts_append, if_pos (show Call.isWait .wait = true from rfl), h2, hr, h3]
      · rw [sinceWait_append, if_pos (show Call.isWait .wait = true from rfl)]; simp; omega
    · intro _ _
      show s.cntEnqueued - r ≤ s.cntCompleted - r
      omega

/-- Every client but 0 makes no calls. -/
def Alone (s : State) : Prop := ∀ c, c ≠ 0 → (s.clients c).pc = .ready

theorem sole_step {prog : Nat → List Call} (hprog : ∀ c, c ≠ 0 → prog c = []) {l : Label} {s s' : State} (hst : Step l s s') (ha : Alone s) (hcl : Cl prog s) (h : Sole s) : Sole s' := by
  have htodo : ∀ c, c ≠ 0 → (s.clients c).todo = [] := by
    intro c hc
    have := hcl.prog c
    rw [hprog c hc] at this
    exact (List.append_eq_nil_iff.mp this).2
  cases hst with
  | beginEnq c j rest hp ht =>
    have h0 : c = 0 := by by_contra hne; rw [htodo c hne] at ht; cases ht
    subst h0
    have := h.calls
    rw [hp] at this
    constructor
    · rw [clients_setClient, if_pos rfl]; intro r hr; rcases hr with h' | h' <;> cases h'
    · rw [clients_setClient, if_pos rfl]; exact ⟨_, rfl, this.1, this.2⟩
    · rw [clients_setClient, if_pos rfl]; intro h'; cases h'
  | beginWait c rest hp ht =>
    have h0 : c = 0 := by by_contra hne; rw [htodo c hne] at ht; cases ht
    subst h0
    have := h.calls
    rw [hp] at this
    constructor
    · rw [clients_setClient, if_pos rfl]; intro r hr; rcases hr with h' | h' <;> cases h'
    · rw [clients_setClient, if_pos rfl]; exact ⟨_, rfl, this.1, this.2⟩
    · rw [clients_setClient, if_pos rfl]; intro h'; cases h'
  | enqFull c j hp hf =>
    have h0 : c = 0 := by by_contra hne; rw [ha c hne] at hp; cases hp
    subst h0
    have := h.calls
    rw [hp] at this
    constructor
    · rw [clients_setClient, if_pos rfl]; intro r hr; rcases hr with h' | h' <;> cases h'
    · rw [clients_setClient, if_pos rfl]; exact this
    · rw [clients_setClient, if_pos rfl]; intro h'; cases h'
  | enqGive c j m hp hf =>
    have h0 : c = 0 := by by_contra hne; rw [ha c hne] at hp; cases hp
    subst h0
    have := h.calls
    rw [hp] at this
    obtain ⟨l, h1, h2, h3⟩ := this
    constructor
    · rw [clients_setClient, if_pos rfl]; intro r hr; rcases hr with h' | h' <;> cases h'
    · rw [clients_setClient, if_pos rfl]
      show (s.clients 0).rets = waitCounts Call.isWait 0 (s.clients 0).made ∧ s.cntEnqueued + 1 = ((sinceWait Call.isWait 0 (s.clients 0).made : Nat) : Int) ∧
        (s.clients 0).made.getLast? ≠ some .wait
      refine ⟨?_, ?_⟩
      · rw [h1, waitCounts_append, h2]; simp [Call.isWait]
      · refine ⟨?_, ?_⟩
        · show s.cntEnqueued + 1 = ((sinceWait Call.isWait 0 (s.clients 0).made : Nat) : Int)
          rw [h1, sinceWait_append, h3]; simp [Call.isWait]
        · show (s.clients 0).made.getLast? ≠ _
          rw [h1, getLast_snoc]; simp
    · rw [clients_setClient, if_pos rfl]; intro h'; cases h'
  | signal c m hp =>
    have h0 : c = 0 := by by_contra hne; rw [ha c hne] at hp; cases hp
    subst h0
    have hf := signal_fields s m
    have := h.calls
    rw [hp] at this
    have he : ((s.signal m).setClient 0 { s.clients 0 with pc := .ready }).cntEnqueued = s.cntEnqueued := hf.2.2.2.1
    constructor
    · rw [clients_setClient, if_pos rfl]; intro r hr; rcases hr with h' | h' <;> cases h'
    · rw [clients_setClient, if_pos rfl, he]; exact ⟨this.1, this.2.1⟩
    · rw [clients_setClient, if_pos rfl]
      intro _ hlast
      exact absurd hlast this.2.2
  | waitLock c hp =>
    have h0 : c = 0 := by by_contra hne; rw [ha c hne] at hp; cases hp
    subst h0
    exact sole_waitBody h _ rfl (Or.inl hp)
  | waitWake c r hp =>
    have h0 : c = 0 := by by_contra hne; rw [ha c hne] at hp; cases hp
    subst h0
    exact sole_waitBody h r (h.ret r (Or.inr hp)) (Or.inr hp)
  | loopIdle m ht hj => exact h.of_woken rfl rfl (Int.le_refl _)
  | loopWork m j ht hj => exact h.of_same rfl rfl (Int.le_refl _)
  | callNull m ht hj => exact h.of_same rfl rfl (Int.le_refl _)
  | call m j ht hj => exact h.of_same rfl rfl (Int.le_refl _)
  | ret m j ht => exact h.of_same rfl rfl (Int.le_refl _)
  | clear m ht => exact h.of_same rfl rfl (Int.le_refl _)
  | count m ht => exact h.of_same rfl rfl (by show s.cntCompleted ≤ s.cntCompleted + 1; omega)
  | stay m ht => exact h.of_same rfl rfl (Int.le_refl _)
  | relinquish m ht hm => exact h.of_same rfl rfl (Int.le_refl _)
  | leave m ht => exact h.of_same rfl rfl (Int.le_refl _)
  | farewell h0 => exact h.of_woken rfl rfl (Int.le_refl _)
  | spuriousWorker m ht => exact h.of_same rfl rfl (Int.le_refl _)
  | spuriousClient c hne =>
    by_cases h0 : c = 0
    · subst h0; exact h.of_woken (by rw [clients_setClient, if_pos rfl]) rfl (Int.le_refl _)
    · exact h.of_same (by rw [clients_setClient, if_neg (fun h => h0 h.symm)]) rfl (Int.le_refl _)

theorem run_sole (prog : Nat → List Call) (hprog : ∀ c, c ≠ 0 → prog c = []) (ls : List Label) (s : State) (h : run (init prog) ls = some s) : Sole s := by
  refine (run_induct (P := fun s => (All prog s ∧ Alone s) ∧ Sole s) prog ⟨⟨run_all prog [] _ rfl, fun _ _ => rfl⟩, ?_⟩ ?_ ls s h).2
  · constructor
    · intro r hr; rcases hr with h' | h' <;> cases h'
    · exact ⟨rfl, rfl⟩
    · intro _ h'; cases h'
  · intro l s s' hst hi
    have hall := hi.1.1
    exact ⟨⟨⟨inv_step hst hall.inv, cnt_step hst hall.inv hall.cnt, cl_step hst hall.cl, nonneg_step hst hall.cnt hall.nn,
      wake_step hst hall.inv hall.cnt hall.nn hall.wake⟩, fun c hc => idle_step hst hall.cl c (hprog c hc) (hi.1.2 c hc)⟩,
      sole_step hprog hst hi.1.2 hall.cl hi.2⟩

/-- When everything counted as enqueued is completed, every job handed over has finished exactly as often as it was handed over. -/
theorem all_finished {s : State} (hi : Inv s) (hc : Cnt s) (h : s.cntEnqueued ≤ s.cntCompleted) (j : Job) : cnt j s.finished = cnt j s.assigned := by
  have h1 : tot infl s = 0 := by have := hc.c; omega
  have h2 : ∀ i, i < maxThreads → infl (s.members i) = 0 := by
    intro i hi'
    exact (Finset.sum_eq_zero_iff.mp h1) i (mem_range.mpr hi')
  have h3 : ∀ i, i < maxThreads → (s.members i).task = none := by
    intro i hi'
    have := h2 i hi'
    unfold infl at this
    by_contra hne
    simp [hne] at this
  have h4 : tot (pend j) s = 0 := Finset.sum_eq_zero (fun i hi' => by unfold pend; simp [h3 i (mem_range.mp hi')])
  have h5 : tot (runs j) s = 0 := Finset.sum_eq_zero (fun i hi' => by
    unfold runs
    have hok := hi.mem i
    by_cases hr : (s.members i).thread = some (.running j)
    · simp only [Member.ok, hr] at hok
      rw [h3 i (mem_range.mp hi')] at hok
      simp at hok
    · simp [hr])
  rw [hc.a j, hc.b j, h4, h5]; rfl

/-! ### Every run is short. -/

/-- Weight of a member; `b` pays for a broadcast. -/
def wm (b : Nat) (x : Member) : Nat :=
  match x.thread with
  | none => 0
  | some .asleep => if x.task = none then 0 else b + 8
  | some .start => if x.task = none then b else b + 7
  | some .call => b + 6
  | some (.running _) => b + 5
  | some .back => b + 4
  | some .count => b + 3
  | some .stats => b + 2
  | some .quit => b + 1

def wc (b : Nat) (x : Client) : Nat :=
  (2 * b + 13) * x.todo.length +
  match x.pc with
  | .ready => 0
  | .enqSig _ => b + 1
  | .enqLock _ => 2 * b + 11
  | .enqSleep _ => 2 * b + 10
  | .waitLock => 3
  | .waitWake _ => 2
  | .waitSleep _ => 1

/-- The measure for `n` clients. -/
def meas (n : Nat) (s : State) : Nat := tot (wm (n + 1)) s + (n + 1) * s.leaving + ∑ c ∈ range n, wc (n + 1) (s.clients c)

theorem clients_one (n : Nat) {s s' : State} (c : Nat) (x : Client) (hc : c < n) (h : ∀ i, s'.clients i = if i = c then x else s.clients i) :
    (∑ i ∈ range n, wc (n + 1) (s'.clients i)) + wc (n + 1) (s.clients c) = (∑ i ∈ range n, wc (n + 1) (s.clients i)) + wc (n + 1) x := by
  have hmem : c ∈ range n := mem_range.mpr hc
  rw [← add_sum_erase _ _ hmem, ← add_sum_erase _ (fun i => wc (n + 1) (s.clients i)) hmem]
  have : ∑ i ∈ (range n).erase c, wc (n + 1) (s'.clients i) = ∑ i ∈ (range n).erase c, wc (n + 1) (s.clients i) := by
    apply sum_congr rfl
    intro i hi
    rw [h, if_neg (ne_of_mem_erase hi)]
  rw [this, h, if_pos rfl]
  omega

theorem wc_woken (b : Nat) (x : Client) : wc b { x with pc := x.pc.woken } ≤ wc b x + 1 := by
  unfold wc
  cases x.pc <;> simp only [CPc.woken] <;> omega

theorem clients_woken (n : Nat) (s s' : State) (h : ∀ i, s'.clients i = { s.clients i with pc := (s.clients i).pc.woken }) :
    (∑ i ∈ range n, wc (n + 1) (s'.clients i)) ≤ (∑ i ∈ range n, wc (n + 1) (s.clients i)) + n := by
  have h1 : (∑ i ∈ range n, wc (n + 1) (s'.clients i)) ≤ ∑ i ∈ range n, (wc (n + 1) (s.clients i) + 1) :=
    Finset.sum_le_sum (fun i _ => by rw [h]; exact wc_woken _ _)
  rw [Finset.sum_add_distrib] at h1
  simpa using h1


theorem meas_client (n : Nat) {s s' : State} (c : Nat) (x : Client) (k : Nat) (hc : c < n) (hm : s'.members = s.members) (hl : s'.leaving = s.leaving)
    (h : ∀ i, s'.clients i = if i = c then x else s.clients i) (hx : wc (n + 1) x + k ≤ wc (n + 1) (s.clients c)) : meas n s' + k ≤ meas n s := by
  have h1 := clients_one n c x hc h
  unfold meas
  rw [tot_same _ hm, hl]
  omega

theorem meas_member (n : Nat) {s s' : State} (m : Nat) (x : Member) (hm : m < maxThreads) (h : ∀ i, s'.members i = if i = m then x else s.members i)
    (hc : s'.clients = s.clients) (hl : s'.leaving = s.leaving) (hx : wm (n + 1) x + 1 ≤ wm (n + 1) (s.members m)) : meas n s' + 1 ≤ meas n s := by
  have h1 := tot_one (wm (n + 1)) m x hm h
  unfold meas
  rw [hc, hl]
  omega

theorem meas_waitBody (n : Nat) (s : State) (c : Nat) (r : Int) (hc : c < n) (hp : (s.clients c).pc = .waitLock ∨ (s.clients c).pc = .waitWake r) :
    meas n (s.waitBody c r) + 1 ≤ meas n s := by
  unfold State.waitBody
  simp only []
  split
  · refine meas_client n c { s.clients c with pc := .waitSleep r } 1 hc rfl rfl (fun i => rfl) ?_
    unfold wc
    rcases hp with hp | hp <;> rw [hp] <;> simp only [] <;> omega
  · refine meas_client n c { s.clients c with pc := .ready, rets := (s.clients c).rets ++ [r] } 1 hc rfl rfl (fun i => rfl) ?_
    unfold wc
    rcases hp with hp | hp <;> rw [hp] <;> simp only [] <;> omega

/-- Each step that is not a spurious wake-up decreases the measure; a spurious wake-up adds at most `n + 1`. -/
theorem meas_step {prog : Nat → List Call} (n : Nat) (hprog : ∀ c, n ≤ c → prog c = []) {l : Label} {s s' : State} (hst : Step l s s')
    (hrd : ∀ c, n ≤ c → (s.clients c).pc = .ready) (hcl : Cl prog s) (hi : Inv s) :
    if l.spurious then meas n s' ≤ meas n s + (n + 1) else meas n s' + 1 ≤ meas n s := by
  have htodo : ∀ c, n ≤ c → (s.clients c).todo = [] := by
    intro c hc
    have := hcl.prog c
    rw [hprog c hc] at this
    exact (List.append_eq_nil_iff.mp this).2
  have hsmall : ∀ c, (s.clients c).pc ≠ .ready → c < n := by
    intro c hc
    by_contra hn
    exact hc (hrd c (by omega))
  cases hst with
  | beginEnq c j rest hp ht =>
    have hc : c < n := by by_contra hn; rw [htodo c (by omega)] at ht; cases ht
    refine meas_client n c { s.clients c with pc := .enqLock j, todo := rest, made := (s.clients c).made ++ [.enq j] } 1 hc rfl rfl (fun i => rfl) ?_
    unfold wc; rw [hp, ht]; simp only [List.length_cons, Nat.mul_add]; omega
  | beginWait c rest hp ht =>
    have hc : c < n := by by_contra hn; rw [htodo c (by omega)] at ht; cases ht
    refine meas_client n c { s.clients c with pc := .waitLock, todo := rest, made := (s.clients c).made ++ [.wait] } 1 hc rfl rfl (fun i => rfl) ?_
    unfold wc; rw [hp, ht]; simp only [List.length_cons, Nat.mul_add]; omega
  | enqFull c j hp hf =>
    refine meas_client n c { s.clients c with pc := .enqSleep j } 1 (hsmall c (by rw [hp]; simp)) rfl rfl (fun i => rfl) ?_
    unfold wc; rw [hp]; simp only []; omega
  | enqGive c j m hp hf =>
    have hc := hsmall c (by rw [hp]; simp)
    obtain ⟨hm, hb⟩ := firstFree_some hf
    have hg := ok_give (s.members m) j (hi.mem m) hb
    obtain ⟨y, hy⟩ : ∃ y : Client, y = { s.clients c with pc := .enqSig m } := ⟨_, rfl⟩
    obtain ⟨s1, hs1⟩ : ∃ s1, s1 = (({ s with cntEnqueued := s.cntEnqueued + 1, assigned := s.assigned ++ [(c, j)] } : State).setMember m ((s.members m).give j)).setClient c y := ⟨_, rfl⟩
    have h1 := clients_one n (s := s) (s' := s1) c y hc (fun i => by rw [hs1]; rfl)
    have h2 : wc (n + 1) y + ((n + 1) + 10) = wc (n + 1) (s.clients c) := by
      rw [hy]; unfold wc; rw [hp]; simp only []; ring
    have h3 := tot_one (wm (n + 1)) (s := s) (s' := s1) m ((s.members m).give j) hm (fun i => by rw [hs1]; rfl)
    have h4 : wm (n + 1) ((s.members m).give j) ≤ wm (n + 1) (s.members m) + ((n + 1) + 8) := by
      have htask : ((s.members m).give j).task = some j := rfl
      unfold wm
      rcases hg.2.2.2 with h | h
      · rw [h, htask]; simp only [reduceCtorEq, if_false]; omega
      · rw [h.2, htask]; simp only [reduceCtorEq, if_false]; omega
    have h5 : s1.leaving = s.leaving := by rw [hs1]; rfl
    simp only [Label.spurious, Bool.false_eq_true, if_false]
    rw [hy] at hs1
    rw [← hs1]
    unfold meas
    rw [h5]
    omega
  | signal c m hp =>
    have hc := hsmall c (by rw [hp]; simp)
    obtain ⟨y, hy⟩ : ∃ y : Client, y = { s.clients c with pc := .ready } := ⟨_, rfl⟩
    obtain ⟨s1, hs1⟩ : ∃ s1, s1 = (s.signal m).setClient c y := ⟨_, rfl⟩
    have h1 := clients_one n (s := s) (s' := s1) c y hc (fun i => by rw [hs1, clients_setClient, clients_signal])
    have h2 : wc (n + 1) y + ((n + 1) + 1) = wc (n + 1) (s.clients c) := by
      rw [hy]; unfold wc; rw [hp]; simp only []; ring
    have h5 : s1.leaving = s.leaving := by rw [hs1]; exact (signal_fields s m).2.2.2.2.2
    have h4 : tot (wm (n + 1)) s1 ≤ tot (wm (n + 1)) s + (n + 1) := by
      by_cases ha : (s.members m).thread = some .asleep
      · obtain ⟨x, hx⟩ : ∃ x : Member, x = { s.members m with thread := some .start } := ⟨_, rfl⟩
        have h3 := tot_one (wm (n + 1)) (s := s) (s' := s1) m x (hi.lt ha) (fun i => by rw [hs1, hx]; exact members_signal_one s m ha i)
        have h6 : wm (n + 1) x ≤ wm (n + 1) (s.members m) + (n + 1) := by
          rw [hx]
          unfold wm
          rw [ha]
          simp only []
          split <;> omega
        omega
      · have he : s.signal m = s := by unfold State.signal; rw [if_neg ha]
        rw [tot_same (wm (n + 1)) (s' := s1) (s := s) (by rw [hs1, he]; rfl)]
        omega
    simp only [Label.spurious, Bool.false_eq_true, if_false]
    rw [hy] at hs1
    rw [← hs1]
    unfold meas
    rw [h5]
    omega
  | waitLock c hp => exact meas_waitBody n s c _ (hsmall c (by rw [hp]; simp)) (Or.inl hp)
  | waitWake c r hp => exact meas_waitBody n s c _ (hsmall c (by rw [hp]; simp)) (Or.inr hp)
  | loopIdle m ht hj =>
    obtain ⟨x, hx⟩ : ∃ x : Member, x = { s.members m with busy := false, thread := some .asleep } := ⟨_, rfl⟩
    obtain ⟨s1, hs1⟩ : ∃ s1, s1 = (s.setMember m x).broadcast := ⟨_, rfl⟩
    have h3 := tot_one (wm (n + 1)) (s := s) (s' := s1) m x (hi.lt ht) (fun i => by rw [hs1]; rfl)
    have h4 : wm (n + 1) x = 0 := by rw [hx]; unfold wm; simp [hj]
    have h6 : wm (n + 1) (s.members m) = n + 1 := by unfold wm; simp [hj, ht]
    have h1 := clients_woken n s s1 (fun i => by rw [hs1]; rfl)
    have h5 : s1.leaving = s.leaving := by rw [hs1]; rfl
    simp only [Label.spurious, Bool.false_eq_true, if_false]
    rw [hx] at hs1
    rw [← hs1]
    unfold meas
    rw [h5]
    omega
  | loopWork m j ht hj =>
    exact meas_member n m { s.members m with thread := some .call } (hi.lt ht) (fun i => rfl) rfl rfl (by unfold wm; simp [hj, ht])
  | callNull m ht hj =>
    have hok := hi.mem m
    simp only [Member.ok, ht] at hok
    exact absurd hj hok.2.2
  | call m j ht hj =>
    exact meas_member n m { s.members m with thread := some (.running j) } (hi.lt ht) (fun i => rfl) rfl rfl (by unfold wm; simp [ht])
  | ret m j ht =>
    exact meas_member n m { s.members m with thread := some .back } (hi.lt ht) (fun i => rfl) rfl rfl (by unfold wm; simp [ht])
  | clear m ht =>
    exact meas_member n m { s.members m with task := none, thread := some .count } (hi.lt ht) (fun i => rfl) rfl rfl (by unfold wm; simp [ht])
  | count m ht =>
    exact meas_member n m { s.members m with thread := some .stats } (hi.lt ht) (fun i => rfl) rfl rfl (by unfold wm; simp [ht])
  | stay m ht =>
    have hok := hi.mem m
    simp only [Member.ok, ht] at hok
    exact meas_member n m { s.members m with thread := some .start } (hi.lt ht) (fun i => rfl) rfl rfl (by unfold wm; simp [ht, hok])
  | relinquish m ht hm =>
    exact meas_member n m { s.members m with thread := some .quit } (hi.lt ht) (fun i => rfl) rfl rfl (by unfold wm; simp [ht])
  | leave m ht =>
    obtain ⟨x, hx⟩ : ∃ x : Member, x = { s.members m with busy := false, active := false, thread := none } := ⟨_, rfl⟩
    obtain ⟨s1, hs1⟩ : ∃ s1, s1 = ({ s with leaving := s.leaving + 1 } : State).setMember m x := ⟨_, rfl⟩
    have h3 := tot_one (wm (n + 1)) (s := s) (s' := s1) m x (hi.lt ht) (fun i => by rw [hs1]; rfl)
    have h4 : wm (n + 1) x + (n + 2) = wm (n + 1) (s.members m) := by rw [hx]; unfold wm; simp [ht]
    simp only [Label.spurious, Bool.false_eq_true, if_false]
    rw [hx] at hs1
    rw [← hs1]
    have h5 : s1.leaving = s.leaving + 1 := by rw [hs1]; rfl
    have h6 : s1.clients = s.clients := by rw [hs1]; rfl
    unfold meas
    rw [h5, h6, Nat.mul_add]
    omega
  | farewell h0 =>
    obtain ⟨s1, hs1⟩ : ∃ s1, s1 = ({ s with leaving := s.leaving - 1 } : State).broadcast := ⟨_, rfl⟩
    have h1 := clients_woken n s s1 (fun i => by rw [hs1]; rfl)
    have h2 := tot_same (wm (n + 1)) (s' := s1) (s := s) (by rw [hs1]; rfl)
    have h5 : s1.leaving = s.leaving - 1 := by rw [hs1]; rfl
    simp only [Label.spurious, Bool.false_eq_true, if_false]
    rw [← hs1]
    unfold meas
    obtain ⟨k, hk⟩ : ∃ k, s.leaving = k + 1 := ⟨s.leaving - 1, by omega⟩
    rw [h5, hk, Nat.add_sub_cancel, Nat.mul_add, h2]
    omega
  | spuriousWorker m ht =>
    obtain ⟨x, hx⟩ : ∃ x : Member, x = { s.members m with thread := some .start } := ⟨_, rfl⟩
    obtain ⟨s1, hs1⟩ : ∃ s1, s1 = s.setMember m x := ⟨_, rfl⟩
    have h3 := tot_one (wm (n + 1)) (s := s) (s' := s1) m x (hi.lt ht) (fun i => by rw [hs1]; rfl)
    have h4 : wm (n + 1) x ≤ wm (n + 1) (s.members m) + (n + 1) := by
      rw [hx]
      unfold wm
      rw [ht]
      simp only []
      split <;> omega
    simp only [Label.spurious, if_true]
    rw [hx] at hs1
    rw [← hs1]
    have h5 : s1.leaving = s.leaving := by rw [hs1]; rfl
    have h6 : s1.clients = s.clients := by rw [hs1]; rfl
    unfold meas
    rw [h5, h6]
    omega
  | spuriousClient c hne =>
    have hc := hsmall c (by intro h; rw [h] at hne; exact hne rfl)
    obtain ⟨y, hy⟩ : ∃ y : Client, y = { s.clients c with pc := (s.clients c).pc.woken } := ⟨_, rfl⟩
    obtain ⟨s1, hs1⟩ : ∃ s1, s1 = s.setClient c y := ⟨_, rfl⟩
    have h1 := clients_one n (s := s) (s' := s1) c y hc (fun i => by rw [hs1]; rfl)
    have h2 := wc_woken (n + 1) (s.clients c)
    rw [← hy] at h2
    have h5 := tot_same (wm (n + 1)) (s' := s1) (s := s) (by rw [hs1]; rfl)
    have h6 : s1.leaving = s.leaving := by rw [hs1]; rfl
    simp only [Label.spurious, if_true]
    rw [hy] at hs1
    rw [← hs1]
    unfold meas
    rw [h5, h6]
    omega

/-- Number of spurious / of other labels. -/
def nSpurious (ls : List Label) : Nat := (ls.filter (·.spurious)).length
def nWork (ls : List Label) : Nat := (ls.filter (fun l => !l.spurious)).length

theorem meas_init (prog : Nat → List Call) (n : Nat) : meas n (init prog) = 2 * (n + 1) + (2 * (n + 1) + 13) * ∑ c ∈ range n, (prog c).length := by
  have h1 : tot (wm (n + 1)) (init prog) = 2 * (n + 1) := by
    have : ∀ i, wm (n + 1) ((init prog).members i) = if i < 2 then n + 1 else 0 := by
      intro i
      show wm (n + 1) (if i < 2 then _ else _) = _
      by_cases h : i < 2
      · rw [if_pos h, if_pos h]; rfl
      · rw [if_neg h, if_neg h]; rfl
    unfold tot
    simp only [this]
    have e : maxThreads = 2 + 62 := rfl
    rw [e, Finset.sum_range_add]
    have h2 : ∑ x ∈ range 62, (if 2 + x < 2 then n + 1 else 0) = 0 := Finset.sum_eq_zero (fun x _ => by rw [if_neg (by omega)])
    rw [h2, Finset.sum_range_succ, Finset.sum_range_succ]
    simp
    ring
  have h3 : ∑ c ∈ range n, wc (n + 1) ((init prog).clients c) = (2 * (n + 1) + 13) * ∑ c ∈ range n, (prog c).length := by
    rw [Finset.mul_sum]
    exact sum_congr rfl (fun c _ => rfl)
  unfold meas
  rw [h1, h3]
  rfl

theorem run_append (s : State) (ls : List Label) (l : Label) (s' : State) (h : run s (ls ++ [l]) = some s') : ∃ s1, run s ls = some s1 ∧ step l s1 = some s' := by
  induction ls generalizing s with
  | nil =>
    simp only [List.nil_append, run] at h
    refine ⟨s, rfl, ?_⟩
    cases hst : step l s with
    | none => rw [hst] at h; cases h
    | some s1 => rw [hst] at h; exact h
  | cons a ls ih =>
    simp only [List.cons_append, run] at h ⊢
    cases hst : step a s with
    | none => rw [hst] at h; cases h
    | some s1 => rw [hst] at h; exact ih s1 h

theorem run_meas (prog : Nat → List Call) (n : Nat) (hprog : ∀ c, n ≤ c → prog c = []) (ls : List Label) : ∀ s, run (init prog) ls = some s →
    meas n s + nWork ls ≤ meas n (init prog) + (n + 1) * nSpurious ls := by
  induction ls using List.reverseRecOn with
  | nil => intro s h; cases h; simp [nWork, nSpurious]
  | append_singleton ls l ih =>
    intro s h
    obtain ⟨s1, h1, h2⟩ := run_append _ _ _ _ h
    have h3 := ih s1 h1
    have hall := run_all prog ls s1 h1
    have h4 := meas_step n hprog (step_rel h2) (fun c hc => run_idle prog ls s1 h1 c (hprog c hc)) hall.cl hall.inv
    cases hl : l.spurious
    · rw [hl] at h4
      simp only [Bool.false_eq_true, if_false] at h4
      have e1 : nWork (ls ++ [l]) = nWork ls + 1 := by simp [nWork, hl]
      have e2 : nSpurious (ls ++ [l]) = nSpurious ls := by simp [nSpurious, hl]
      rw [e1, e2]; omega
    · rw [hl] at h4
      simp only [if_true] at h4
      have e1 : nWork (ls ++ [l]) = nWork ls := by simp [nWork, hl]
      have e2 : nSpurious (ls ++ [l]) = nSpurious ls + 1 := by simp [nSpurious, hl]
      rw [e1, e2, Nat.mul_add]; omega

end TCrew
