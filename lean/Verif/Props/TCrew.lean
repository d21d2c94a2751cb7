import Verif.Lemmas.TCrewMulti

/-!
# The thread crew (C41, C42)

`run (init prog) ls = some s` says that `s` is reached from a freshly initialised crew when client thread `c` makes
the calls `prog c` and the threads are interleaved as in `ls`; `ls` is arbitrary, so a statement about all `ls` is
about all schedules, including spurious wake-ups and members giving up their thread at any moment.
`Stuck s`: no thread can do anything (unless a condition variable wakes spuriously).
-/
namespace Props
open TCrew Spec.Crew Finset

/-- The number of times job `j` occurs in a record of executions. -/
def times (j : Job) (l : List (Nat × Job)) : Nat := (l.map (·.2)).count j
/-- The number of times job `j` occurs in the enqueue calls begun by clients `0 .. n-1`. -/
def enqueued (n : Nat) (s : State) (j : Job) : Nat := ∑ c ∈ range n, (jobsOf (s.clients c).made).count j

/-- A member never calls a null task. -/
theorem C41_no_null_call (prog : Nat → List Call) (ls : List Label) (s : State) (h : run (init prog) ls = some s) : s.crashed = false :=
  (run_inv prog ls s h).ncr

/-- At any moment a job has been started at most as often as it was enqueued, and finished at most as often as started. -/
theorem C41_at_most_once (n : Nat) (prog : Nat → List Call) (hprog : ∀ c, n ≤ c → prog c = []) (ls : List Label) (s : State) (h : run (init prog) ls = some s) (j : Job) :
    times j s.finished ≤ times j s.started ∧ times j s.started ≤ enqueued n s j := by
  have hall := run_all prog ls s h
  refine ⟨?_, ?_⟩
  · have := hall.cnt.b j
    unfold cnt at this
    unfold times; omega
  · have h1 := hall.cnt.a j
    rw [cnt_handed s.assigned n (assigned_small n hprog hall.cl) j] at h1
    have h2 : ∑ c ∈ range n, ((s.assigned.filter (fun p => decide (p.1 = c))).map (·.2)).count j ≤ enqueued n s j := by
      apply Finset.sum_le_sum
      intro c _
      rw [hall.cl.jobs c, List.count_append]
      exact Nat.le_add_right _ _
    unfold cnt at h1
    unfold times
    omega

/-- In particular distinct jobs are executed at most once each, by one member. -/
theorem C41_distinct_jobs (n : Nat) (prog : Nat → List Call) (hprog : ∀ c, n ≤ c → prog c = []) (ls : List Label) (s : State) (h : run (init prog) ls = some s)
    (j : Job) (h1 : enqueued n s j ≤ 1) (m m' : Nat) (i i' : Nat) (hi : s.started[i]? = some (m, j)) (hi' : s.started[i']? = some (m', j)) : i = i' ∧ m = m' := by
  have h2 := (C41_at_most_once n prog hprog ls s h j).2
  have h3 : (s.started.map (·.2)).count j ≤ 1 := Nat.le_trans h2 h1
  have key : ∀ (l : List (Nat × Job)), (l.map (·.2)).count j ≤ 1 → ∀ (i i' m m' : Nat), l[i]? = some (m, j) → l[i']? = some (m', j) → i = i' := by
    intro l
    induction l with
    | nil => intro _ i i' m m' h; simp at h
    | cons p l ih =>
      intro hc i i' m m' ha hb
      have hmem : ∀ (k m : Nat), l[k]? = some (m, j) → 1 ≤ (l.map (·.2)).count j := by
        intro k m hk
        apply List.one_le_count_iff.mpr
        exact List.mem_map.mpr ⟨(m, j), List.mem_of_getElem? hk, rfl⟩
      simp only [List.map_cons, List.count_cons] at hc
      cases i with
      | zero =>
        cases i' with
        | zero => rfl
        | succ k =>
          simp only [List.getElem?_cons_zero, Option.some.injEq] at ha
          simp only [List.getElem?_cons_succ] at hb
          have := hmem k m' hb
          rw [ha] at hc
          simp at hc
          omega
      | succ k =>
        cases i' with
        | zero =>
          simp only [List.getElem?_cons_zero, Option.some.injEq] at hb
          simp only [List.getElem?_cons_succ] at ha
          have := hmem k m ha
          rw [hb] at hc
          simp at hc
          omega
        | succ k' =>
          simp only [List.getElem?_cons_succ] at ha hb
          have := ih (by omega) k k' m m' ha hb
          omega
  have he := key s.started h3 i i' m m' hi hi'
  subst he
  rw [hi] at hi'
  cases hi'
  exact ⟨rfl, rfl⟩

/-- When nothing more can happen every job of every enqueue call has been executed, to completion, exactly as often as it was enqueued;
no enqueue call is blocked. -/
theorem C41_exactly_once (n : Nat) (prog : Nat → List Call) (hprog : ∀ c, n ≤ c → prog c = []) (ls : List Label) (s : State) (h : run (init prog) ls = some s) (hs : Stuck s) (j : Job) :
    times j s.finished = enqueued n s j ∧ times j s.started = enqueued n s j := by
  have hall := run_all prog ls s h
  have h1 := (stuck_counts hs hall.inv hall.cnt).1 j
  have h2 := C41_at_most_once n prog hprog ls s h j
  have h3 : cnt j s.assigned = enqueued n s j := by
    rw [cnt_handed s.assigned n (assigned_small n hprog hall.cl) j]
    apply Finset.sum_congr rfl
    intro c _
    rw [hall.cl.jobs c]
    have : (s.clients c).pc.held = [] := by
      rcases stuck_client hs c with h | ⟨j, h⟩ | ⟨r, h⟩
      · rw [h.1]; rfl
      · exact absurd h (stuck_no_enq hs hall.inv hall.wake c j)
      · rw [h]; rfl
    rw [this, List.append_nil]
    rfl
  unfold cnt at h1 h3
  unfold times at *
  omega

/-- Every job a client's program contains is executed when the program is over (any number of clients, one of which waits). -/
theorem C41_programs_complete (n : Nat) (prog : Nat → List Call) (hprog : ∀ c, n ≤ c → prog c = []) (hw : ∀ c, c ≠ 0 → Call.wait ∉ prog c)
    (ls : List Label) (s : State) (h : run (init prog) ls = some s) (hs : Stuck s) (j : Job) :
    times j s.finished = ∑ c ∈ range n, (jobsOf (prog c)).count j := by
  rw [(C41_exactly_once n prog hprog ls s h hs j).1]
  have hall := run_all prog ls s h
  apply Finset.sum_congr rfl
  intro c _
  have h1 := stuck_done hs hall (run_one prog hw ls s h) c
  have h2 := hall.cl.prog c
  rw [h1.2, List.append_nil] at h2
  rw [h2]

/-- With a single calling thread: between calls, after a wait has returned, every job enqueued so far has been executed to completion, exactly as often as it was enqueued. -/
theorem C42_barrier (prog : Nat → List Call) (hprog : ∀ c, c ≠ 0 → prog c = []) (ls : List Label) (s : State) (h : run (init prog) ls = some s)
    (hp : (s.clients 0).pc = .ready) (l : List Call) (hm : (s.clients 0).made = l ++ [.wait]) (j : Job) :
    times j s.finished = (jobsOf l).count j := by
  have hall := run_all prog ls s h
  have hsole := run_sole prog hprog ls s h
  have h1 := hsole.bar hp (by rw [hm]; simp)
  have h2 := all_finished hall.inv hall.cnt h1 j
  have h3 := cnt_handed s.assigned 1 (assigned_small 1 (fun c hc => hprog c (by omega)) hall.cl) j
  have h4 := hall.cl.jobs 0
  rw [hp, hm, jobsOf_append] at h4
  simp only [CPc.held, List.append_nil] at h4
  have h5 : jobsOf [Call.wait] = [] := rfl
  rw [h5, List.append_nil] at h4
  rw [Finset.sum_range_one] at h3
  unfold cnt at h2 h3
  unfold times
  rw [h2, h3, h4]
  rfl

/-- With a single calling thread: the values returned by the completed waits are the numbers of enqueue calls since the previous wait. -/
theorem C42_wait_counts (prog : Nat → List Call) (hprog : ∀ c, c ≠ 0 → prog c = []) (ls : List Label) (s : State) (h : run (init prog) ls = some s)
    (hp : (s.clients 0).pc = .ready) : (s.clients 0).rets = waitCounts Call.isWait 0 (s.clients 0).made := by
  have hsole := run_sole prog hprog ls s h
  have := hsole.calls
  rw [hp] at this
  exact this.1

/-- No lost wake-up: as long as one thread is the only one that waits, a state in which no thread can move is one in which every client has finished all its calls. -/
theorem C42_no_deadlock (prog : Nat → List Call) (hw : ∀ c, c ≠ 0 → Call.wait ∉ prog c) (ls : List Label) (s : State) (h : run (init prog) ls = some s)
    (c : Nat) (hc : (s.clients c).pc ≠ .ready ∨ (s.clients c).todo ≠ []) : ∃ l, l.spurious = false ∧ (step l s).isSome := by
  by_contra hne
  have hs : Stuck s := by
    intro l hl
    cases hst : step l s with
    | none => rfl
    | some s' => exact absurd ⟨l, hl, by rw [hst]; rfl⟩ hne
  have := stuck_done hs (run_all prog ls s h) (run_one prog hw ls s h) c
  rcases hc with h' | h'
  · exact h' this.1
  · exact h' this.2

/-- Nothing goes on forever: with `n` clients and `k` spurious wake-ups at most this many other steps are possible, so every schedule that keeps running
threads that can run gets to a state where nobody can move. -/
theorem C42_bounded (n : Nat) (prog : Nat → List Call) (hprog : ∀ c, n ≤ c → prog c = []) (ls : List Label) (s : State) (h : run (init prog) ls = some s) :
    (ls.filter (fun l => !l.spurious)).length ≤
      2 * (n + 1) + (2 * (n + 1) + 13) * (∑ c ∈ range n, (prog c).length) + (n + 1) * (ls.filter (·.spurious)).length := by
  have h1 := run_meas prog n hprog ls s h
  rw [meas_init] at h1
  unfold nWork nSpurious at h1
  omega

/-! ### Non-vacuity: a complete schedule with two jobs and a wait. -/

def demoProg : Nat → List Call := fun c => if c = 0 then [.enq 7, .enq 8, .wait] else []
def demoRun : List Label := [.loopTop 0, .begin 0, .enqueue 0, .signal 0, .begin 0, .enqueue 0, .signal 0, .loopTop 0, .call 0, .loopTop 1, .call 1, .begin 0, .wait 0,
  .ret 1, .clear 1, .count 1, .ret 0, .clear 0, .count 0, .stay 0, .loopTop 0, .wait 0, .stay 1, .loopTop 1]

example : ∃ s, run (init demoProg) demoRun = some s ∧ s.finished = [(1, 8), (0, 7)] ∧ (s.clients 0).rets = [2] ∧ Stuck s ∧ (s.clients 0).made = [.enq 7, .enq 8] ++ [.wait] ∧
    (s.clients 0).pc = .ready := by
  have h : (run (init demoProg) demoRun).isSome = true := by decide +kernel
  obtain ⟨s, hs⟩ := Option.isSome_iff_exists.mp h
  have e1 : (run (init demoProg) demoRun).map (fun s => (s.finished, (s.clients 0), s.leaving)) =
      some ([(1, 8), (0, 7)], { pc := .ready, todo := [], made := [.enq 7, .enq 8, .wait], rets := [2] }, 0) := by decide +kernel
  have e2 : (run (init demoProg) demoRun).map (fun s => (List.range 64).all fun m => decide ((s.members m).thread = none ∨ (s.members m).thread = some .asleep)) = some true := by decide +kernel
  rw [hs] at e1 e2
  simp only [Option.map_some, Option.some.injEq, Prod.mk.injEq, List.all_eq_true, List.mem_range, decide_eq_true_eq] at e1 e2
  obtain ⟨e1, e3, e4⟩ := e1
  refine ⟨s, hs, e1, by rw [e3], ?_, by rw [e3]; rfl, by rw [e3]⟩
  refine stuck_of (fun m => ?_) e4 (fun c => ?_)
  · by_cases hm : m < 64
    · exact e2 m hm
    · exact Or.inl ((run_inv _ _ _ hs).out m (by unfold maxThreads; omega))
  · by_cases hc : c = 0
    · subst hc; rw [e3]; exact Or.inl ⟨rfl, rfl⟩
    · refine Or.inl ⟨run_idle demoProg demoRun s hs c (by unfold demoProg; rw [if_neg hc]), ?_⟩
      have := (run_all demoProg demoRun s hs).cl.prog c
      unfold demoProg at this
      rw [if_neg hc] at this
      exact (List.append_eq_nil_iff.mp this).2

example : ∀ c, c ≠ 0 → demoProg c = [] := fun c hc => by unfold demoProg; rw [if_neg hc]

/-! ### What does not hold when several threads share a crew. -/

def twoProg : Nat → List Call := fun c => if c = 0 then [.enq 1, .wait] else if c = 1 then [.enq 2] else []
def twoRun : List Label := [.begin 0, .enqueue 0, .signal 0, .begin 0, .wait 0, .begin 1, .enqueue 1, .signal 1, .loopTop 1, .call 1, .ret 1, .clear 1, .count 1, .stay 1, .loopTop 1, .wait 0]

/-- With two calling threads wait is not a barrier: it can return before the caller's own job has started. -/
theorem C42_not_barrier_two_callers : ∃ prog ls s l, run (init prog) ls = some s ∧ (s.clients 0).pc = .ready ∧ (s.clients 0).made = l ++ [.wait] ∧
    times 1 s.started = 0 ∧ (jobsOf l).count 1 = 1 := by
  have h : (run (init twoProg) twoRun).isSome = true := by decide +kernel
  obtain ⟨s, hs⟩ := Option.isSome_iff_exists.mp h
  have e1 : (run (init twoProg) twoRun).map (fun s => (times 1 s.started, (s.clients 0))) =
      some (0, { pc := .ready, todo := [], made := [.enq 1, .wait], rets := [1] }) := by decide +kernel
  rw [hs] at e1
  simp only [Option.map_some, Option.some.injEq, Prod.mk.injEq] at e1
  exact ⟨twoProg, twoRun, s, [.enq 1], hs, by rw [e1.2], by rw [e1.2]; rfl, e1.1, by decide⟩

def hangProg : Nat → List Call := fun c => if c = 0 then [.enq 1, .wait] else if c = 1 then [.wait] else []
def hangRun : List Label := [.begin 0, .enqueue 0, .signal 0, .begin 0, .wait 0, .begin 1, .wait 1, .loopTop 0, .call 0, .ret 0, .clear 0, .count 0, .stay 0, .loopTop 0, .wait 0, .wait 1, .loopTop 1, .wait 1]

/-- With two waiting threads one of them can be left blocked although all jobs are done. -/
theorem C42_two_waiters_hang : ∃ prog ls s, run (init prog) ls = some s ∧ Stuck s ∧ (s.clients 1).pc = .waitSleep 1 ∧ s.finished = [(0, 1)] := by
  have h : (run (init hangProg) hangRun).isSome = true := by decide +kernel
  obtain ⟨s, hs⟩ := Option.isSome_iff_exists.mp h
  have e1 : (run (init hangProg) hangRun).map (fun s => (s.finished, (s.clients 0), (s.clients 1), s.leaving)) =
      some ([(0, 1)], { pc := .ready, todo := [], made := [.enq 1, .wait], rets := [1] }, { pc := .waitSleep 1, todo := [], made := [.wait], rets := [] }, 0) := by decide +kernel
  have e2 : (run (init hangProg) hangRun).map (fun s => (List.range 64).all fun m => decide ((s.members m).thread = none ∨ (s.members m).thread = some .asleep)) = some true := by decide +kernel
  rw [hs] at e1 e2
  simp only [Option.map_some, Option.some.injEq, Prod.mk.injEq, List.all_eq_true, List.mem_range, decide_eq_true_eq] at e1 e2
  obtain ⟨e1, e3, e4, e5⟩ := e1
  refine ⟨hangProg, hangRun, s, hs, ?_, by rw [e4], e1⟩
  refine stuck_of (fun m => ?_) e5 (fun c => ?_)
  · by_cases hm : m < 64
    · exact e2 m hm
    · exact Or.inl ((run_inv _ _ _ hs).out m (by unfold maxThreads; omega))
  · by_cases hc : c = 0
    · subst hc; rw [e3]; exact Or.inl ⟨rfl, rfl⟩
    · by_cases hc1 : c = 1
      · subst hc1; rw [e4]; exact Or.inr (Or.inr ⟨1, rfl⟩)
      · have hp : hangProg c = [] := by unfold hangProg; rw [if_neg hc, if_neg hc1]
        refine Or.inl ⟨run_idle hangProg hangRun s hs c hp, ?_⟩
        have := (run_all hangProg hangRun s hs).cl.prog c
        rw [hp] at this
        exact (List.append_eq_nil_iff.mp this).2

end Props
