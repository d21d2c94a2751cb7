/-!
# Model of `src/1-oslib/TCrew.c`: the thread crew as a transition system

Granularity.  A critical section of `lockCrew` (up to `pthread_cond_wait`, which gives up the lock) is one step: the
mutex makes it indivisible for every other access to the same data.  What the code does outside the lock
(calling the task, clearing it, the statistics, signalling and broadcasting after the unlock) is a step of its own, so
it can interleave with everything else.  Condition variables: a broadcast moves every waiting thread to the point
where it competes for the lock again, a signal does so for the waiting thread if there is one (only the member's own
thread ever waits on `wake`), and any waiting thread may also wake spuriously.

Not modelled: failure of thread creation (`TCrew_Task_Enqueue` ignores it) and of lock operations, the
contents of the timing statistics (whether a member with index at least 2 relinquishes is nondeterministic), `int`
overflow of the counters, the callback argument of wait (it runs inside the critical section), data races in the sense
of the C memory model.  `TCrew_Init` is the initial state.
-/
namespace TCrew

/-- A task together with its argument (`taskproc`, `taskproc_ctx`). -/
abbrev Job := Nat

/-- Where a member's thread is in `TCrew_Thread_Loop`, `TCrew.c:6-79`. -/
inductive WPc where
  | start           -- about to lock at :16 (also: woken at :21, about to re-acquire the lock and test :17)
  | asleep          -- blocked at :21
  | call            -- after :24, about to call the task at :27
  | running (j : Job) -- inside the task
  | back            -- the task returned, about to clear it at :28
  | count           -- about to lock at :31
  | stats           -- after :33
  | quit            -- decided to relinquish (:58), about to lock at :60
deriving DecidableEq, Repr

/-- `TCrewMember_t`, `TCrew.h:48-73`; `active` is `poll_index >= 0`. -/
structure Member where
  busy : Bool := false
  active : Bool := false
  task : Option Job := none
  thread : Option WPc := none
deriving DecidableEq, Repr

/-- The calls a client makes. -/
inductive Call where
  | enq (j : Job)
  | wait
deriving DecidableEq, Repr

/-- Where a client is. -/
inductive CPc where
  | ready              -- between calls
  | enqLock (j : Job)  -- about to (re-)acquire the lock at :255 (:267)
  | enqSleep (j : Job) -- blocked at :267
  | enqSig (m : Nat)   -- after :285, about to signal at :286
  | waitLock           -- about to lock at :295
  | waitSleep (ret : Int) -- blocked at :302
  | waitWake (ret : Int)  -- woken at :302, about to re-acquire the lock and test :300
deriving DecidableEq, Repr

/-- A client thread: remaining calls, calls already begun, values returned by wait. -/
structure Client where
  pc : CPc := .ready
  todo : List Call := []
  made : List Call := []
  rets : List Int := []
deriving DecidableEq, Repr

/-- `TCREW_THREADS_MAX`, `TCrew.h:43`. -/
def maxThreads : Nat := 64

/-- `TCrew_t`, `TCrew.h:75-93`, the threads, and a record of what happened. -/
structure State where
  members : Nat → Member
  /-- threads that left the loop at :71 and still have to broadcast at :72 -/
  leaving : Nat := 0
  cntEnqueued : Int := 0
  cntCompleted : Int := 0
  clients : Nat → Client
  /-- a task pointer was `NULL` when called -/
  crashed : Bool := false
  /-- jobs handed to a member (:271-273), with the client -/
  assigned : List (Nat × Job) := []
  /-- jobs whose execution began / ended, with the member -/
  started : List (Nat × Job) := []
  finished : List (Nat × Job) := []

def State.setMember (s : State) (m : Nat) (x : Member) : State := { s with members := fun i => if i = m then x else s.members i }
def State.setClient (s : State) (c : Nat) (x : Client) : State := { s with clients := fun i => if i = c then x else s.clients i }

/-- Effect of waking on a client blocked on `avail`. -/
def CPc.woken : CPc → CPc
  | .enqSleep j => .enqLock j
  | .waitSleep r => .waitWake r
  | pc => pc

/-- `TCrewCondVar_Broadcast(&crew->avail)`. -/
def State.broadcast (s : State) : State := { s with clients := fun i => { s.clients i with pc := (s.clients i).pc.woken } }

/-- `TCrewCondVar_Signal(&cm->wake)`. -/
def State.signal (s : State) (m : Nat) : State :=
  if (s.members m).thread = some .asleep then s.setMember m { s.members m with thread := some .start } else s

/-- The scan at `TCrew.c:259-264`: the first member that is not busy. -/
def State.firstFree (s : State) : Option Nat := (List.range maxThreads).find? fun i => !(s.members i).busy

/-- The steps. -/
inductive Label where
  | begin (c : Nat)    -- client `c` makes its next call
  | enqueue (c : Nat)  -- critical section of enqueue
  | signal (c : Nat)   -- signal after enqueue
  | wait (c : Nat)     -- critical section of wait
  | loopTop (m : Nat)  -- critical section :16-24
  | call (m : Nat)     -- :27, the task begins
  | ret (m : Nat)      -- the task returns
  | clear (m : Nat)    -- :28
  | count (m : Nat)    -- :31-33
  | stay (m : Nat)     -- continue
  | relinquish (m : Nat) -- :58
  | leave (m : Nat)    -- :60-71
  | farewell           -- :72
  | spuriousWorker (m : Nat)
  | spuriousClient (c : Nat)
deriving DecidableEq, Repr

def Label.spurious : Label → Bool
  | .spuriousWorker _ => true
  | .spuriousClient _ => true
  | _ => false

/-- The body of wait once the lock is held: the loop test `TCrew.c:300` and, when it fails, `:306-311`. -/
def State.waitBody (s : State) (c : Nat) (ret : Int) : State :=
  let cl := s.clients c
  if s.cntCompleted < ret then s.setClient c { cl with pc := .waitSleep ret }
  else { s with cntCompleted := s.cntCompleted - ret, cntEnqueued := s.cntEnqueued - ret }.setClient c { cl with pc := .ready, rets := cl.rets ++ [ret] }

/-- One step; `none` when it is not enabled. -/
def step (l : Label) (s : State) : Option State :=
  match l with
  | .begin c =>
    let cl := s.clients c
    match cl.pc, cl.todo with
    | .ready, .enq j :: rest => some (s.setClient c { cl with pc := .enqLock j, todo := rest, made := cl.made ++ [.enq j] })
    | .ready, .wait :: rest => some (s.setClient c { cl with pc := .waitLock, todo := rest, made := cl.made ++ [.wait] })
    | _, _ => none
  | .enqueue c => -- `TCrew_Task_Enqueue`, `TCrew.c:255-285`
    let cl := s.clients c
    match cl.pc with
    | .enqLock j =>
      match s.firstFree with
      | none => some (s.setClient c { cl with pc := .enqSleep j })
      | some m =>
        let x := s.members m
        let x := { x with task := some j }
        let x := if !x.active then { x with active := true, thread := some .start } else x
        let x := { x with busy := true }
        some ({ s with cntEnqueued := s.cntEnqueued + 1, assigned := s.assigned ++ [(c, j)] }.setMember m x |>.setClient c { cl with pc := .enqSig m })
    | _ => none
  | .signal c => -- `:286`
    let cl := s.clients c
    match cl.pc with
    | .enqSig m => some ((s.signal m).setClient c { cl with pc := .ready })
    | _ => none
  | .wait c => -- `TCrew_Callback_Wait`, `TCrew.c:291-312`
    match (s.clients c).pc with
    | .waitLock => some (s.waitBody c s.cntEnqueued)
    | .waitWake ret => some (s.waitBody c ret)
    | _ => none
  | .loopTop m => -- `:16-24`
    let x := s.members m
    if x.thread = some .start then
      match x.task with
      | none => some ((s.setMember m { x with busy := false, thread := some .asleep }).broadcast)
      | some _ => some (s.setMember m { x with thread := some .call })
    else none
  | .call m => -- `:27`
    let x := s.members m
    if x.thread = some .call then
      match x.task with
      | none => some { s with crashed := true }
      | some j => some ({ s with started := s.started ++ [(m, j)] }.setMember m { x with thread := some (.running j) })
    else none
  | .ret m =>
    let x := s.members m
    match x.thread with
    | some (.running j) => some ({ s with finished := s.finished ++ [(m, j)] }.setMember m { x with thread := some .back })
    | _ => none
  | .clear m => -- `:28`
    let x := s.members m
    if x.thread = some .back then some (s.setMember m { x with task := none, thread := some .count }) else none
  | .count m => -- `:31-33`
    let x := s.members m
    if x.thread = some .count then some ({ s with cntCompleted := s.cntCompleted + 1 }.setMember m { x with thread := some .stats }) else none
  | .stay m => -- `:44`, `:48`, `:76`
    let x := s.members m
    if x.thread = some .stats then some (s.setMember m { x with thread := some .start }) else none
  | .relinquish m => -- `:43`, `:58`
    let x := s.members m
    if x.thread = some .stats ∧ 2 ≤ m then some (s.setMember m { x with thread := some .quit }) else none
  | .leave m => -- `:60-71`
    let x := s.members m
    if x.thread = some .quit then
      some ({ s with leaving := s.leaving + 1 }.setMember m { x with busy := false, active := false, thread := none })
    else none
  | .farewell => -- `:72`
    if 0 < s.leaving then some ({ s with leaving := s.leaving - 1 }.broadcast) else none
  | .spuriousWorker m =>
    let x := s.members m
    if x.thread = some .asleep then some (s.setMember m { x with thread := some .start }) else none
  | .spuriousClient c =>
    let cl := s.clients c
    if cl.pc ≠ cl.pc.woken then some (s.setClient c { cl with pc := cl.pc.woken }) else none

/-- The state after `TCrew_Init`, `TCrew.c:133-211`: the threads of members 0 and 1 exist. -/
def init (prog : Nat → List Call) : State where
  members := fun m => if m < 2 then { active := true, thread := some .start } else {}
  clients := fun c => { todo := prog c }

/-- A run: the labels taken from the initial state. -/
def run (s : State) : List Label → Option State
  | [] => some s
  | l :: ls => (step l s).bind fun s' => run s' ls

end TCrew
