import Verif.Model.TCrew
import Mathlib.Algebra.BigOperators.Group.Finset.Basic
import Mathlib.Algebra.BigOperators.Intervals
import Mathlib.Algebra.Order.BigOperators.Group.Finset
import Mathlib.Tactic.Linarith

namespace TCrew

/-- The member update made by enqueue. -/
def Member.give (x : Member) (j : Job) : Member :=
  { busy := true, active := true, task := some j, thread := if x.active then x.thread else some .start }

/-- The steps as a relation. -/
inductive Step : Label → State → State → Prop where
  | beginEnq {s : State} (c : Nat) (j : Job) (rest : List Call) (hp : (s.clients c).pc = .ready) (ht : (s.clients c).todo = .enq j :: rest) :
      Step (.begin c) s (s.setClient c { s.clients c with pc := .enqLock j, todo := rest, made := (s.clients c).made ++ [.enq j] })
  | beginWait {s : State} (c : Nat) (rest : List Call) (hp : (s.clients c).pc = .ready) (ht : (s.clients c).todo = .wait :: rest) :
      Step (.begin c) s (s.setClient c { s.clients c with pc := .waitLock, todo := rest, made := (s.clients c).made ++ [.wait] })
  | enqFull {s : State} (c : Nat) (j : Job) (hp : (s.clients c).pc = .enqLock j) (hf : s.firstFree = none) :
      Step (.enqueue c) s (s.setClient c { s.clients c with pc := .enqSleep j })
  | enqGive {s : State} (c : Nat) (j : Job) (m : Nat) (hp : (s.clients c).pc = .enqLock j) (hf : s.firstFree = some m) :
      Step (.enqueue c) s (({ s with cntEnqueued := s.cntEnqueued + 1, assigned := s.assigned ++ [(c, j)] }.setMember m ((s.members m).give j)).setClient c
        { s.clients c with pc := .enqSig m })
  | signal {s : State} (c m : Nat) (hp : (s.clients c).pc = .enqSig m) :
      Step (.signal c) s ((s.signal m).setClient c { s.clients c with pc := .ready })
  | waitLock {s : State} (c : Nat) (hp : (s.clients c).pc = .waitLock) : Step (.wait c) s (s.waitBody c s.cntEnqueued)
  | waitWake {s : State} (c : Nat) (r : Int) (hp : (s.clients c).pc = .waitWake r) : Step (.wait c) s (s.waitBody c r)
  | loopIdle {s : State} (m : Nat) (ht : (s.members m).thread = some .start) (hj : (s.members m).task = none) :
      Step (.loopTop m) s ((s.setMember m { s.members m with busy := false, thread := some .asleep }).broadcast)
  | loopWork {s : State} (m : Nat) (j : Job) (ht : (s.members m).thread = some .start) (hj : (s.members m).task = some j) :
      Step (.loopTop m) s (s.setMember m { s.members m with thread := some .call })
  | callNull {s : State} (m : Nat) (ht : (s.members m).thread = some .call) (hj : (s.members m).task = none) :
      Step (.call m) s { s with crashed := true }
  | call {s : State} (m : Nat) (j : Job) (ht : (s.members m).thread = some .call) (hj : (s.members m).task = some j) :
      Step (.call m) s ({ s with started := s.started ++ [(m, j)] }.setMember m { s.members m with thread := some (.running j) })
  | ret {s : State} (m : Nat) (j : Job) (ht : (s.members m).thread = some (.running j)) :
      Step (.ret m) s ({ s with finished := s.finished ++ [(m, j)] }.setMember m { s.members m with thread := some .back })
  | clear {s : State} (m : Nat) (ht : (s.members m).thread = some .back) :
      Step (.clear m) s (s.setMember m { s.members m with task := none, thread := some .count })
  | count {s : State} (m : Nat) (ht : (s.members m).thread = some .count) :
      Step (.count m) s ({ s with cntCompleted := s.cntCompleted + 1 }.setMember m { s.members m with thread := some .stats })
  | stay {s : State} (m : Nat) (ht : (s.members m).thread = some .stats) :
      Step (.stay m) s (s.setMember m { s.members m with thread := some .start })
  | relinquish {s : State} (m : Nat) (ht : (s.members m).thread = some .stats) (hm : 2 ≤ m) :
      Step (.relinquish m) s (s.setMember m { s.members m with thread := some .quit })
  | leave {s : State} (m : Nat) (ht : (s.members m).thread = some .quit) :
      Step (.leave m) s ({ s with leaving := s.leaving + 1 }.setMember m { s.members m with busy := false, active := false, thread := none })
  | farewell {s : State} (h : 0 < s.leaving) : Step .farewell s ({ s with leaving := s.leaving - 1 }.broadcast)
  | spuriousWorker {s : State} (m : Nat) (ht : (s.members m).thread = some .asleep) :
      Step (.spuriousWorker m) s (s.setMember m { s.members m with thread := some .start })
  | spuriousClient {s : State} (c : Nat) (h : (s.clients c).pc ≠ (s.clients c).pc.woken) :
      Step (.spuriousClient c) s (s.setClient c { s.clients c with pc := (s.clients c).pc.woken })

theorem step_rel {l : Label} {s s' : State} (h : step l s = some s') : Step l s s' := by
  cases l with
  | begin c =>
    simp only [step] at h
    split at h
    · rename_i j rest hp ht; cases h; exact .beginEnq c j rest hp ht
    · rename_i rest hp ht; cases h; exact .beginWait c rest hp ht
    · cases h
  | enqueue c =>
    simp only [step] at h
    split at h
    · rename_i j hp
      split at h
      · rename_i hf; cases h; exact .enqFull c j hp hf
      · rename_i m hf
        cases h
        have := Step.enqGive c j m hp hf
        unfold Member.give at this
        cases ha : (s.members m).active <;> simp only [ha] at this ⊢ <;> exact this
    · cases h
  | signal c =>
    simp only [step] at h
    split at h
    · rename_i m hp; cases h; exact .signal c m hp
    · cases h
  | wait c =>
    simp only [step] at h
    split at h
    · rename_i hp; cases h; exact .waitLock c hp
    · rename_i r hp; cases h; exact .waitWake c r hp
    · cases h
  | loopTop m =>
    simp only [step] at h
    split at h
    · rename_i ht
      split at h
      · rename_i hj; cases h; exact .loopIdle m ht hj
      · rename_i j hj; cases h; exact .loopWork m j ht hj
    · cases h
  | call m =>
    simp only [step] at h
    split at h
    · rename_i ht
      split at h
      · rename_i hj; cases h; exact .callNull m ht hj
      · rename_i j hj; cases h; exact .call m j ht hj
    · cases h
  | ret m =>
    simp only [step] at h
    split at h
    · rename_i j ht; cases h; exact .ret m j ht
    · cases h
  | clear m =>
    simp only [step] at h
    split at h
    · rename_i ht; cases h; exact .clear m ht
    · cases h
  | count m =>
    simp only [step] at h
    split at h
    · rename_i ht; cases h; exact .count m ht
    · cases h
  | stay m =>
    simp only [step] at h
    split at h
    · rename_i ht; cases h; exact .stay m ht
    · cases h
  | relinquish m =>
    simp only [step] at h
    split at h
    · rename_i ht; cases h; exact .relinquish m ht.1 ht.2
    · cases h
  | leave m =>
    simp only [step] at h
    split at h
    · rename_i ht; cases h; exact .leave m ht
    · cases h
  | farewell =>
    simp only [step] at h
    split at h
    · rename_i ht; cases h; exact .farewell ht
    · cases h
  | spuriousWorker m =>
    simp only [step] at h
    split at h
    · rename_i ht; cases h; exact .spuriousWorker m ht
    · cases h
  | spuriousClient c =>
    simp only [step] at h
    split at h
    · rename_i ht; cases h; exact .spuriousClient c ht
    · cases h

/-! ### Effect of a step on the members and on the clients. -/


theorem members_setMember (s : State) (m : Nat) (x : Member) (i : Nat) : (s.setMember m x).members i = if i = m then x else s.members i := rfl
theorem members_setClient (s : State) (c : Nat) (x : Client) : (s.setClient c x).members = s.members := rfl
theorem members_broadcast (s : State) : s.broadcast.members = s.members := rfl
theorem clients_setMember (s : State) (m : Nat) (x : Member) : (s.setMember m x).clients = s.clients := rfl
theorem clients_setClient (s : State) (c : Nat) (x : Client) (i : Nat) : (s.setClient c x).clients i = if i = c then x else s.clients i := rfl
theorem clients_broadcast (s : State) (i : Nat) : s.broadcast.clients i = { s.clients i with pc := (s.clients i).pc.woken } := rfl

theorem clients_signal (s : State) (m : Nat) : (s.signal m).clients = s.clients := by
  unfold State.signal; split <;> rfl
theorem members_signal (s : State) (m i : Nat) : (s.signal m).members i =
    if i = m ∧ (s.members m).thread = some .asleep then { s.members m with thread := some .start } else s.members i := by
  unfold State.signal
  by_cases h : (s.members m).thread = some .asleep
  · rw [if_pos h]
    show (if i = m then _ else _) = _
    by_cases hi : i = m
    · rw [if_pos hi, if_pos ⟨hi, h⟩]
    · rw [if_neg hi, if_neg (fun hc => hi hc.1)]
  · rw [if_neg h, if_neg (fun hc => h hc.2)]
theorem members_waitBody (s : State) (c : Nat) (r : Int) : (s.waitBody c r).members = s.members := by
  unfold State.waitBody; simp only []; split <;> rfl

theorem firstFree_some {s : State} {m : Nat} (h : s.firstFree = some m) : m < maxThreads ∧ (s.members m).busy = false := by
  unfold State.firstFree at h
  have h1 := List.mem_of_find?_eq_some h
  have h2 := List.find?_some h
  exact ⟨List.mem_range.mp h1, by simpa using h2⟩

theorem firstFree_none {s : State} (h : s.firstFree = none) : ∀ m, m < maxThreads → (s.members m).busy = true := by
  intro m hm
  unfold State.firstFree at h
  have := List.find?_eq_none.mp h m (List.mem_range.mpr hm)
  simpa using this

/-! ### Consistency of a member. -/

def Member.ok (x : Member) : Prop :=
  match x.thread with
  | none => x.active = false ∧ x.busy = false ∧ x.task = none
  | some .start => x.active = true ∧ (x.task ≠ none → x.busy = true)
  | some .asleep => x.active = true ∧ (x.task ≠ none ↔ x.busy = true)
  | some .call => x.active = true ∧ x.busy = true ∧ x.task ≠ none
  | some (.running j) => x.active = true ∧ x.busy = true ∧ x.task = some j
  | some .back => x.active = true ∧ x.busy = true ∧ x.task ≠ none
  | some .count => x.active = true ∧ x.busy = true ∧ x.task = none
  | some .stats => x.active = true ∧ x.busy = true ∧ x.task = none
  | some .quit => x.active = true ∧ x.busy = true ∧ x.task = none

theorem ok_give (x : Member) (j : Job) (h : x.ok) (hb : x.busy = false) : (x.give j).ok ∧ x.task = none ∧
    (x.thread = none ∨ x.thread = some .start ∨ x.thread = some .asleep) ∧
    ((x.give j).thread = some .start ∨ (x.thread = some .asleep ∧ (x.give j).thread = some .asleep)) := by
  obtain ⟨b, a, t, th⟩ := x
  simp only at hb
  subst hb
  cases th with
  | none =>
    simp only [Member.ok] at h
    simp [Member.give, h, Member.ok]
  | some p =>
    cases p <;> simp_all [Member.give, Member.ok]

/-- The consistency invariant. -/
structure Inv (s : State) : Prop where
  mem : ∀ m, (s.members m).ok
  out : ∀ m, maxThreads ≤ m → (s.members m).thread = none
  sig : ∀ m, (s.members m).thread = some .asleep → (s.members m).task ≠ none → ∃ c, (s.clients c).pc = .enqSig m
  ncr : s.crashed = false

theorem inv_init (prog : Nat → List Call) : Inv (init prog) := by
  constructor
  · intro m
    by_cases h : m < 2
    · show (if m < 2 then _ else _ : Member).ok
      rw [if_pos h]; simp [Member.ok]
    · show (if m < 2 then _ else _ : Member).ok
      rw [if_neg h]; simp [Member.ok]
  · intro m hm
    have : ¬ m < 2 := by unfold maxThreads at hm; omega
    show (if m < 2 then _ else _ : Member).thread = none
    rw [if_neg this]
  · intro m h1 h2
    change (if m < 2 then _ else _ : Member).thread = _ at h1
    split at h1 <;> cases h1
  · rfl

/-- A step that changes no member, and no client sending a signal. -/
theorem Inv.of_same {s s' : State} (h : Inv s) (hm : s'.members = s.members) (hc : s'.crashed = s.crashed)
    (hs : ∀ c m, (s.clients c).pc = .enqSig m → (s'.clients c).pc = .enqSig m) : Inv s' := by
  constructor
  · intro m; rw [hm]; exact h.mem m
  · intro m hm'; rw [hm]; exact h.out m hm'
  · intro m h1 h2
    rw [hm] at h1 h2
    obtain ⟨c, hc⟩ := h.sig m h1 h2
    exact ⟨c, hs c m hc⟩
  · rw [hc]; exact h.ncr

/-- A step that changes one member and keeps signalling clients. -/
theorem Inv.of_one {s s' : State} (h : Inv s) (m : Nat) (x : Member) (hm : ∀ i, s'.members i = if i = m then x else s.members i) (hc : s'.crashed = s.crashed)
    (hs : ∀ c i, (s.clients c).pc = .enqSig i → (s'.clients c).pc = .enqSig i) (hx : x.ok) (hlt : m < maxThreads ∨ x.thread = none)
    (hsl : x.thread = some .asleep → x.task ≠ none → ∃ c, (s'.clients c).pc = .enqSig m) : Inv s' := by
  constructor
  · intro i; rw [hm]; split
    · exact hx
    · exact h.mem i
  · intro i hi; rw [hm]; split
    · rename_i he; subst he
      rcases hlt with h1 | h1
      · omega
      · exact h1
    · exact h.out i hi
  · intro i h1 h2
    rw [hm] at h1 h2
    by_cases he : i = m
    · subst he
      rw [if_pos rfl] at h1 h2
      exact hsl h1 h2
    · rw [if_neg he] at h1 h2
      obtain ⟨c, hc⟩ := h.sig i h1 h2
      exact ⟨c, hs c i hc⟩
  · rw [hc]; exact h.ncr

theorem Inv.lt {s : State} (h : Inv s) {m : Nat} {p : WPc} (ht : (s.members m).thread = some p) : m < maxThreads := by
  by_contra hc
  rw [h.out m (by omega)] at ht
  cases ht

theorem pc_set (s : State) (c : Nat) (x : Client) (hx : ∀ m, x.pc = .enqSig m ∨ (s.clients c).pc ≠ .enqSig m) (d m : Nat) (h : (s.clients d).pc = .enqSig m) :
    ((s.setClient c x).clients d).pc = .enqSig m := by
  rw [clients_setClient]
  split
  · rename_i he; subst he
    rcases hx m with h1 | h1
    · exact h1
    · exact absurd h h1
  · exact h

theorem woken_sig {p : CPc} {m : Nat} (h : p = .enqSig m) : p.woken = .enqSig m := by subst h; rfl

theorem inv_step {l : Label} {s s' : State} (hst : Step l s s') (h : Inv s) : Inv s' := by
  cases hst with
  | beginEnq c j rest hp ht => exact h.of_same rfl rfl (pc_set s c _ (fun m => Or.inr (by rw [hp]; simp)))
  | beginWait c rest hp ht => exact h.of_same rfl rfl (pc_set s c _ (fun m => Or.inr (by rw [hp]; simp)))
  | enqFull c j hp hf => exact h.of_same rfl rfl (pc_set s c _ (fun m => Or.inr (by rw [hp]; simp)))
  | enqGive c j m hp hf =>
    obtain ⟨hm, hb⟩ := firstFree_some hf
    have hg := ok_give (s.members m) j (h.mem m) hb
    refine h.of_one m ((s.members m).give j) (fun i => rfl) rfl ?_ hg.1 (Or.inl hm) ?_
    · intro d i hd
      show (if d = c then _ else _ : Client).pc = _
      split
      · rename_i he; subst he; rw [hp] at hd; cases hd
      · exact hd
    · intro _ _
      refine ⟨c, ?_⟩
      show (if c = c then _ else _ : Client).pc = _
      rw [if_pos rfl]
  | signal c m hp =>
    by_cases ha : (s.members m).thread = some .asleep
    · have hok := h.mem m
      constructor
      · intro i
        rw [members_setClient, members_signal]
        split
        · simp only [Member.ok, ha] at hok ⊢
          exact ⟨hok.1, hok.2.mp⟩
        · exact h.mem i
      · intro i hi
        rw [members_setClient, members_signal]
        split
        · rename_i he; have := h.lt ha; omega
        · exact h.out i hi
      · intro i h1 h2
        rw [members_setClient, members_signal] at h1 h2
        split at h1
        · cases h1
        · rename_i hne
          rw [if_neg hne] at h2
          obtain ⟨d, hd⟩ := h.sig i h1 h2
          refine ⟨d, ?_⟩
          rw [clients_setClient]
          split
          · rename_i he; subst he
            rw [hp] at hd
            injection hd with hd
            exact absurd ⟨hd.symm, ha⟩ hne
          · rw [clients_signal]; exact hd
      · show (s.signal m).crashed = false
        unfold State.signal; split <;> exact h.ncr
    · have he : s.signal m = s := by unfold State.signal; rw [if_neg ha]
      rw [he]
      constructor
      · exact h.mem
      · exact h.out
      · intro i h1 h2
        obtain ⟨d, hd⟩ := h.sig i h1 h2
        refine ⟨d, ?_⟩
        rw [clients_setClient]
        split
        · rename_i he; subst he
          rw [hp] at hd
          injection hd with hd
          subst hd
          exact absurd h1 ha
        · exact hd
      · exact h.ncr
  | waitLock c hp =>
    refine h.of_same (members_waitBody s c _) (by unfold State.waitBody; simp only []; split <;> rfl) ?_
    intro d m hd
    unfold State.waitBody; simp only []
    split <;> (rw [clients_setClient]; split <;> [(rename_i he; subst he; rw [hp] at hd; cases hd); exact hd])
  | waitWake c r hp =>
    refine h.of_same (members_waitBody s c _) (by unfold State.waitBody; simp only []; split <;> rfl) ?_
    intro d m hd
    unfold State.waitBody; simp only []
    split <;> (rw [clients_setClient]; split <;> [(rename_i he; subst he; rw [hp] at hd; cases hd); exact hd])
  | loopIdle m ht hj =>
    have hok := h.mem m
    simp only [Member.ok, ht] at hok
    refine h.of_one m { s.members m with busy := false, thread := some .asleep } (fun i => rfl) rfl (fun d i hd => ?_) ?_ (Or.inl (h.lt ht)) ?_
    · rw [clients_broadcast]; exact woken_sig hd
    · simp [Member.ok, hok.1, hj]
    · intro _ h2; exact absurd hj h2
  | loopWork m j ht hj =>
    have hok := h.mem m
    simp only [Member.ok, ht] at hok
    refine h.of_one m { s.members m with thread := some .call } (fun i => rfl) rfl (fun d i hd => hd) ?_ (Or.inl (h.lt ht)) (fun h1 => by cases h1)
    simp only [Member.ok]
    exact ⟨hok.1, hok.2 (by rw [hj]; simp), by rw [hj]; simp⟩
  | callNull m ht hj =>
    have hok := h.mem m
    simp only [Member.ok, ht] at hok
    exact absurd hj hok.2.2
  | call m j ht hj =>
    have hok := h.mem m
    simp only [Member.ok, ht] at hok
    refine h.of_one m { s.members m with thread := some (.running j) } (fun i => rfl) rfl (fun d i hd => hd) ?_ (Or.inl (h.lt ht)) (fun h1 => by cases h1)
    simp only [Member.ok]
    exact ⟨hok.1, hok.2.1, hj⟩
  | ret m j ht =>
    have hok := h.mem m
    simp only [Member.ok, ht] at hok
    refine h.of_one m { s.members m with thread := some .back } (fun i => rfl) rfl (fun d i hd => hd) ?_ (Or.inl (h.lt ht)) (fun h1 => by cases h1)
    simp only [Member.ok]
    exact ⟨hok.1, hok.2.1, by rw [hok.2.2]; simp⟩
  | clear m ht =>
    have hok := h.mem m
    simp only [Member.ok, ht] at hok
    refine h.of_one m { s.members m with task := none, thread := some .count } (fun i => rfl) rfl (fun d i hd => hd) ?_ (Or.inl (h.lt ht)) (fun h1 => by cases h1)
    simp only [Member.ok]
    exact ⟨hok.1, hok.2.1, trivial⟩
  | count m ht =>
    have hok := h.mem m
    simp only [Member.ok, ht] at hok
    refine h.of_one m { s.members m with thread := some .stats } (fun i => rfl) rfl (fun d i hd => hd) ?_ (Or.inl (h.lt ht)) (fun h1 => by cases h1)
    simp only [Member.ok]
    exact hok
  | stay m ht =>
    have hok := h.mem m
    simp only [Member.ok, ht] at hok
    refine h.of_one m { s.members m with thread := some .start } (fun i => rfl) rfl (fun d i hd => hd) ?_ (Or.inl (h.lt ht)) (fun h1 => by cases h1)
    simp only [Member.ok]
    exact ⟨hok.1, fun _ => hok.2.1⟩
  | relinquish m ht hm =>
    have hok := h.mem m
    simp only [Member.ok, ht] at hok
    refine h.of_one m { s.members m with thread := some .quit } (fun i => rfl) rfl (fun d i hd => hd) ?_ (Or.inl (h.lt ht)) (fun h1 => by cases h1)
    simp only [Member.ok]
    exact hok
  | leave m ht =>
    have hok := h.mem m
    simp only [Member.ok, ht] at hok
    refine h.of_one m { s.members m with busy := false, active := false, thread := none } (fun i => rfl) rfl (fun d i hd => hd) ?_ (Or.inr rfl) (fun h1 => by cases h1)
    simp only [Member.ok]
    exact ⟨trivial, trivial, hok.2.2⟩
  | farewell h0 => exact h.of_same rfl rfl (fun d m hd => by rw [clients_broadcast]; exact woken_sig hd)
  | spuriousWorker m ht =>
    have hok := h.mem m
    simp only [Member.ok, ht] at hok
    refine h.of_one m { s.members m with thread := some .start } (fun i => rfl) rfl (fun d i hd => hd) ?_ (Or.inl (h.lt ht)) (fun h1 => by cases h1)
    simp only [Member.ok]
    exact ⟨hok.1, hok.2.mp⟩
  | spuriousClient c hne =>
    refine h.of_same rfl rfl (pc_set s c _ (fun m => ?_))
    by_cases hp : (s.clients c).pc = .enqSig m
    · left; exact woken_sig hp
    · right; exact hp

/-- Reachable by a run. -/
theorem run_induct {P : State → Prop} (prog : Nat → List Call) (h0 : P (init prog)) (hs : ∀ l s s', Step l s s' → P s → P s') :
    ∀ ls s, run (init prog) ls = some s → P s := by
  have : ∀ ls s0 s, P s0 → run s0 ls = some s → P s := by
    intro ls
    induction ls with
    | nil => intro s0 s h0 hr; cases hr; exact h0
    | cons l ls ih =>
      intro s0 s h0 hr
      unfold run at hr
      cases hst : step l s0 with
      | none => rw [hst] at hr; cases hr
      | some s1 =>
        rw [hst] at hr
        exact ih s1 s (hs l s0 s1 (step_rel hst) h0) hr
  exact fun ls s hr => this ls _ s h0 hr

theorem run_inv (prog : Nat → List Call) (ls : List Label) (s : State) (h : run (init prog) ls = some s) : Inv s :=
  run_induct prog (inv_init prog) (fun _ _ _ hst hi => inv_step hst hi) ls s h

end TCrew
