import Verif.Lemmas.TCrew

namespace TCrew
open Finset

/-- Sum over the members. -/
def tot (g : Member → Nat) (s : State) : Nat := ∑ i ∈ range maxThreads, g (s.members i)

theorem tot_same (g : Member → Nat) {s s' : State} (h : s'.members = s.members) : tot g s' = tot g s := by
  unfold tot; rw [h]

theorem tot_one (g : Member → Nat) {s s' : State} (m : Nat) (x : Member) (hm : m < maxThreads) (h : ∀ i, s'.members i = if i = m then x else s.members i) :
    tot g s' + g (s.members m) = tot g s + g x := by
  unfold tot
  have hmem : m ∈ range maxThreads := mem_range.mpr hm
  rw [← add_sum_erase _ _ hmem, ← add_sum_erase _ (fun i => g (s.members i)) hmem]
  have : ∑ i ∈ (range maxThreads).erase m, g (s'.members i) = ∑ i ∈ (range maxThreads).erase m, g (s.members i) := by
    apply sum_congr rfl
    intro i hi
    rw [h, if_neg (ne_of_mem_erase hi)]
  rw [this, h, if_pos rfl]
  omega

/-- The member holds job `j` and has not begun it. -/
def pend (j : Job) (x : Member) : Nat :=
  if x.task = some j ∧ (x.thread = some .start ∨ x.thread = some .asleep ∨ x.thread = some .call) then 1 else 0
/-- The member is executing `j`. -/
def runs (j : Job) (x : Member) : Nat := if x.thread = some (.running j) then 1 else 0
/-- The member has a job that is not yet counted as completed. -/
def infl (x : Member) : Nat := if x.task ≠ none ∨ x.thread = some .count then 1 else 0

def cnt (j : Job) (l : List (Nat × Job)) : Nat := (l.map (·.2)).count j

theorem cnt_append (j : Job) (l : List (Nat × Job)) (m i : Nat) : cnt j (l ++ [(m, i)]) = cnt j l + if i = j then 1 else 0 := by
  unfold cnt
  simp [List.count_append, List.count_singleton]

structure Cnt (s : State) : Prop where
  a : ∀ j, cnt j s.assigned = cnt j s.started + tot (pend j) s
  b : ∀ j, cnt j s.started = cnt j s.finished + tot (runs j) s
  c : s.cntEnqueued - s.cntCompleted = (tot infl s : Int)

theorem tot_zero (g : Member → Nat) (s : State) (h : ∀ i, g (s.members i) = 0) : tot g s = 0 := by
  unfold tot; exact sum_eq_zero (fun i _ => h i)

theorem cnt_init (prog : Nat → List Call) : Cnt (init prog) := by
  have hx : ∀ i, ((init prog).members i).task = none ∧ (((init prog).members i).thread = some .start ∨ ((init prog).members i).thread = none) := by
    intro i
    show (if i < 2 then _ else _ : Member).task = none ∧ ((if i < 2 then _ else _ : Member).thread = some .start ∨ (if i < 2 then _ else _ : Member).thread = none)
    by_cases h : i < 2
    · simp only [if_pos h]; simp
    · simp only [if_neg h]; simp
  constructor
  · intro j
    rw [tot_zero (pend j) _ (fun i => by simp [pend, (hx i).1])]; rfl
  · intro j
    rw [tot_zero (runs j) _ (fun i => by rcases (hx i).2 with h | h <;> simp [runs, h])]; rfl
  · rw [tot_zero infl _ (fun i => by rcases (hx i).2 with h | h <;> simp [infl, (hx i).1, h])]; rfl

theorem Cnt.of_same {s s' : State} (h : Cnt s) (hm : s'.members = s.members) (ha : s'.assigned = s.assigned) (hs : s'.started = s.started)
    (hf : s'.finished = s.finished) (hc : s'.cntEnqueued - s'.cntCompleted = s.cntEnqueued - s.cntCompleted) : Cnt s' := by
  constructor
  · intro j; rw [ha, hs, tot_same _ hm]; exact h.a j
  · intro j; rw [hs, hf, tot_same _ hm]; exact h.b j
  · rw [hc, tot_same _ hm]; exact h.c

theorem Cnt.of_one {s s' : State} (h : Cnt s) (m : Nat) (x : Member) (hlt : m < maxThreads) (hm : ∀ i, s'.members i = if i = m then x else s.members i)
    (ha : ∀ j, cnt j s'.assigned + pend j (s.members m) + cnt j s.started = cnt j s.assigned + pend j x + cnt j s'.started)
    (hb : ∀ j, cnt j s'.started + runs j (s.members m) + cnt j s.finished = cnt j s.started + runs j x + cnt j s'.finished)
    (hc : s'.cntEnqueued - s'.cntCompleted + (infl (s.members m) : Int) = s.cntEnqueued - s.cntCompleted + infl x) : Cnt s' := by
  constructor
  · intro j
    have h1 := tot_one (pend j) m x hlt hm
    have h2 := h.a j
    have h3 := ha j
    omega
  · intro j
    have h1 := tot_one (runs j) m x hlt hm
    have h2 := h.b j
    have h3 := hb j
    omega
  · have h1 := tot_one infl m x hlt hm
    have h2 := h.c
    omega

theorem members_signal_one (s : State) (m : Nat) (h : (s.members m).thread = some .asleep) (i : Nat) :
    (s.signal m).members i = if i = m then { s.members m with thread := some .start } else s.members i := by
  rw [members_signal]
  by_cases hi : i = m
  · rw [if_pos ⟨hi, h⟩, if_pos hi]
  · rw [if_neg (fun hc => hi hc.1), if_neg hi]

theorem signal_fields (s : State) (m : Nat) : (s.signal m).assigned = s.assigned ∧ (s.signal m).started = s.started ∧ (s.signal m).finished = s.finished ∧
    (s.signal m).cntEnqueued = s.cntEnqueued ∧ (s.signal m).cntCompleted = s.cntCompleted ∧ (s.signal m).leaving = s.leaving := by
  unfold State.signal; split <;> exact ⟨rfl, rfl, rfl, rfl, rfl, rfl⟩

theorem wait_fields (s : State) (c : Nat) (r : Int) : (s.waitBody c r).assigned = s.assigned ∧ (s.waitBody c r).started = s.started ∧ (s.waitBody c r).finished = s.finished ∧
    (s.waitBody c r).cntEnqueued - (s.waitBody c r).cntCompleted = s.cntEnqueued - s.cntCompleted ∧ (s.waitBody c r).leaving = s.leaving := by
  unfold State.waitBody
  simp only []
  split
  · exact ⟨rfl, rfl, rfl, rfl, rfl⟩
  · exact ⟨rfl, rfl, rfl, by show s.cntEnqueued - r - (s.cntCompleted - r) = _; omega, rfl⟩

theorem cnt_step {l : Label} {s s' : State} (hst : Step l s s') (hi : Inv s) (h : Cnt s) : Cnt s' := by
  cases hst with
  | beginEnq c j rest hp ht => exact h.of_same rfl rfl rfl rfl rfl
  | beginWait c rest hp ht => exact h.of_same rfl rfl rfl rfl rfl
  | enqFull c j hp hf => exact h.of_same rfl rfl rfl rfl rfl
  | enqGive c j m hp hf =>
    obtain ⟨hm, hb⟩ := firstFree_some hf
    have hg := ok_give (s.members m) j (hi.mem m) hb
    have hth : (((s.members m).give j).thread = some .start ∨ ((s.members m).give j).thread = some .asleep) := by
      rcases hg.2.2.2 with h1 | h1
      · exact Or.inl h1
      · exact Or.inr h1.2
    have htask : ((s.members m).give j).task = some j := rfl
    refine h.of_one m ((s.members m).give j) hm (fun i => rfl) (fun i => ?_) (fun i => ?_) ?_
    · show cnt i (s.assigned ++ [(c, j)]) + _ + _ = _
      have e : cnt i s.started = cnt i (((({ s with cntEnqueued := s.cntEnqueued + 1, assigned := s.assigned ++ [(c, j)] } : State).setMember m ((s.members m).give j)).setClient c
        { s.clients c with pc := .enqSig m }).started) := rfl
      rw [cnt_append, ← e]
      have h1 : pend i (s.members m) = 0 := by simp [pend, hg.2.1]
      have h2 : pend i ((s.members m).give j) = if j = i then 1 else 0 := by
        unfold pend
        rw [htask]
        rcases hth with h | h <;> simp [h]
      rw [h1, h2]; omega
    · have h1 : runs i (s.members m) = 0 := by
        unfold runs
        rcases hg.2.2.1 with h | h | h <;> simp [h]
      have h2 : runs i ((s.members m).give j) = 0 := by
        unfold runs
        rcases hth with h | h <;> simp [h]
      rw [h1, h2]; rfl
    · have h1 : infl (s.members m) = 0 := by
        unfold infl
        rcases hg.2.2.1 with h | h | h <;> simp [h, hg.2.1]
      have h2 : infl ((s.members m).give j) = 1 := by
        unfold infl; simp [htask]
      rw [h1, h2]
      show s.cntEnqueued + 1 - s.cntCompleted + ((0 : Nat) : Int) = s.cntEnqueued - s.cntCompleted + ((1 : Nat) : Int)
      omega
  | signal c m hp =>
    have hf := signal_fields s m
    by_cases ha : (s.members m).thread = some .asleep
    · refine h.of_one m _ (hi.lt ha) (fun i => members_signal_one s m ha i) (fun i => ?_) (fun i => ?_) ?_
      · show cnt i (s.signal m).assigned + _ + _ = _ + _ + cnt i (s.signal m).started
        rw [hf.1, hf.2.1]
        simp [pend, ha]
      · show cnt i (s.signal m).started + _ + _ = _ + _ + cnt i (s.signal m).finished
        rw [hf.2.1, hf.2.2.1]
        simp [runs, ha]
      · show (s.signal m).cntEnqueued - (s.signal m).cntCompleted + _ = _
        rw [hf.2.2.2.1, hf.2.2.2.2.1]
        simp [infl, ha]
    · have he : s.signal m = s := by unfold State.signal; rw [if_neg ha]
      rw [he]
      exact h.of_same rfl rfl rfl rfl rfl
  | waitLock c hp =>
    have hf := wait_fields s c s.cntEnqueued
    exact h.of_same (members_waitBody s c _) hf.1 hf.2.1 hf.2.2.1 hf.2.2.2.1
  | waitWake c r hp =>
    have hf := wait_fields s c r
    exact h.of_same (members_waitBody s c _) hf.1 hf.2.1 hf.2.2.1 hf.2.2.2.1
  | loopIdle m ht hj =>
    refine h.of_one m _ (hi.lt ht) (fun i => rfl) (fun i => ?_) (fun i => ?_) ?_
    · simp [pend, hj]; rfl
    · simp [runs, ht]; rfl
    · simp [infl, ht, hj]; rfl
  | loopWork m j ht hj =>
    refine h.of_one m _ (hi.lt ht) (fun i => rfl) (fun i => ?_) (fun i => ?_) ?_
    · simp [pend, ht]; rfl
    · simp [runs, ht]; rfl
    · simp [infl, ht, hj]; rfl
  | callNull m ht hj =>
    have hok := hi.mem m
    simp only [Member.ok, ht] at hok
    exact absurd hj hok.2.2
  | call m j ht hj =>
    refine h.of_one m _ (hi.lt ht) (fun i => rfl) (fun i => ?_) (fun i => ?_) ?_
    · show _ = _ + _ + cnt i (s.started ++ [(m, j)])
      rw [cnt_append]
      have e : cnt i s.assigned = cnt i (({ s with started := s.started ++ [(m, j)] } : State).setMember m { s.members m with thread := some (.running j) }).assigned := rfl
      rw [← e]
      simp [pend, ht, hj]; omega
    · show cnt i (s.started ++ [(m, j)]) + _ + _ = _ + _ + cnt i s.finished
      rw [cnt_append]
      simp [runs, ht]; try omega
    · show s.cntEnqueued - s.cntCompleted + _ = _
      simp [infl, ht]
  | ret m j ht =>
    have hok := hi.mem m
    simp only [Member.ok, ht] at hok
    refine h.of_one m _ (hi.lt ht) (fun i => rfl) (fun i => ?_) (fun i => ?_) ?_
    · simp [pend, ht]; rfl
    · show cnt i s.started + _ + _ = _ + _ + cnt i (s.finished ++ [(m, j)])
      rw [cnt_append]
      simp [runs, ht]; omega
    · show s.cntEnqueued - s.cntCompleted + _ = _
      simp [infl, ht]
  | clear m ht =>
    have hok := hi.mem m
    simp only [Member.ok, ht] at hok
    refine h.of_one m _ (hi.lt ht) (fun i => rfl) (fun i => ?_) (fun i => ?_) ?_
    · simp [pend, ht]; rfl
    · simp [runs, ht]; rfl
    · show s.cntEnqueued - s.cntCompleted + _ = _
      simp [infl, ht, hok]
  | count m ht =>
    have hok := hi.mem m
    simp only [Member.ok, ht] at hok
    refine h.of_one m _ (hi.lt ht) (fun i => rfl) (fun i => ?_) (fun i => ?_) ?_
    · simp [pend, ht]; rfl
    · simp [runs, ht]; rfl
    · show s.cntEnqueued - (s.cntCompleted + 1) + _ = _
      simp [infl, ht, hok]; omega
  | stay m ht =>
    have hok := hi.mem m
    simp only [Member.ok, ht] at hok
    refine h.of_one m _ (hi.lt ht) (fun i => rfl) (fun i => ?_) (fun i => ?_) ?_
    · simp [pend, ht, hok]; rfl
    · simp [runs, ht]; rfl
    · show s.cntEnqueued - s.cntCompleted + _ = _
      simp [infl, ht, hok]
  | relinquish m ht hm =>
    have hok := hi.mem m
    simp only [Member.ok, ht] at hok
    refine h.of_one m _ (hi.lt ht) (fun i => rfl) (fun i => ?_) (fun i => ?_) ?_
    · simp [pend, ht, hok]; rfl
    · simp [runs, ht]; rfl
    · show s.cntEnqueued - s.cntCompleted + _ = _
      simp [infl, ht, hok]
  | leave m ht =>
    have hok := hi.mem m
    simp only [Member.ok, ht] at hok
    refine h.of_one m _ (hi.lt ht) (fun i => rfl) (fun i => ?_) (fun i => ?_) ?_
    · simp [pend, ht, hok]; rfl
    · simp [runs, ht]; rfl
    · show s.cntEnqueued - s.cntCompleted + _ = _
      simp [infl, ht, hok]
  | farewell h0 => exact h.of_same rfl rfl rfl rfl rfl
  | spuriousWorker m ht =>
    refine h.of_one m _ (hi.lt ht) (fun i => rfl) (fun i => ?_) (fun i => ?_) ?_
    · simp [pend, ht]; rfl
    · simp [runs, ht]; rfl
    · show s.cntEnqueued - s.cntCompleted + _ = _
      simp [infl, ht]
  | spuriousClient c hne => exact h.of_same rfl rfl rfl rfl rfl

theorem run_cnt (prog : Nat → List Call) (ls : List Label) (s : State) (h : run (init prog) ls = some s) : Inv s ∧ Cnt s :=
  run_induct (P := fun s => Inv s ∧ Cnt s) prog ⟨inv_init prog, cnt_init prog⟩ (fun _ _ _ hst hi => ⟨inv_step hst hi.1, cnt_step hst hi.1 hi.2⟩) ls s h

end TCrew
