import Verif.Lemmas.Blake3Climb
import Mathlib.Data.List.TakeWhile

namespace Blake3
open Spec
open Spec.Blake3 (Output chunkOutput parentOutput)

variable {comp : List Word → List Byte → BitVec 64 → Word → Word → List Word}

theorem push_leaf {keyed : Bool} {n : Node} {c : List Byte} (h : Leaf keyed n c) (b : Byte) (hlt : c.length < 1024) :
    Leaf keyed { n with buf := n.buf.set n.remain b, remain := n.remain + 1 } (c ++ [b]) := by
  refine ⟨h.hashed, h.height, ?_, h.d, ?_, ?_⟩
  · simp [h.remain]
  · simp only
    rw [h.buf, h.remain]
    obtain ⟨k, hk⟩ : ∃ k, 1024 - c.length = k + 1 := ⟨1023 - c.length, by omega⟩
    have hk2 : 1024 - (c ++ [b]).length = k := by simp; omega
    rw [hk, hk2, List.replicate_succ]
    simp
  · simp; omega

theorem fillNode_spec {keyed : Bool} : ∀ (ds : List Byte) (n : Node) (c : List Byte), Leaf keyed n c →
    ∃ n', fillNode n ds = (n', ds.drop (1024 - c.length)) ∧ Leaf keyed n' (c ++ ds.take (1024 - c.length)) ∧ n'.t = n.t := by
  intro ds
  induction ds with
  | nil => intro n c h; exact ⟨n, by simp [fillNode], by simpa using h, rfl⟩
  | cons b ds ih =>
    intro n c h
    unfold fillNode
    by_cases hc : c.length < 1024
    · rw [if_pos (by rw [h.remain]; exact hc)]
      obtain ⟨n', e, l, t⟩ := ih _ _ (push_leaf h b hc)
      obtain ⟨k, hk⟩ : ∃ k, 1024 - c.length = k + 1 := ⟨1023 - c.length, by omega⟩
      have hk2 : 1024 - (c ++ [b]).length = k := by simp; omega
      rw [hk2] at e l
      refine ⟨n', ?_, ?_, t⟩
      · rw [e, hk]; rfl
      · rw [hk, List.take_succ_cons]; simpa using l
    · rw [if_neg (by rw [h.remain]; exact hc)]
      have : 1024 - c.length = 0 := by omega
      rw [this]
      exact ⟨n, rfl, by simpa using h, rfl⟩

/-- The context while data is being taken in: `m` has been read, `hs` are the heights of the branches. -/
structure Fill (comp : List Word → List Byte → BitVec 64 → Word → Word → List Word) (M : List Byte) (x : Ctx)
    (m : List Byte) (hs : List Nat) : Prop where
  wf : WF x
  fin : x.finalize = false
  bf : x.bf = hs.length
  rep : RepL comp M x 0 0 hs
  tt : x.t = BitVec.ofNat 64 (chunks hs + x.lf)
  lo : 1024 * (chunks hs + x.lf) ≤ m.length
  hi : m.length ≤ 1024 * (chunks hs + x.lf + 1)
  leaf : ∀ j, hs.length + j < 65 → Leaf x.keyed (node x (hs.length + j)) ((m.drop (1024 * (chunks hs + j))).take 1024)
  lt : ∀ j, j < x.lf → (node x (hs.length + j)).t = BitVec.ofNat 64 (chunks hs + j)
  room : hs.length + x.lf ≤ 65
  capped : hs.length + x.lf = 65 → m.length = 1024 * (chunks hs + x.lf)

/-- There is data beyond the counted chunks. -/
def Strict (x : Ctx) (m : List Byte) (hs : List Nat) : Prop :=
  0 < chunks hs + x.lf → 1024 * (chunks hs + x.lf) < m.length

theorem fill_spec (M : List Byte) (hs : List Nat) : ∀ (N : Nat) (x : Ctx) (m data : List Byte),
    data.length * 66 + (65 - x.lf) ≤ N → Fill comp M x m hs →
    ∃ y used rest, updateFill x (x.bf + x.lf) data = (y, rest) ∧ data = used ++ rest ∧ Fill comp M y (m ++ used) hs ∧
      y.k = x.k ∧ y.keyed = x.keyed ∧ (rest = [] ∨ hs.length + y.lf = 65) ∧
      (rest = [] → (Strict x m hs ∨ data ≠ []) → Strict y (m ++ used) hs) := by
  intro N
  induction N using Nat.strong_induction_on with
  | _ N IH =>
  intro x m data hN F
  unfold updateFill
  cases data with
  | nil =>
    refine ⟨x, [], [], rfl, rfl, by simpa using F, rfl, rfl, Or.inl rfl, ?_⟩
    intro _ h
    rcases h with h | h
    · simpa using h
    · exact absurd rfl h
  | cons b ds =>
    simp only []
    by_cases c : x.bf + x.lf < NODES
    · rw [if_pos c]
      unfold NODES at c
      have hbf := F.bf
      have hi65 : hs.length + x.lf < 65 := by omega
      rw [hbf]
      have L := F.leaf x.lf hi65
      have hcl : ((m.drop (1024 * (chunks hs + x.lf))).take 1024).length = m.length - 1024 * (chunks hs + x.lf) := by
        rw [List.length_take, List.length_drop]
        have := F.hi; omega
      have hrem : (node x (hs.length + x.lf)).remain = m.length - 1024 * (chunks hs + x.lf) := by rw [L.remain, hcl]
      by_cases full : (node x (hs.length + x.lf)).remain = 1024
      · rw [if_pos full]
        set n := node x (hs.length + x.lf) with hn
        set x' : Ctx := { setNode x (hs.length + x.lf) { n with t := x.t } with t := x.t + 1, lf := x.lf + 1 } with hx'
        have hml : m.length = 1024 * (chunks hs + x.lf + 1) := by have := F.lo; omega
        have wn : ∀ j, j < 65 → node x' j = if j = hs.length + x.lf then { n with t := x.t } else node x j := by
          intro j hj
          exact node_setNode F.wf hi65 hj _
        have w' : WF x' := by
          have := WF_setNode F.wf (hs.length + x.lf) { n with t := x.t }
          exact ⟨this.nl, this.nd, this.nb, this.ln, this.kl⟩
        have F' : Fill comp M x' m hs := by
          have hlf : x'.lf = x.lf + 1 := rfl
          refine ⟨w', F.fin, F.bf, ?_, ?_, ?_, ?_, ?_, ?_, ?_, ?_⟩
          · exact RepL_transferK (x := x) (y := x') rfl rfl hs 0 0 0 (fun j hj => by
              rw [Nat.zero_add, wn j (by omega), if_neg (by omega)]) F.rep
          · show x.t + 1 = _
            rw [F.tt, hlf, show (1 : BitVec 64) = BitVec.ofNat 64 1 from rfl, ← BitVec.ofNat_add]; rfl
          · rw [hlf]; omega
          · rw [hlf]; omega
          · intro j hj
            show Leaf x.keyed (node x' (hs.length + j)) _
            rw [wn _ hj]
            by_cases cj : hs.length + j = hs.length + x.lf
            · rw [if_pos cj]
              have : j = x.lf := by omega
              subst this
              exact ⟨L.hashed, L.height, L.remain, L.d, L.buf, L.le⟩
            · rw [if_neg cj]; exact F.leaf j hj
          · intro j hj
            rw [hlf] at hj
            rw [wn _ (by omega)]
            by_cases cj : hs.length + j = hs.length + x.lf
            · rw [if_pos cj]
              have : j = x.lf := by omega
              rw [this]; exact F.tt
            · rw [if_neg cj]; exact F.lt j (by omega)
          · rw [hlf]; omega
          · intro _; rw [hlf, hml]; rfl
        have hlf : x'.lf = x.lf + 1 := rfl
        obtain ⟨y, used, rest, e, e2, G, k1, k2, k3, k4⟩ := IH ((b :: ds).length * 66 + (65 - x'.lf)) (by omega) x' m
          (b :: ds) (le_refl _) F'
        refine ⟨y, used, rest, ?_, e2, G, k1, k2, k3, fun hr _ => k4 hr (Or.inr (by simp))⟩
        rw [← e]
        have : hs.length + x.lf + 1 = x'.bf + x'.lf := by rw [hlf]; show _ = x.bf + _; omega
        rw [this]
      · have hlt : (node x (hs.length + x.lf)).remain < 1024 := by have := F.hi; omega
        rw [if_neg full, if_pos hlt]
        set c := (m.drop (1024 * (chunks hs + x.lf))).take 1024 with hc
        have hclt : c.length < 1024 := by omega
        obtain ⟨n', e, l, t⟩ := fillNode_spec ds _ _ (push_leaf L b hclt)
        rw [e]
        simp only []
        have hk2 : 1024 - (c ++ [b]).length = 1023 - c.length := by rw [List.length_append, List.length_singleton]; omega
        rw [hk2] at l ⊢
        set used := b :: ds.take (1023 - c.length) with hu
        set x' := setNode x (hs.length + x.lf) n' with hx'
        have wn : ∀ j, j < 65 → node x' j = if j = hs.length + x.lf then n' else node x j := by
          intro j hj
          exact node_setNode F.wf hi65 hj _
        have hul : used.length ≤ 1024 - c.length := by
          rw [hu, List.length_cons, List.length_take]; omega
        have hup : 1 ≤ used.length := by rw [hu, List.length_cons]; omega
        have hlo := F.lo
        have hhi := F.hi
        have hcont : c ++ [b] ++ ds.take (1023 - c.length) = c ++ used := by rw [hu]; simp
        rw [hcont] at l
        have F' : Fill comp M x' (m ++ used) hs := by
          refine ⟨WF_setNode F.wf _ _, F.fin, F.bf, ?_, F.tt, ?_, ?_, ?_, ?_, F.room, fun h => by
            have : x'.lf = x.lf := rfl
            omega⟩
          · exact RepL_transferK (x := x) (y := x') rfl rfl hs 0 0 0 (fun j hj => by
              rw [Nat.zero_add, wn j (by omega), if_neg (by omega)]) F.rep
          · show 1024 * (chunks hs + x.lf) ≤ _
            rw [List.length_append]; omega
          · show _ ≤ 1024 * (chunks hs + x.lf + 1)
            rw [List.length_append]; omega
          · intro j hj
            show Leaf x.keyed (node x' (hs.length + j)) _
            rw [wn _ hj]
            by_cases cj : hs.length + j = hs.length + x.lf
            · rw [if_pos cj]
              have : j = x.lf := by omega
              subst this
              rw [List.drop_append_of_le_length hlo, List.take_of_length_le (by rw [List.length_append, List.length_drop]; omega)]
              have : c = m.drop (1024 * (chunks hs + x.lf)) := by
                rw [hc, List.take_of_length_le (by rw [List.length_drop]; omega)]
              rw [← this]; exact l
            · rw [if_neg cj]
              have := F.leaf j hj
              by_cases cj2 : j < x.lf
              · have : 1024 * (chunks hs + j) + 1024 ≤ m.length := by
                  have : chunks hs + j + 1 ≤ chunks hs + x.lf := by omega
                  omega
                rw [List.drop_append_of_le_length (by omega), List.take_append_of_le_length (by rw [List.length_drop]; omega)]
                assumption
              · have h2 : m.length + used.length ≤ 1024 * (chunks hs + j) := by
                  have : chunks hs + x.lf + 1 ≤ chunks hs + j := by omega
                  omega
                rw [List.drop_of_length_le (by rw [List.length_append]; exact h2)]
                rw [List.drop_of_length_le (by omega)] at this
                exact this
          · intro j hj
            rw [wn _ (by have := F.room; have : x'.lf = x.lf := rfl; omega)]
            have : x'.lf = x.lf := rfl
            rw [if_neg (by omega)]
            exact F.lt j hj
        have hdl : (ds.drop (1023 - c.length)).length ≤ ds.length := by rw [List.length_drop]; omega
        obtain ⟨y, used', rest, e', e2, G, k1, k2, k3, k4⟩ := IH ((ds.drop (1023 - c.length)).length * 66 + (65 - x'.lf))
          (by have : x'.lf = x.lf := rfl
              rw [List.length_cons] at hN; omega) x' (m ++ used) _ (le_refl _) F'
        refine ⟨y, used ++ used', rest, ?_, ?_, by rw [← List.append_assoc]; exact G, k1, k2, k3, fun hr _ => ?_⟩
        · rw [← e']
          show updateFill x' (hs.length + x.lf) _ = updateFill x' (x.bf + x.lf) _
          rw [hbf]
        · rw [List.append_assoc, ← e2, hu, List.cons_append, List.take_append_drop]
        · rw [← List.append_assoc]
          refine k4 hr (Or.inl ?_)
          intro _
          show 1024 * (chunks hs + x.lf) < _
          rw [List.length_append]; omega
    · rw [if_neg c]
      unfold NODES at c
      refine ⟨x, [], b :: ds, rfl, rfl, by simpa using F, rfl, rfl, Or.inr ?_, fun h => absurd h (by simp)⟩
      have := F.bf
      have := F.room
      omega

/-! ### The jobs, in any order -/

/-- What a job makes of its node. -/
def jobNode (comp : List Word → List Byte → BitVec 64 → Word → Word → List Word) (x : Ctx) (n : Node) : Node :=
  { (hashNode comp x.k x.keyed x.finalize n).2 with hashed := true, height := 0 }

theorem hashLoop_nofin (fuel : Nat) : ∀ (t : Nat) (h : List Word) (n : Node), (hashLoop comp false fuel t h n).2.2 = false := by
  induction fuel with
  | zero => intro t h n; rfl
  | succ f ih =>
    intro t h n
    unfold hashLoop
    simp only [Bool.false_eq_true, and_false, if_false]
    split_ifs <;> first | rfl | exact ih _ _ _

theorem hashNode_k (k : List Word) (keyed : Bool) (n : Node) : (hashNode comp k keyed false n).1 = k := by
  unfold hashNode
  simp only []
  have := hashLoop_nofin (comp := comp) 16 0 ((if keyed then k else IV) ++ List.replicate 8 0) n
  generalize hashLoop comp false 16 0 ((if keyed then k else IV) ++ List.replicate 8 0) n = r at this ⊢
  obtain ⟨a, b, c⟩ := r
  simp only at this
  subst this
  rfl

theorem job_eq {x : Ctx} (hf : x.finalize = false) (p : Nat) :
    job comp x p = { x with nodes := x.nodes.set p (jobNode comp x (x.nodes.getD p default)) } := by
  have := hashNode_k (comp := comp) x.k x.keyed (x.nodes.getD p default)
  unfold job jobNode
  rw [hf] at *
  simp only []
  rw [this]

theorem jobs_spec : ∀ (js : List Nat) (x : Ctx), x.finalize = false → js.Nodup → (∀ p ∈ js, p < x.nodes.length) →
    ∃ ns, js.foldl (job comp) x = { x with nodes := ns } ∧ ns.length = x.nodes.length ∧
      ∀ p, p < x.nodes.length → ns.getD p default = if p ∈ js then jobNode comp x (x.nodes.getD p default) else x.nodes.getD p default := by
  intro js
  induction js with
  | nil => intro x _ _ _; exact ⟨x.nodes, rfl, rfl, fun p _ => by simp⟩
  | cons q js ih =>
    intro x hf hd hb
    rw [List.foldl_cons, job_eq hf]
    obtain ⟨d1, d2⟩ := List.nodup_cons.1 hd
    obtain ⟨ns, e, l, h⟩ := ih { x with nodes := x.nodes.set q (jobNode comp x (x.nodes.getD q default)) } hf d2
      (fun p hp => by simp only [List.length_set]; exact hb p (by simp [hp]))
    refine ⟨ns, by rw [e], by rw [l]; simp, fun p hp => ?_⟩
    rw [h p (by simpa using hp)]
    have hjn : ∀ n, jobNode comp { x with nodes := x.nodes.set q (jobNode comp x (x.nodes.getD q default)) } n = jobNode comp x n :=
      fun _ => rfl
    rw [hjn]
    simp only []
    rw [getD_set' _ _ _ _ _ (hb q (by simp))]
    by_cases c : p = q
    · subst c
      rw [if_neg d1, if_pos rfl, if_pos (by simp)]
    · rw [if_neg c]
      by_cases c2 : p ∈ js
      · rw [if_pos c2, if_pos (by simp [c2])]
      · rw [if_neg c2, if_neg (by simp [c, c2])]

/-- The jobs over the leaves in places `a .. a+n-1`, in the order chosen by the scheduler. -/
theorem jobs_view (sched : Ctx → List Nat → List Nat) (hs : ∀ x l, (sched x l).Perm l) {x : Ctx} (w : WF x)
    (hf : x.finalize = false) (a n : Nat) (hn : a + n ≤ 65) :
    let y := (sched x (((List.range n).map fun j => a + j).map fun i => x.nind.getD i 0)).foldl (job comp) x
    WF y ∧ Frame x y ∧ ∀ j, j < 65 → node y j = if a ≤ j ∧ j < a + n then jobNode comp x (node x j) else node x j := by
  intro y
  set js := ((List.range n).map fun j => a + j).map fun i => x.nind.getD i 0 with hjs
  have hperm := hs x js
  have hmem : ∀ j, j < 65 → (x.nind.getD j 0 ∈ js ↔ a ≤ j ∧ j < a + n) := by
    intro j hj
    rw [hjs, List.mem_map]
    constructor
    · rintro ⟨i, hi, e⟩
      obtain ⟨q, hq, rfl⟩ := List.mem_map.1 hi
      rw [List.mem_range] at hq
      have := nind_inj w (by omega) hj e
      omega
    · intro h
      exact ⟨j, List.mem_map.2 ⟨j - a, List.mem_range.2 (by omega), by omega⟩, rfl⟩
  have hnd : js.Nodup := by
    rw [hjs, List.map_map]
    apply List.Nodup.map_on _ List.nodup_range
    intro u hu v hv e
    rw [List.mem_range] at hu hv
    have := nind_inj (i := a + u) (j := a + v) w (by omega) (by omega) e
    omega
  have hb : ∀ p ∈ js, p < x.nodes.length := by
    intro p hp
    rw [hjs, List.mem_map] at hp
    obtain ⟨i, hi, rfl⟩ := hp
    obtain ⟨q, hq, rfl⟩ := List.mem_map.1 hi
    rw [List.mem_range] at hq
    rw [w.ln]; exact nind_lt w (by omega)
  obtain ⟨ns, e, l, h⟩ := jobs_spec (comp := comp) (sched x js) x hf (hperm.nodup_iff.2 hnd)
    (fun p hp => hb p (hperm.mem_iff.1 hp))
  have ey : y = { x with nodes := ns } := e
  refine ⟨?_, ?_, ?_⟩
  · rw [ey]; exact ⟨w.nl, w.nd, w.nb, l.trans w.ln, w.kl⟩
  · rw [ey]; exact ⟨rfl, rfl, rfl, rfl, rfl, rfl⟩
  · intro j hj
    rw [ey]
    unfold node
    simp only []
    rw [h _ (by rw [w.ln]; exact nind_lt w hj)]
    by_cases c : a ≤ j ∧ j < a + n
    · rw [if_pos c, if_pos (hperm.mem_iff.2 ((hmem j hj).2 c))]
    · rw [if_neg c, if_neg (fun h' => c ((hmem j hj).1 (hperm.mem_iff.1 h')))]

/-- A job done on a leaf stands for the chunk. -/
theorem rep_leaf (ok : CompOK comp) {x : Ctx} (w : WF x) (hf : x.finalize = false) {n : Node} {c : List Byte} {ct : Nat}
    (hn : Leaf x.keyed n c) (ht : n.t = BitVec.ofNat 64 ct) :
    Rep comp (keyOf x) x.keyed (jobNode comp x n) 0 (chunkOutput comp (keyOf x) (modeOf x.keyed) c ct) := by
  obtain ⟨n', e, g1, g2, g3⟩ := hashNode_leaf ok x.k x.keyed n c ct w.kl hn ht
  unfold jobNode
  rw [hf, e]
  exact ⟨rfl, g2, fun _ => g3, fun h => absurd h (by simp)⟩

theorem sub_leaf (key : List Word) (keyed : Bool) (M : List Byte) (s : Nat) :
    sub comp key keyed M s (2 ^ 0) = chunkOutput comp key (modeOf keyed) ((M.drop (1024 * s)).take 1024) s := by
  unfold sub Spec.Blake3.output
  rw [dif_pos (by rw [List.length_take]; omega)]; rfl

theorem RepL_zeros {M : List Byte} {y : Ctx} : ∀ (n idx s : Nat),
    (∀ j, j < n → RepAt comp y (idx + j) 0 (sub comp (keyOf y) y.keyed M (s + j) (2 ^ 0))) →
    RepL comp M y idx s (List.replicate n 0) := by
  intro n
  induction n with
  | zero => intro _ _ _; trivial
  | succ n ih =>
    intro idx s h
    rw [List.replicate_succ]
    refine ⟨by simpa using h 0 (by omega), ih _ _ (fun j hj => ?_)⟩
    have := h (j + 1) (by omega)
    rw [show idx + 1 + j = idx + (j + 1) by omega, show s + 2 ^ 0 + j = s + (j + 1) by omega]; exact this

theorem chunks_zeros (n : Nat) : chunks (List.replicate n 0) = n := by simp [chunks]

theorem bat_spec (ok : CompOK comp) (sched : Ctx → List Nat → List Nat) (hs : ∀ x l, (sched x l).Perm l)
    (M : List Byte) (x : Ctx) (m : List Byte) (hts : List Nat) (fut : List Byte) (hM : M = m ++ fut)
    (F : Fill comp M x m hts) (D : Desc hts)
    (hML : M.length < 2 ^ 64) :
    ∃ hts', Fill comp M (updateBat comp sched x) m hts' ∧ Desc hts' ∧ (updateBat comp sched x).lf = 0 ∧
      chunks hts' = chunks hts + x.lf ∧ (updateBat comp sched x).k = x.k ∧ (updateBat comp sched x).keyed = x.keyed := by
  have hfull : ((List.range x.lf).map fun j => x.bf + j).takeWhile (fun i => decide ((node x i).remain = 1024)) =
      (List.range x.lf).map fun j => hts.length + j := by
    rw [F.bf]
    apply List.takeWhile_eq_self_iff.2
    intro i hi
    obtain ⟨j, hj, rfl⟩ := List.mem_map.1 hi
    rw [List.mem_range] at hj
    have := F.room
    have L := F.leaf j (by omega)
    rw [decide_eq_true_iff, L.remain, List.length_take, List.length_drop]
    have hlo := F.lo
    have : chunks hts + j + 1 ≤ chunks hts + x.lf := by omega
    omega
  unfold updateBat
  simp only []
  rw [hfull]
  obtain ⟨w1, f1, v1⟩ := jobs_view (comp := comp) sched hs F.wf F.fin hts.length x.lf F.room
  set y := (sched x (((List.range x.lf).map fun j => hts.length + j).map fun i => x.nind.getD i 0)).foldl (job comp) x with hy
  have hky : keyOf y = keyOf x := keyOf_frame f1
  -- all branches and leaves as complete subtrees
  have R : RepL comp M y 0 0 (hts ++ List.replicate x.lf 0) := by
    rw [RepL_append]
    refine ⟨RepL_transferK f1.k f1.keyed hts 0 0 0 (fun j hj => ?_) F.rep, RepL_zeros _ _ _ (fun j hj => ?_)⟩
    · have := F.room
      rw [Nat.zero_add, v1 j (by omega), if_neg (by omega)]
    · have := F.room
      rw [Nat.zero_add, Nat.zero_add]
      unfold RepAt
      rw [v1 _ (by omega), if_pos (by omega), hky, f1.keyed, sub_leaf]
      have L := F.leaf j (by omega)
      have hlo := F.lo
      have h1 : chunks hts + j + 1 ≤ chunks hts + x.lf := by omega
      have he : (m.drop (1024 * (chunks hts + j))).take 1024 = (M.drop (1024 * (chunks hts + j))).take 1024 := by
        rw [hM, List.drop_append_of_le_length (by omega), List.take_append_of_le_length (by rw [List.length_drop]; omega)]
      rw [he] at L
      exact rep_leaf ok F.wf F.fin L (F.lt j hj)
  set z : Ctx := { y with bf := y.bf + y.lf, lf := 0 } with hz
  have hch : chunks (hts ++ List.replicate x.lf 0) = chunks hts + x.lf := by rw [chunks_append, chunks_zeros]
  have hll : (hts ++ List.replicate x.lf 0).length = hts.length + x.lf := by simp
  have Rz : RepL comp M z 0 0 (hts ++ List.replicate x.lf 0) :=
    RepL_transferK (x := y) (y := z) rfl rfl _ 0 0 0 (fun j hj => rfl) R
  have hsort : (hts ++ List.replicate x.lf 0).Pairwise (· ≥ ·) := by
    rw [List.pairwise_append]
    refine ⟨D.imp (fun h => Nat.le_of_lt h), ?_, ?_⟩
    · rw [List.pairwise_replicate]; right; exact le_refl _
    · intro a _ b hb
      rw [List.mem_replicate] at hb
      omega
  have hd1 : Desc ((hts ++ List.replicate x.lf 0).take (0 + 1)) := by
    cases (hts ++ List.replicate x.lf 0) with
    | nil => simp
    | cons a l => simp
  obtain ⟨hs', C⟩ := climb_spec ok M _ z 0 _ (le_refl _) ⟨w1.nl, w1.nd, w1.nb, w1.ln, w1.kl⟩ (f1.fin.trans F.fin)
    (by rw [hll, hz]; show y.bf + y.lf = _; rw [f1.bf, f1.lf, F.bf]) (by rw [hll]; exact F.room) Rz
    (by rw [hch, hM, List.length_append]; have := F.lo; omega) hsort hd1
  have hup : updateClimb comp y = climbLoop comp z 0 := rfl
  rw [hup]
  have hlf : (climbLoop comp z 0).lf = 0 := C.fr.lf
  have hch2 : chunks hs' = chunks hts + x.lf := C.ch.trans hch
  refine ⟨hs', ⟨C.wf, ?_, C.bf, C.rep, ?_, ?_, ?_, ?_, ?_, ?_, ?_⟩, C.desc, hlf, hch2, ?_, ?_⟩
  · rw [C.fr.fin]; exact f1.fin.trans F.fin
  · rw [C.fr.t, hlf, hch2, Nat.add_zero]; exact f1.t.trans F.tt
  · rw [hlf, hch2]; exact F.lo
  · rw [hlf, hch2]; exact F.hi
  · intro j hj
    have hkk : (climbLoop comp z 0).keyed = x.keyed := C.fr.keyed.trans f1.keyed
    rw [hkk]
    by_cases c65 : (hts ++ List.replicate x.lf 0).length + j < 65
    · rw [C.rest j c65, hll]
      rw [hll] at c65
      have : node z (hts.length + x.lf + j) = node x (hts.length + (x.lf + j)) := by
        show node y _ = _
        rw [v1 _ (by omega), if_neg (by omega)]
        congr 1; omega
      rw [this, hch2, Nat.add_assoc]
      exact F.leaf (x.lf + j) (by omega)
    · have := C.fresh j (by omega) hj
      rw [show z.keyed = x.keyed from f1.keyed] at this
      have hrm := F.room
      rw [hll] at c65
      rw [hch2]
      -- beyond the array there is no data yet
      have hjpos : hts.length + x.lf + j ≥ 65 := by omega
      by_cases cfull : m.length ≤ 1024 * (chunks hts + x.lf + j)
      · rw [List.drop_of_length_le cfull]; exact this
      · exfalso
        have hcap := F.capped
        have hhi := F.hi
        by_cases hj0 : j = 0
        · subst hj0; have := hcap (by omega); omega
        · have : chunks hts + x.lf + 1 ≤ chunks hts + x.lf + j := by omega
          omega
  · intro j hj; rw [hlf] at hj; omega
  · rw [hlf]; have := C.le; rw [hll] at this; have := F.room; omega
  · rw [hlf]
    intro h
    have : hs'.length ≤ 54 := by
      apply desc_length_of_chunks 54 C.desc
      have := F.lo
      rw [hM, List.length_append] at hML
      rw [hch2]; omega
    omega
  · rw [C.fr.k]; exact f1.k
  · rw [C.fr.keyed]; exact f1.keyed
end Blake3
