import Verif.Lemmas.Blake3Update

namespace Blake3
open Spec
open Spec.Blake3 (Output chunkOutput parentOutput)

variable {comp : List Word → List Byte → BitVec 64 → Word → Word → List Word}

/-- The context between two calls of `BLAKE3_Update`. -/
structure Ready (comp : List Word → List Byte → BitVec 64 → Word → Word → List Word) (M : List Byte) (x : Ctx)
    (m : List Byte) (hs : List Nat) : Prop extends Fill comp M x m hs where
  lf0 : x.lf = 0
  desc : Desc hs
  strict : Strict x m hs

theorem update_aux (ok : CompOK comp) (sched : Ctx → List Nat → List Nat) (hp : ∀ x l, (sched x l).Perm l)
    (M : List Byte) (hML : M.length < 2 ^ 64) : ∀ (N : Nat) (data : List Byte), data.length ≤ N →
    ∀ (x : Ctx) (m : List Byte) (hs : List Nat) (fut : List Byte), M = m ++ data ++ fut →
    Fill comp M x m hs → x.lf = 0 → Desc hs →
    ∃ hs', Fill comp M (update comp sched x data) (m ++ data) hs' ∧ (update comp sched x data).lf = 0 ∧ Desc hs' ∧
      (update comp sched x data).k = x.k ∧ (update comp sched x data).keyed = x.keyed ∧
      (Strict x m hs ∨ data ≠ [] → Strict (update comp sched x data) (m ++ data) hs') := by
  intro N
  induction N with
  | zero =>
    intro data hd x m hs fut hM F lf0 D
    have : data = [] := List.eq_nil_of_length_eq_zero (by omega)
    subst this
    obtain ⟨y, used, rest, e, e2, G, k1, k2, k3, k4⟩ := fill_spec M hs _ x m [] (le_refl _) F
    have hu : used = [] ∧ rest = [] := by simpa using e2.symm
    obtain ⟨rfl, rfl⟩ := hu
    rw [List.append_nil] at G hM k4
    obtain ⟨hs', G', D', l', c', j1, j2⟩ := bat_spec ok sched hp M y m hs fut (by simpa using hM) G D hML
    have eu : update comp sched x [] = updateBat comp sched y := by
      unfold update; simp only [e]; rw [if_neg (by simp)]
    rw [eu, List.append_nil]
    refine ⟨hs', G', l', D', j1.trans k1, j2.trans k2, fun h => ?_⟩
    have := k4 rfl h
    unfold Strict at this ⊢
    rw [l', c', Nat.add_zero]; exact this
  | succ N ih =>
    intro data hd x m hs fut hM F lf0 D
    obtain ⟨y, used, rest, e, e2, G, k1, k2, k3, k4⟩ := fill_spec M hs _ x m data (le_refl _) F
    obtain ⟨hs', G', D', l', c', j1, j2⟩ := bat_spec ok sched hp M y (m ++ used) hs (rest ++ fut)
      (by rw [hM, e2]; simp) G D hML
    by_cases hr : rest = []
    · subst hr
      rw [List.append_nil] at e2
      subst e2
      have S : Strict x m hs ∨ data ≠ [] → Strict (updateBat comp sched y) (m ++ data) hs' := by
        intro h
        have := k4 rfl h
        unfold Strict at this ⊢
        rw [l', c', Nat.add_zero]; exact this
      by_cases hd0 : data = []
      · subst hd0
        have eu : update comp sched x [] = updateBat comp sched y := by
          unfold update; simp only [e]; rw [if_neg (by simp)]
        rw [eu]
        exact ⟨hs', G', l', D', j1.trans k1, j2.trans k2, S⟩
      · have hlt : 0 < data.length := List.length_pos_iff.2 hd0
        have eu : update comp sched x data = update comp sched (updateBat comp sched y) [] := by
          conv_lhs => unfold update
          simp only [e]
          rw [if_pos (by simpa using hlt)]
        obtain ⟨hs2, G2, l2, D2, q1, q2, q3⟩ := ih [] (by simp) (updateBat comp sched y) (m ++ data) hs' fut
          (by simpa using hM) G' l' D'
        rw [eu]
        rw [List.append_nil] at G2 q3
        exact ⟨hs2, G2, l2, D2, q1.trans (j1.trans k1), q2.trans (j2.trans k2), fun h => q3 (Or.inl (S h))⟩
    · have h65 := k3.resolve_left hr
      have h54 : hs.length ≤ 54 := by
        apply desc_length_of_chunks 54 D
        have h1 := F.lo
        have : M.length = m.length + data.length + fut.length := by rw [hM]; simp; omega
        rw [lf0] at h1; omega
      have hup : 0 < used.length := by
        have h1 := G.lo
        have h2 := F.hi
        rw [lf0] at h2
        rw [List.length_append] at h1
        omega
      have hdl : data.length = used.length + rest.length := by rw [e2]; simp
      have eu : update comp sched x data = update comp sched (updateBat comp sched y) rest := by
        conv_lhs => unfold update
        simp only [e]
        rw [if_pos (by omega)]
      obtain ⟨hs2, G2, l2, D2, q1, q2, q3⟩ := ih rest (by omega) (updateBat comp sched y) (m ++ used) hs' fut
        (by rw [hM, e2]; simp) G' l' D'
      rw [eu]
      have e3 : m ++ data = m ++ used ++ rest := by rw [e2]; simp
      rw [e3]
      exact ⟨hs2, G2, l2, D2, q1.trans (j1.trans k1), q2.trans (j2.trans k2), fun _ => q3 (Or.inr hr)⟩

theorem update_spec (ok : CompOK comp) (sched : Ctx → List Nat → List Nat) (hp : ∀ x l, (sched x l).Perm l)
    {M : List Byte} (hML : M.length < 2 ^ 64) (data : List Byte) {x : Ctx} {m : List Byte} {hs : List Nat} {fut : List Byte}
    (hM : M = m ++ data ++ fut) (R : Ready comp M x m hs) :
    ∃ hs', Ready comp M (update comp sched x data) (m ++ data) hs' ∧
      (update comp sched x data).k = x.k ∧ (update comp sched x data).keyed = x.keyed := by
  obtain ⟨hs', a, b, c, d, e, f⟩ := update_aux ok sched hp M hML _ data (le_refl _) x m hs fut hM R.toFill R.lf0 R.desc
  exact ⟨hs', ⟨a, b, c, f (Or.inl R.strict)⟩, d, e⟩

theorem updates_spec (ok : CompOK comp) (sched : Ctx → List Nat → List Nat) (hp : ∀ x l, (sched x l).Perm l)
    {M : List Byte} (hML : M.length < 2 ^ 64) : ∀ (parts : List (List Byte)) {x : Ctx} {m : List Byte} {hs : List Nat},
    M = m ++ parts.flatten → Ready comp M x m hs →
    ∃ hs', Ready comp M (parts.foldl (update comp sched) x) M hs' ∧
      (parts.foldl (update comp sched) x).k = x.k ∧ (parts.foldl (update comp sched) x).keyed = x.keyed := by
  intro parts
  induction parts with
  | nil =>
    intro x m hs hM R
    have : M = m := by simpa using hM
    subst this
    exact ⟨hs, R, rfl, rfl⟩
  | cons d parts ih =>
    intro x m hs hM R
    rw [List.flatten_cons, ← List.append_assoc] at hM
    obtain ⟨hs1, R1, a, b⟩ := update_spec ok sched hp hML d hM R
    obtain ⟨hs2, R2, a2, b2⟩ := ih hM R1
    exact ⟨hs2, R2, a2.trans a, b2.trans b⟩

/-- After finalisation: the root's last compression is held in the context. -/
structure RootRep (x : Ctx) (o : Output) : Prop where
  k : x.k = o.cv
  blen : o.blen ≤ 64
  rem : (node x 0).remain = 0 ∧ o.blen = 0 ∨ ∃ s, (node x 0).remain = 64 * s + o.blen ∧ 0 < o.blen
  block : ((node x 0).buf.drop ((node x 0).remain - o.blen)).take 64 = o.block
  d : (node x 0).d = o.flags ||| Spec.Blake3.ROOT
  fin : x.finalize = true

theorem Ready.leafAt {M : List Byte} {x : Ctx} {m : List Byte} {hs : List Nat} (R : Ready comp M x m hs) (j : Nat) (hj : hs.length + j < 65) :
    Leaf x.keyed (node x (hs.length + j)) ((m.drop (1024 * (chunks hs + j))).take 1024) := R.leaf j hj

/-- A message of one chunk. -/
theorem final_one (ok : CompOK comp) (sched : Ctx → List Nat → List Nat) (hp : ∀ x l, (sched x l).Perm l)
    {M : List Byte} {x : Ctx} (R : Ready comp M x M []) :
    RootRep (final comp sched x) (sub comp (keyOf x) x.keyed M 0 1) ∧ (final comp sched x).t = 0 := by
  have hML : M.length ≤ 1024 := by have := R.hi; rw [R.lf0] at this; simpa [chunks] using this
  have L0 := R.leafAt 0 (by simp)
  have L1 := R.leafAt 1 (by simp)
  have e0 : (M.drop (1024 * (chunks [] + 0))).take 1024 = M := by
    simp [chunks, List.take_of_length_le hML]
  have e1 : (M.drop (1024 * (chunks [] + 1))).take 1024 = [] := by
    rw [List.drop_of_length_le (by simpa [chunks] using hML)]; rfl
  rw [e0] at L0
  rw [e1] at L1
  simp only [List.length_nil, Nat.zero_add] at L0 L1
  have hbf : x.bf = 0 := R.bf
  have hlf := R.lf0
  have ht : x.t = 0 := by have := R.tt; rw [hlf] at this; simpa [chunks] using this
  set x1 : Ctx := { setNode { x with finalize := true } 0 { node x 0 with t := x.t } with t := x.t + 1, lf := 1 } with hx1
  have w1 : WF x1 := by
    have := WF_setNode R.wf 0 { node x 0 with t := x.t }
    exact ⟨this.nl, this.nd, this.nb, this.ln, this.kl⟩
  have v1 : ∀ j, j < 65 → node x1 j = if j = 0 then { node x 0 with t := x.t } else node x j := by
    intro j hj; exact node_setNode R.wf (by omega) hj _
  have hcol : finalCollect x x.bf (NODES - x.bf) = (x1, [x.nind.getD 0 0]) := by
    rw [hbf]
    show finalCollect x 0 (64 + 1) = _
    unfold finalCollect
    simp only []
    rw [if_neg (by simp), if_pos ⟨by rw [L0.remain]; exact hML, hbf, hlf⟩]
    have : finalCollect x1 (0 + 1) 64 = (x1, []) := by
      show finalCollect x1 1 (63 + 1) = _
      unfold finalCollect
      simp only []
      rw [if_pos ⟨by rw [v1 1 (by omega), if_neg (by omega), L1.remain]; rfl, by omega⟩]
    have hx1' : x1 = { setNode { x with finalize := true } 0 { node x 0 with t := x.t } with t := x.t + 1, lf := x.lf + 1 } := by
      rw [hx1, hlf]
    simp only []
    rw [hx1'] at this
    have e := this
    simp only [] at e ⊢
    rw [hx1']
    show ((finalCollect _ (0 + 1) 64).1, _ :: (finalCollect _ (0 + 1) 64).2) = _
    rw [e]
  have hsch : sched x1 [x.nind.getD 0 0] = [x.nind.getD 0 0] := List.perm_singleton.1 (hp _ _)
  have hL : Leaf x1.keyed (node x1 0) M := by
    rw [v1 0 (by omega), if_pos rfl]
    exact ⟨L0.hashed, L0.height, L0.remain, L0.d, L0.buf, L0.le⟩
  obtain ⟨n', en, g1, g2, g3, g4⟩ := hashNode_leaf_root ok x1.k x1.keyed (node x1 0) M 0 w1.kl hL
    (by rw [v1 0 (by omega), if_pos rfl]; exact ht)
  have hj : job comp x1 (x.nind.getD 0 0) =
      { x1 with k := (chunkOutput comp (if x1.keyed then x1.k else IV) (modeOf x1.keyed) M 0).cv,
                nodes := x1.nodes.set (x.nind.getD 0 0) { n' with hashed := true, height := 0 } } := by
    unfold job
    have : x1.nodes.getD (x.nind.getD 0 0) default = node x1 0 := rfl
    rw [this, show x1.finalize = true from rfl, en]
  set x2 := job comp x1 (x.nind.getD 0 0) with hx2
  have hn2 : node x2 0 = { n' with hashed := true, height := 0 } := by
    rw [hj]; exact (node_setNode w1 (i := 0) (by omega) (by omega) _).trans (if_pos rfl)
  have hclimb : finalClimb comp x2 = { x2 with bf := 1, lf := 0 } := by
    have hb2 : x2.bf = 0 := by rw [hj]; exact hbf
    have hl2 : x2.lf = 1 := by rw [hj]
    unfold finalClimb updateClimb
    simp only [hb2, hl2]
    have hcl : climbLoop comp { x2 with bf := 0 + 1, lf := 0 } 0 = { x2 with bf := 0 + 1, lf := 0 } := by
      unfold climbLoop; rw [if_neg (by simp)]
    rw [hcl]
    simp only [Nat.zero_add, Nat.sub_self, finalMerge]
    rw [if_neg (show ¬ (1 = 2) by omega), if_neg]
    show ¬ (!(node x2 0).hashed) = true
    rw [hn2]; simp
  have hfin : final comp sched x = { ({ x2 with bf := 1, lf := 0 } : Ctx) with t := 0 } := by
    unfold final
    rw [if_neg (by rw [R.fin]; simp)]
    unfold finalBat
    rw [hcol]
    simp only []
    rw [hsch, List.foldl_cons, List.foldl_nil, ← hx2, hclimb]
  rw [hfin]
  refine ⟨?_, rfl⟩
  have ho : sub comp (keyOf x) x.keyed M 0 1 = chunkOutput comp (if x1.keyed then x1.k else IV) (modeOf x1.keyed) M 0 := by
    have := sub_leaf (comp := comp) (keyOf x) x.keyed M 0
    rw [Nat.pow_zero] at this
    rw [this]
    simp [List.take_of_length_le hML]; rfl
  rw [ho]
  set o := chunkOutput comp (if x1.keyed then x1.k else IV) (modeOf x1.keyed) M 0 with hodef
  have hnode : node { ({ x2 with bf := 1, lf := 0 } : Ctx) with t := 0 } 0 = { n' with hashed := true, height := 0 } := hn2
  have hol : o.blen = (lastBlock 64 M).length := rfl
  have hll : (lastBlock 64 M).length = M.length - (M.length - 1) / 64 * 64 := by
    unfold lastBlock; rw [List.length_drop]
  refine ⟨?_, ?_, ?_, ?_, ?_, ?_⟩
  · show x2.k = _
    rw [hj]
  · rw [hol, hll]; omega
  · rw [hnode]
    simp only [g3]
    rw [hol, hll]
    by_cases c : M.length = 0
    · left; omega
    · right; exact ⟨(M.length - 1) / 64, by omega, by omega⟩
  · rw [hnode]
    simp only [g3, g2]
    rw [hL.buf, hol, hll, show M.length - (M.length - (M.length - 1) / 64 * 64) = (M.length - 1) / 64 * 64 by omega]
    exact chunk_block_last M hML
  · rw [hnode]; exact g4
  · show x2.finalize = true
    rw [hj]; rfl

theorem chunks_le_of_desc {A : List Nat} {g : Nat} (D : Desc (A ++ [g])) : ∀ h ∈ A, 2 ^ (g + 1) ≤ 2 ^ h := by
  intro h hh
  have := (List.pairwise_append.1 D).2.2 h hh g (by simp)
  exact Nat.pow_le_pow_right (by decide) this

/-- The merging loop: the subtrees are joined from the right. -/
theorem finalMerge_spec (ok : CompOK comp) (M : List Byte) : ∀ (A : List Nat) (x : Ctx) (h r : Nat), WF x → x.finalize = false →
    x.bf = A.length + 1 → A.length < 64 → RepL comp M x 0 0 A →
    RepAt comp x A.length h (sub comp (keyOf x) x.keyed M (chunks A) r) → 0 < r → (∀ g ∈ A, r ≤ 2 ^ g) → Desc A →
    1024 * (chunks A + r - 1) < M.length →
    ∃ B h' r', let y := finalMerge comp x A.length
      WF y ∧ Frame' x y ∧ y.bf = B.length + 1 ∧ B.length ≤ 1 ∧ (A = [] → y = x) ∧ (A ≠ [] → B.length = 1) ∧
      RepL comp M y 0 0 B ∧ RepAt comp y B.length h' (sub comp (keyOf x) x.keyed M (chunks B) r') ∧
      0 < r' ∧ (∀ g ∈ B, r' ≤ 2 ^ g) ∧ chunks B + r' = chunks A + r := by
  intro A
  induction A using List.reverseRecOn with
  | nil =>
    intro x h r w hf hbf hl rl ra hr _ _ _
    exact ⟨[], h, r, w, Frame'.refl x, hbf, by simp, fun _ => rfl, fun h => absurd rfl h, trivial, ra, hr, by simp, rfl⟩
  | append_singleton A g ih =>
    intro x h r w hf hbf hl rl ra hr hle D hM
    have hlen : (A ++ [g]).length = A.length + 1 := by simp
    rw [hlen] at hbf hl ra ⊢
    unfold finalMerge
    by_cases c : A.length > 0
    · rw [if_pos c]
      simp only []
      have rl' := (RepL_append A [g] 0 0).1 rl
      simp only [Nat.zero_add] at rl'
      obtain ⟨rA, rg, -⟩ := rl'
      obtain ⟨w1, f1, g1, g2, g3, g4, g5⟩ := merge_spec ok w hf (by omega) rg ra
      have hchA : chunks (A ++ [g]) = chunks A + 2 ^ g := by rw [chunks_append]; simp [chunks]
      have hjn := sub_join (comp := comp) (keyOf x) x.keyed M (chunks A) g r hr (hle g (by simp))
        (by rw [hchA] at hM; rw [show chunks A + 2 ^ g + (r - 1) = chunks A + 2 ^ g + r - 1 by omega]; exact hM)
      rw [hchA] at g2
      rw [← hjn] at g2
      have g2' : RepAt comp (merge comp x A.length) A.length (g + 1) (sub comp (keyOf x) x.keyed M (chunks A) (2 ^ g + r)) := g2
      obtain ⟨k1, k2, k3, k4, k5⟩ := commit_spec ok w1 (by rw [f1.fin]; exact hf) (by omega) g2' g1
      set y := commit comp (merge comp x A.length) A.length with hy
      have fy := f1.trans k2
      set z : Ctx := { y with bf := y.bf - 1 } with hz
      have hkz : keyOf z = keyOf x := (keyOf_frame fy : keyOf y = keyOf x)
      have fz : Frame' x z := ⟨fy.k, fy.t, fy.keyed, fy.fin, fy.lf⟩
      have hle' : ∀ q ∈ A, 2 ^ g + r ≤ 2 ^ q := by
        intro q hq
        have h1 := chunks_le_of_desc D q hq
        have h2 := hle g (by simp)
        rw [Nat.pow_succ] at h1; omega
      obtain ⟨B, h', r', q1, q2, q3, q4, q5, q6, q7, q8, q9, q10, q11⟩ := ih z (g + 1) (2 ^ g + r)
        ⟨k1.nl, k1.nd, k1.nb, k1.ln, k1.kl⟩ (fy.fin.trans hf) (by show y.bf - 1 = _; rw [fy.bf, hbf]; omega) (by omega)
        (RepL_transferK (x := x) (y := z) fy.k fy.keyed A 0 0 0 (fun j hj => by
          show node y _ = _
          rw [Nat.zero_add, k5 j (by omega) (by omega), g3 j hj]) rA)
        (by
          show Rep comp (keyOf z) z.keyed (node y A.length) (g + 1) (sub comp (keyOf z) z.keyed M (chunks A) (2 ^ g + r))
          have := k3
          unfold RepAt at this
          rw [hkz, show z.keyed = x.keyed from fy.keyed]
          rw [keyOf_frame fy, fy.keyed] at this
          exact this)
        (by have := Nat.pow_pos (n := g) (show 0 < 2 by decide); omega) hle' (List.pairwise_append.1 D).1 (by rw [hchA] at hM; rw [← Nat.add_assoc]; exact hM)
      have hne : A ≠ [] := List.length_pos_iff.1 c
      refine ⟨B, h', r', q1, fz.trans q2, q3, q4, fun h => absurd h (by simp), fun _ => q6 hne, q7, ?_, q9, q10, ?_⟩
      · rw [hkz, show z.keyed = x.keyed from fy.keyed] at q8
        exact q8
      · rw [q11, hchA]; omega
    · rw [if_neg c]
      have hA : A = [] := List.eq_nil_of_length_eq_zero (by omega)
      subst hA
      exact ⟨[g], h, r, w, Frame'.refl x, hbf, by simp, fun h => absurd h (by simp), fun _ => rfl, rl, ra, hr, hle, rfl⟩

/-- The root is finalised. -/
theorem commit_root {x : Ctx} (w : WF x) {h : Nat} {o : Output} (r : RepAt comp x 0 h o) (hh : (node x 0).hashed = false) :
    RootRep (commit comp { x with finalize := true } 0) o := by
  have r' : Rep comp (if x.keyed then x.k else IV) x.keyed (node x 0) h o := r
  obtain ⟨n', e, g1, g2, g3, g4⟩ := hashNode_parent_root x.k x.keyed (node x 0) h o w.kl r' hh
  set y : Ctx := { x with finalize := true } with hy
  have wy : WF y := ⟨w.nl, w.nd, w.nb, w.ln, w.kl⟩
  have ec : commit comp y 0 = { setNode y 0 { n' with hashed := true } with k := o.cv } := by
    unfold commit
    have : node y 0 = node x 0 := rfl
    rw [this, show y.finalize = true from rfl, show y.k = x.k from rfl, show y.keyed = x.keyed from rfl, e]
  have hn : node (commit comp y 0) 0 = { n' with hashed := true } := by
    rw [ec]; exact (node_setNode wy (i := 0) (by omega) (by omega) _).trans (if_pos rfl)
  refine ⟨by rw [ec], by omega, Or.inr ⟨0, ?_, by omega⟩, ?_, ?_, by rw [ec]; rfl⟩
  · rw [hn, g4]; exact g2
  · rw [hn, g4]
    simp only [g2]
    rw [Nat.sub_self, List.drop_zero]; exact g1
  · rw [hn]; exact g3

theorem sub_all (key : List Word) (keyed : Bool) (M : List Byte) (n : Nat) (h : M.length ≤ 1024 * n) :
    sub comp key keyed M 0 n = Spec.Blake3.output comp key (modeOf keyed) M 0 := by
  unfold sub
  rw [Nat.mul_zero, List.drop_zero, List.take_of_length_le h]

/-- A message of several chunks. -/
theorem final_many (ok : CompOK comp) (sched : Ctx → List Nat → List Nat) (hp : ∀ x l, (sched x l).Perm l)
    {M : List Byte} (hML : M.length < 2 ^ 64) {x : Ctx} {hs : List Nat} (R : Ready comp M x M hs) (hne : hs ≠ []) :
    RootRep (final comp sched x) (Spec.Blake3.output comp (keyOf x) (modeOf x.keyed) M 0) ∧ (final comp sched x).t = 0 := by
  have hlf := R.lf0
  have hbf : x.bf = hs.length := R.bf
  have hchp : 0 < chunks hs := by
    cases hs with
    | nil => exact absurd rfl hne
    | cons h t => rw [chunks_cons]; have := Nat.pow_pos (n := h) (show 0 < 2 by decide); omega
  have hst : 1024 * chunks hs < M.length := by have := R.strict; unfold Strict at this; rw [hlf] at this; exact this (by omega)
  have hhi : M.length ≤ 1024 * (chunks hs + 1) := by have := R.hi; rw [hlf] at this; exact this
  have h54 : hs.length ≤ 54 := desc_length_of_chunks 54 R.desc (by omega)
  have hlpos : 0 < hs.length := List.length_pos_iff.2 hne
  set c := (M.drop (1024 * chunks hs)).take 1024 with hc
  have hcl : 0 < c.length := by rw [hc, List.length_take, List.length_drop]; omega
  have L0 := R.leafAt 0 (by omega)
  have L1 := R.leafAt 1 (by omega)
  rw [Nat.add_zero, Nat.add_zero, ← hc] at L0
  have e1 : (M.drop (1024 * (chunks hs + 1))).take 1024 = [] := by rw [List.drop_of_length_le hhi]; rfl
  rw [e1] at L1
  set L := hs.length with hLdef
  have ht : x.t = BitVec.ofNat 64 (chunks hs) := by have := R.tt; rw [hlf] at this; exact this
  set x1 : Ctx := { setNode x L { node x L with t := x.t } with t := x.t + 1, lf := x.lf + 1 } with hx1
  have w1 : WF x1 := by
    have := WF_setNode R.wf L { node x L with t := x.t }
    exact ⟨this.nl, this.nd, this.nb, this.ln, this.kl⟩
  have v1 : ∀ j, j < 65 → node x1 j = if j = L then { node x L with t := x.t } else node x j := by
    intro j hj; exact node_setNode R.wf (by omega) hj _
  have hcol : finalCollect x x.bf (NODES - x.bf) = (x1, [x.nind.getD L 0]) := by
    rw [hbf]
    obtain ⟨k, hk⟩ : ∃ k, NODES - L = k + 1 + 1 := ⟨63 - L, by unfold NODES; omega⟩
    rw [hk]
    unfold finalCollect
    simp only []
    rw [if_neg (by rw [L0.remain]; omega), if_neg (by omega)]
    have : finalCollect x1 (L + 1) (k + 1) = (x1, []) := by
      unfold finalCollect
      simp only []
      rw [if_pos ⟨by rw [v1 _ (by omega), if_neg (by omega), L1.remain]; rfl, by omega⟩]
    show ((finalCollect x1 (L + 1) (k + 1)).1, _ :: (finalCollect x1 (L + 1) (k + 1)).2) = _
    rw [this]
  have hsch : sched x1 [x.nind.getD L 0] = [x.nind.getD L 0] := List.perm_singleton.1 (hp _ _)
  have hf1 : x1.finalize = false := R.fin
  have hL : Leaf x1.keyed (node x1 L) c := by
    rw [v1 L (by omega), if_pos rfl]
    exact ⟨L0.hashed, L0.height, L0.remain, L0.d, L0.buf, L0.le⟩
  have hj := job_eq (comp := comp) hf1 (x.nind.getD L 0)
  set x2 := job comp x1 (x.nind.getD L 0) with hx2
  have v2 : ∀ j, j < 65 → node x2 j = if j = L then jobNode comp x1 (node x1 L) else node x1 j := by
    intro j hjj
    rw [hj]; exact node_setNode w1 (i := L) (by omega) hjj _
  have w2 : WF x2 := by
    have := WF_setNode w1 L (jobNode comp x1 (node x1 L))
    rw [hj]
    exact ⟨this.nl, this.nd, this.nb, this.ln, this.kl⟩
  have hk2 : x2.k = x.k := by rw [hj]; rfl
  have hy2 : x2.keyed = x.keyed := by rw [hj]; rfl
  have hf2 : x2.finalize = false := by rw [hj]; exact hf1
  have hko : keyOf x2 = keyOf x := by unfold keyOf; rw [hk2, hy2]
  -- all the subtrees
  have Rall : RepL comp M x2 0 0 (hs ++ [0]) := by
    rw [RepL_append]
    refine ⟨RepL_transferK (x := x) (y := x2) hk2 hy2 hs 0 0 0 (fun j hj => ?_) R.rep, ?_, trivial⟩
    · rw [Nat.zero_add, v2 j (by omega), if_neg (by omega), v1 j (by omega), if_neg (by omega)]
    · rw [Nat.zero_add, Nat.zero_add]
      unfold RepAt
      rw [v2 _ (by omega), if_pos rfl, hko, hy2, sub_leaf]
      exact rep_leaf ok w1 hf1 hL (by rw [v1 L (by omega), if_pos rfl]; exact ht)
  have hbf2 : x2.bf = L := by rw [hj]; exact hbf
  have hlf2 : x2.lf = 1 := by rw [hj]; show x.lf + 1 = 1; omega
  set z : Ctx := { x2 with bf := x2.bf + x2.lf, lf := 0 } with hz
  have hch : chunks (hs ++ [0]) = chunks hs + 1 := by rw [chunks_append]; simp [chunks]
  have hll : (hs ++ [0]).length = L + 1 := by simp [hLdef]
  have hsort : (hs ++ [0]).Pairwise (· ≥ ·) := by
    rw [List.pairwise_append]
    exact ⟨R.desc.imp (fun h => Nat.le_of_lt h), by simp, by simp⟩
  have hd1 : Desc ((hs ++ [0]).take (0 + 1)) := by
    cases (hs ++ [0]) with
    | nil => simp
    | cons a l => simp
  obtain ⟨hs', C⟩ := climb_spec ok M _ z 0 (hs ++ [0]) (le_refl _) ⟨w2.nl, w2.nd, w2.nb, w2.ln, w2.kl⟩ hf2
    (by rw [hll]; show x2.bf + x2.lf = _; rw [hbf2, hlf2]) (by omega)
    (RepL_transferK (x := x2) (y := z) rfl rfl _ 0 0 0 (fun j hj => rfl) Rall)
    (by rw [hch]; intro _; exact hst) hsort hd1
  set u := climbLoop comp z 0 with hu
  have hkey : keyOf u = keyOf x := (keyOf_frame' C.fr).trans hko
  have hkd : u.keyed = x.keyed := C.fr.keyed.trans hy2
  have hfu : u.finalize = false := C.fr.fin.trans hf2
  obtain ⟨A, g, rfl⟩ : ∃ A g, hs' = A ++ [g] :=
    ⟨_, _, (List.dropLast_append_getLast (C.ne (by simp))).symm⟩
  have hlA : (A ++ [g]).length = A.length + 1 := by simp
  have hub := C.bf
  rw [hlA] at hub
  have hchA : chunks A + 2 ^ g = chunks hs + 1 := by
    have := C.ch; rw [hch, chunks_append] at this; simpa [chunks] using this
  have rl' := (RepL_append A [g] 0 0).1 C.rep
  simp only [Nat.zero_add] at rl'
  obtain ⟨rA, rg, -⟩ := rl'
  have hlen := C.le
  rw [hlA, hll] at hlen
  obtain ⟨B, h', r', q1, q2, q3, q4, q5, q6, q7, q8, q9, q10, q11⟩ := finalMerge_spec ok M A u g (2 ^ g) C.wf hfu hub
    (by omega) rA rg (Nat.pow_pos (by decide)) (fun q hq => by
      have := chunks_le_of_desc C.desc q hq; rw [Nat.pow_succ] at this; omega) (List.pairwise_append.1 C.desc).1
      (by rw [hchA]; exact hst)
  set v := finalMerge comp u A.length with hv
  have hkv : keyOf v = keyOf x := (keyOf_frame' q2).trans hkey
  have hkdv : v.keyed = x.keyed := q2.keyed.trans hkd
  rw [hkey, hkd] at q8
  rw [hchA] at q11
  -- the root, not yet hashed
  have hroot : ∃ y hh, (if v.bf = 2 then merge comp v 0 else v) = y ∧ WF y ∧ (node y 0).hashed = false ∧
      RepAt comp y 0 hh (Spec.Blake3.output comp (keyOf x) (modeOf x.keyed) M 0) ∧ y.finalize = false := by
    cases B with
    | nil =>
      have hA : A = [] := by
        by_contra hA
        have := q6 hA
        simp at this
      have hvu := q5 hA
      rw [if_neg (by rw [q3]; simp)]
      refine ⟨v, h', rfl, q1, ?_, ?_, q2.fin.trans hfu⟩
      · rw [hvu]
        have := C.root (by rw [hA]; rfl)
        rcases this with h | h
        · rw [hll] at h; omega
        · exact h
      · have : r' = chunks hs + 1 := by simpa [chunks] using q11
        rw [this] at q8
        simp only [chunks, List.map_nil, List.sum_nil, List.length_nil] at q8
        have e := sub_all (comp := comp) (keyOf x) x.keyed M (chunks hs + 1) hhi
        unfold chunks at e
        rw [e] at q8
        exact q8
    | cons b B =>
      have hB : B = [] := by
        have := q4
        simp at this
        exact this
      subst hB
      rw [if_pos (by rw [q3]; rfl)]
      have rb : RepAt comp v 0 b (sub comp (keyOf v) v.keyed M 0 (2 ^ b)) := q7.1
      have q8' : RepAt comp v (0 + 1) h' (sub comp (keyOf x) x.keyed M (chunks [b]) r') := q8
      obtain ⟨w1, f1, g1, g2, g3, g4, g5⟩ := merge_spec ok q1 (q2.fin.trans hfu) (by omega) rb q8'
      refine ⟨_, b + 1, rfl, w1, g1, ?_, f1.fin.trans (q2.fin.trans hfu)⟩
      have hcb : chunks [b] = 2 ^ b := by simp [chunks]
      rw [hcb] at g2 q11
      have hjn := sub_join (comp := comp) (keyOf x) x.keyed M 0 b r' q9 (q10 b (by simp)) (by omega)
      rw [hkv, hkdv] at g2
      rw [Nat.zero_add] at hjn
      rw [← hjn, q11, sub_all _ _ _ _ hhi] at g2
      have g2' := g2
      unfold RepAt at g2' ⊢
      rw [keyOf_frame f1, hkv, f1.keyed, hkdv] at g2'
      rw [keyOf_frame f1, hkv, f1.keyed, hkdv]
      exact g2'
  obtain ⟨y, hh, ey, wy, hy, ry, fy⟩ := hroot
  have hfin : final comp sched x = { ({ commit comp { y with finalize := true } 0 with bf := (commit comp { y with finalize := true } 0).bf - 1 } : Ctx) with t := 0 } := by
    unfold final
    rw [if_neg (by rw [R.fin]; simp)]
    unfold finalBat
    rw [hcol]
    simp only []
    rw [hsch, List.foldl_cons, List.foldl_nil, ← hx2]
    unfold finalClimb
    simp only []
    have : updateClimb comp x2 = u := rfl
    rw [this, show u.bf - 1 = A.length by omega, ← hv, ey, if_pos (by rw [hy]; rfl)]
  rw [hfin]
  have rr := commit_root (comp := comp) wy ry hy
  exact ⟨⟨rr.k, rr.blen, rr.rem, rr.block, rr.d, rr.fin⟩, rfl⟩

end Blake3
