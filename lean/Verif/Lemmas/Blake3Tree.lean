import Verif.Lemmas.Blake3Node
import Mathlib.Data.List.Nodup
import Mathlib.Algebra.Order.BigOperators.Group.List

namespace Blake3
open Spec
open Spec.Blake3 (Output chunkOutput parentOutput)

variable {comp : List Word → List Byte → BitVec 64 → Word → Word → List Word}

/-- The order array is a permutation of the node indices. -/
structure WF (x : Ctx) : Prop where
  nl : x.nind.length = 65
  nd : x.nind.Nodup
  nb : ∀ p ∈ x.nind, p < 65
  ln : x.nodes.length = 65
  kl : x.k.length = 8

/-- Everything but the order and the nodes is the same. -/
structure Frame (x y : Ctx) : Prop where
  k : y.k = x.k
  t : y.t = x.t
  keyed : y.keyed = x.keyed
  fin : y.finalize = x.finalize
  lf : y.lf = x.lf
  bf : y.bf = x.bf

theorem Frame.refl (x : Ctx) : Frame x x := ⟨rfl, rfl, rfl, rfl, rfl, rfl⟩
theorem Frame.trans {x y z : Ctx} (a : Frame x y) (b : Frame y z) : Frame x z :=
  ⟨b.k.trans a.k, b.t.trans a.t, b.keyed.trans a.keyed, b.fin.trans a.fin, b.lf.trans a.lf, b.bf.trans a.bf⟩

theorem nind_lt {x : Ctx} (w : WF x) {i : Nat} (hi : i < 65) : x.nind.getD i 0 < 65 := by
  rw [List.getD_eq_getElem?_getD, List.getElem?_eq_getElem (by rw [w.nl]; exact hi)]
  exact w.nb _ (List.getElem_mem _)

theorem nind_inj {x : Ctx} (w : WF x) {i j : Nat} (hi : i < 65) (hj : j < 65)
    (h : x.nind.getD i 0 = x.nind.getD j 0) : i = j := by
  rw [List.getD_eq_getElem?_getD, List.getD_eq_getElem?_getD, List.getElem?_eq_getElem (by rw [w.nl]; exact hi),
    List.getElem?_eq_getElem (by rw [w.nl]; exact hj)] at h
  exact (List.Nodup.getElem_inj_iff w.nd).1 h

theorem WF_setNode {x : Ctx} (w : WF x) (i : Nat) (n : Node) : WF (setNode x i n) :=
  ⟨w.nl, w.nd, w.nb, by simpa [setNode] using w.ln, w.kl⟩

theorem getD_set' {α : Type} (l : List α) (i j : Nat) (x d : α) (hi : i < l.length) :
    (l.set i x).getD j d = if j = i then x else l.getD j d := Blake2.getD_set l i j x d hi

theorem node_setNode {x : Ctx} (w : WF x) {i j : Nat} (hi : i < 65) (hj : j < 65) (n : Node) :
    node (setNode x i n) j = if j = i then n else node x j := by
  unfold node setNode
  simp only
  rw [getD_set' _ _ _ _ _ (by rw [w.ln]; exact nind_lt w hi)]
  by_cases c : j = i
  · rw [if_pos c, if_pos (by rw [c])]
  · rw [if_neg c, if_neg (fun h => c (nind_inj w hj hi h))]

theorem node_bury {x : Ctx} (w : WF x) {ni : Nat} (hni : ni < 65) :
    WF (bury x ni) ∧ (∀ j, j < ni → node (bury x ni) j = node x j) ∧
    (∀ j, ni ≤ j → j < 64 → node (bury x ni) j = node x (j + 1)) ∧ node (bury x ni) 64 = node x ni := by
  have hl : (x.nind.take ni).length = ni := by rw [List.length_take, w.nl]; omega
  have hl2 : (x.nind.drop (ni + 1)).length = 64 - ni := by rw [List.length_drop, w.nl]; omega
  have hget : x.nind.getD ni 0 = x.nind[ni]'(by rw [w.nl]; exact hni) := by
    rw [List.getD_eq_getElem?_getD, List.getElem?_eq_getElem (by rw [w.nl]; exact hni)]; rfl
  have hperm : (x.nind.take ni ++ x.nind.drop (ni + 1) ++ [x.nind.getD ni 0]).Perm x.nind := by
    conv_rhs => rw [← List.take_append_drop ni x.nind, List.drop_eq_getElem_cons (by rw [w.nl]; exact hni)]
    rw [hget, List.append_assoc]
    exact List.Perm.append_left _ (List.perm_append_singleton _ _)
  refine ⟨⟨?_, ?_, ?_, w.ln, w.kl⟩, ?_, ?_, ?_⟩
  · exact hperm.length_eq.trans w.nl
  · exact hperm.nodup_iff.2 w.nd
  · intro p hp; exact w.nb p (hperm.mem_iff.1 hp)
  · intro j hj
    unfold node bury
    simp only
    congr 1
    rw [List.getD_eq_getElem?_getD, List.append_assoc, List.getElem?_append_left (by omega), List.getElem?_take,
      if_pos hj, List.getD_eq_getElem?_getD]
  · intro j hj hj2
    unfold node bury
    simp only
    congr 1
    rw [List.getD_eq_getElem?_getD, List.append_assoc, List.getElem?_append_right (by omega), hl,
      List.getElem?_append_left (by omega), List.getElem?_drop, List.getD_eq_getElem?_getD]
    congr 2; omega
  · unfold node bury
    simp only
    congr 1
    rw [List.getD_eq_getElem?_getD, List.getElem?_append_right (by rw [List.length_append]; omega),
      List.length_append, hl, hl2]
    have : 64 - (ni + (64 - ni)) = 0 := by omega
    rw [this]; rfl

/-- The key of the tree. -/
def keyOf (x : Ctx) : List Word := if x.keyed then x.k else IV

abbrev RepAt (comp : List Word → List Byte → BitVec 64 → Word → Word → List Word) (x : Ctx) (i h : Nat) (o : Output) : Prop :=
  Rep comp (keyOf x) x.keyed (node x i) h o

theorem commit_spec (ok : CompOK comp) {x : Ctx} (w : WF x) (hf : x.finalize = false) {i h : Nat} {o : Output}
    (hi : i < 65) (r : RepAt comp x i h o) (hh : (node x i).hashed = false) :
    WF (commit comp x i) ∧ Frame x (commit comp x i) ∧ RepAt comp (commit comp x i) i h o ∧
    (node (commit comp x i) i).hashed = true ∧ ∀ j, j < 65 → j ≠ i → node (commit comp x i) j = node x j := by
  obtain ⟨n', e, g1, g2, g3⟩ := hashNode_parent ok x.k x.keyed (node x i) h o w.kl r hh
  have ec : commit comp x i = setNode x i { n' with hashed := true } := by
    unfold commit
    rw [hf, e]
    rfl
  rw [ec]
  have hk : keyOf (setNode x i { n' with hashed := true }) = keyOf x := rfl
  refine ⟨WF_setNode w _ _, ⟨rfl, rfl, rfl, rfl, rfl, rfl⟩, ?_, ?_, ?_⟩
  · unfold RepAt
    rw [hk, node_setNode w hi hi, if_pos rfl]
    exact ⟨g1, g2, fun _ => g3, fun h => absurd h (by simp)⟩
  · rw [node_setNode w hi hi, if_pos rfl]
  · intro j hj hji
    rw [node_setNode w hi hj, if_neg hji]

/-- Commit a node unless it is hashed already. -/
theorem ensure_spec (ok : CompOK comp) {x : Ctx} (w : WF x) (hf : x.finalize = false) {i h : Nat} {o : Output}
    (hi : i < 65) (r : RepAt comp x i h o) :
    let y := if !(node x i).hashed then commit comp x i else x
    WF y ∧ Frame x y ∧ RepAt comp y i h o ∧ (node y i).hashed = true ∧ ∀ j, j < 65 → j ≠ i → node y j = node x j := by
  intro y
  cases c : (node x i).hashed with
  | true =>
    have : y = x := by simp [y, c]
    rw [this]
    exact ⟨w, Frame.refl x, r, c, fun _ _ _ => rfl⟩
  | false =>
    have : y = commit comp x i := by simp [y, c]
    rw [this]
    exact commit_spec ok w hf hi r c

theorem keyOf_frame {x y : Ctx} (f : Frame x y) : keyOf y = keyOf x := by
  unfold keyOf; rw [f.k, f.keyed]

theorem merge_spec (ok : CompOK comp) {x : Ctx} (w : WF x) (hf : x.finalize = false) {i h1 h2 : Nat} {o1 o2 : Output}
    (hi : i + 1 < 65) (r1 : RepAt comp x i h1 o1) (r2 : RepAt comp x (i + 1) h2 o2) :
    WF (merge comp x i) ∧ Frame x (merge comp x i) ∧ (node (merge comp x i) i).hashed = false ∧
    RepAt comp (merge comp x i) i (h1 + 1)
      (parentOutput (keyOf x) (modeOf x.keyed) (o1.chainingValue comp) (o2.chainingValue comp)) ∧
    (∀ j, j < i → node (merge comp x i) j = node x j) ∧
    (∀ j, i < j → j < 64 → node (merge comp x i) j = node x (j + 1)) ∧
    Leaf x.keyed (node (merge comp x i) 64) [] := by
  unfold merge
  lift_lets
  intro x1 x2 x3 x4
  obtain ⟨w1, f1, a1, b1, c1⟩ := ensure_spec ok w hf (show i < 65 by omega) r1
  have r2' : RepAt comp x1 (i + 1) h2 o2 := by
    unfold RepAt
    rw [keyOf_frame f1, f1.keyed, show node x1 (i + 1) = _ from c1 (i + 1) hi (by omega)]; exact r2
  obtain ⟨w2, f2, a2, b2, c2⟩ := ensure_spec ok w1 (by rw [f1.fin]; exact hf) hi r2'
  have a1' : RepAt comp x2 i h1 o1 := by
    unfold RepAt
    rw [keyOf_frame f2, f2.keyed, show node x2 i = _ from c2 i (by omega) (by omega)]; exact a1
  have b1' : (node x2 i).hashed = true := by
    rw [show node x2 i = _ from c2 i (by omega) (by omega)]; exact b1
  have F : Frame x x2 := f1.trans f2
  -- the joined node
  set nj : Node := { hashed := false, height := (node x2 i).height + 1, remain := 64, d := if x2.keyed then KEYED_HASH else 0, t := 0, buf := (node x2 i).buf.take 32 ++ (node x2 (i + 1)).buf.take 32 ++ (node x2 i).buf.drop 64 } with hnj
  have e3 : x3 = setNode x2 i nj := rfl
  have w3 : WF x3 := by rw [e3]; exact WF_setNode w2 _ _
  have n3 : ∀ j, j < 65 → node x3 j = if j = i then nj else node x2 j := by
    intro j hj; rw [e3]; exact node_setNode w2 (by omega) hj nj
  have e4 : x4 = setNode x3 (i + 1) (init1node x3.keyed (node x3 (i + 1))) := rfl
  have w4 : WF x4 := by rw [e4]; exact WF_setNode w3 _ _
  have n4 : ∀ j, j < 65 → node x4 j = if j = i + 1 then init1node x3.keyed (node x3 (i + 1)) else node x3 j := by
    intro j hj; rw [e4]; exact node_setNode w3 hi hj _
  obtain ⟨w5, p1, p2, p3⟩ := node_bury w4 hi
  have hjoin : node (bury x4 (i + 1)) i = nj := by
    rw [p1 i (by omega), n4 i (by omega), if_neg (by omega), n3 i (by omega), if_pos rfl]
  have F5 : Frame x (bury x4 (i + 1)) := F.trans ⟨rfl, rfl, rfl, rfl, rfl, rfl⟩
  refine ⟨w5, F5, ?_, ?_, ?_, ?_, ?_⟩
  · rw [hjoin]
  · unfold RepAt
    rw [hjoin, keyOf_frame F5, F5.keyed]
    have l1 : ((node x2 i).buf.take 32).length = 32 := by rw [List.length_take, a1'.blen]; rfl
    have l2 : ((node x2 (i + 1)).buf.take 32).length = 32 := by rw [List.length_take, a2.blen]; rfl
    refine ⟨?_, ?_, ?_, ?_⟩
    · simp only [hnj]; rw [a1'.height]
    · simp only [hnj]; rw [List.length_append, List.length_append, l1, l2, List.length_drop, a1'.blen]
    · intro h; simp [hnj] at h
    · intro _
      refine ⟨by simp [hnj], rfl, ?_, rfl, _, _, rfl, ?_⟩
      · simp only [hnj]; rw [F.keyed]; rfl
      · simp only [hnj]
        rw [List.take_append_of_le_length (by rw [List.length_append, l1, l2]),
          List.take_of_length_le (by rw [List.length_append, l1, l2]), a1'.cv b1', a2.cv b2, wordBytes_eq, wordBytes_eq]
  · intro j hj
    rw [p1 j (by omega), n4 j (by omega), if_neg (by omega), n3 j (by omega), if_neg (by omega),
      show node x2 j = _ from c2 j (by omega) (by omega), show node x1 j = _ from c1 j (by omega) (by omega)]
  · intro j hj hj2
    rw [p2 j (by omega) hj2, n4 _ (by omega), if_neg (by omega), n3 _ (by omega), if_neg (by omega),
      show node x2 (j + 1) = _ from c2 (j + 1) (by omega) (by omega), show node x1 (j + 1) = _ from c1 (j + 1) (by omega) (by omega)]
  · rw [p3, n4 _ (by omega), if_pos rfl]
    have hkk : x3.keyed = x.keyed := F.keyed
    rw [hkk]
    exact ⟨rfl, rfl, rfl, rfl, rfl, Nat.zero_le _⟩

/-! ### The tree -/

/-- Number of chunks under a list of complete subtrees. -/
def chunks (hs : List Nat) : Nat := (hs.map (2 ^ ·)).sum

theorem chunks_append (a b : List Nat) : chunks (a ++ b) = chunks a + chunks b := by simp [chunks]
theorem chunks_cons (h : Nat) (b : List Nat) : chunks (h :: b) = 2 ^ h + chunks b := by simp [chunks]

/-- The output of the subtree with `n` chunks from chunk `s` on. -/
def sub (comp : List Word → List Byte → BitVec 64 → Word → Word → List Word) (key : List Word) (keyed : Bool)
    (M : List Byte) (s n : Nat) : Output :=
  Spec.Blake3.output comp key (modeOf keyed) ((M.drop (1024 * s)).take (1024 * n)) s

theorem leftLen_eq (n h : Nat) (h1 : 1024 * 2 ^ h < n) (h2 : n ≤ 1024 * 2 ^ (h + 1)) :
    Spec.Blake3.leftLen n = 1024 * 2 ^ h := by
  unfold Spec.Blake3.leftLen
  have : Nat.log2 ((n - 1) / 1024) = h := by
    rw [Nat.log2_eq_iff (by have := Nat.pow_pos (n := h) (show 0 < 2 by decide); omega)]
    constructor
    · omega
    · rw [Nat.pow_succ] at h2 ⊢
      omega
  rw [this]

/-- A subtree of `2^h` chunks on the left and `r` chunks on the right. -/
theorem sub_join (key : List Word) (keyed : Bool) (M : List Byte) (s h r : Nat) (hr : 0 < r) (hr2 : r ≤ 2 ^ h)
    (hM : 1024 * (s + 2 ^ h + (r - 1)) < M.length) :
    sub comp key keyed M s (2 ^ h + r) = parentOutput key (modeOf keyed)
      ((sub comp key keyed M s (2 ^ h)).chainingValue comp)
      ((sub comp key keyed M (s + 2 ^ h) r).chainingValue comp) := by
  have hp : 0 < 2 ^ h := Nat.pow_pos (by decide)
  have hlen : ((M.drop (1024 * s)).take (1024 * (2 ^ h + r))).length = min (1024 * (2 ^ h + r)) (M.length - 1024 * s) := by
    rw [List.length_take, List.length_drop]
  have hL : Spec.Blake3.leftLen ((M.drop (1024 * s)).take (1024 * (2 ^ h + r))).length = 1024 * 2 ^ h := by
    apply leftLen_eq
    · rw [hlen]; omega
    · rw [hlen, Nat.pow_succ]; omega
  conv_lhs => unfold sub Spec.Blake3.output
  rw [dif_neg (by rw [hlen]; omega), hL]
  unfold sub
  rw [List.take_take, List.drop_take, List.drop_drop]
  congr 3
  · congr 1; omega
  · congr 2
    · omega
    · congr 1; omega
  · omega

/-- The nodes from place `idx` on stand for complete subtrees of heights `hs` from chunk `s` on. -/
def RepL (comp : List Word → List Byte → BitVec 64 → Word → Word → List Word) (M : List Byte) (x : Ctx) :
    (idx s : Nat) → List Nat → Prop
  | _, _, [] => True
  | idx, s, h :: hs => RepAt comp x idx h (sub comp (keyOf x) x.keyed M s (2 ^ h)) ∧ RepL comp M x (idx + 1) (s + 2 ^ h) hs

theorem RepL_append {M : List Byte} {x : Ctx} : ∀ (a b : List Nat) (idx s : Nat),
    RepL comp M x idx s (a ++ b) ↔ RepL comp M x idx s a ∧ RepL comp M x (idx + a.length) (s + chunks a) b := by
  intro a
  induction a with
  | nil => intro b idx s; simp [RepL, chunks]
  | cons h a ih =>
    intro b idx s
    simp only [List.cons_append, RepL, ih, List.length_cons, chunks_cons]
    rw [show idx + 1 + a.length = idx + (a.length + 1) by omega, show s + 2 ^ h + chunks a = s + (2 ^ h + chunks a) by omega]
    exact and_assoc.symm

theorem RepL_transfer {M : List Byte} {x y : Ctx} (f : Frame x y) : ∀ (hs : List Nat) (ix iy s : Nat),
    (∀ j, j < hs.length → node y (iy + j) = node x (ix + j)) → RepL comp M x ix s hs → RepL comp M y iy s hs := by
  intro hs
  induction hs with
  | nil => intro ix iy s _ _; trivial
  | cons h hs ih =>
    intro ix iy s hn hr
    refine ⟨?_, ih (ix + 1) (iy + 1) _ ?_ hr.2⟩
    · have := hr.1
      unfold RepAt at this ⊢
      have e := hn 0 (by simp)
      simp only [Nat.add_zero] at e
      rw [keyOf_frame f, f.keyed, e]; exact this
    · intro j hj
      have := hn (j + 1) (by rw [List.length_cons]; omega)
      rw [show iy + 1 + j = iy + (j + 1) by omega, show ix + 1 + j = ix + (j + 1) by omega]; exact this

/-- Strictly decreasing heights. -/
abbrev Desc (hs : List Nat) : Prop := hs.Pairwise (· > ·)

theorem desc_lt {hs : List Nat} {h : Nat} (d : Desc (h :: hs)) : chunks hs < 2 ^ h := by
  induction hs generalizing h with
  | nil => simp [chunks]
  | cons g hs ih =>
    rw [chunks_cons]
    have h1 : h > g := (List.pairwise_cons.1 d).1 g (by simp)
    have h2 := ih (List.pairwise_cons.1 d).2
    have : 2 ^ (g + 1) ≤ 2 ^ h := Nat.pow_le_pow_right (by decide) h1
    rw [Nat.pow_succ] at this; omega

theorem desc_length {hs : List Nat} (n : Nat) (d : Desc hs) (hb : ∀ h ∈ hs, h < n) : hs.length ≤ n := by
  induction n generalizing hs with
  | zero =>
    cases hs with
    | nil => simp
    | cons h t => exact absurd (hb h (by simp)) (by omega)
  | succ n ih =>
    cases hs with
    | nil => simp
    | cons h t =>
      have := ih (List.pairwise_cons.1 d).2 (fun g hg => by
        have := (List.pairwise_cons.1 d).1 g hg
        have := hb h (by simp); omega)
      rw [List.length_cons]; omega

theorem desc_length_of_chunks {hs : List Nat} (n : Nat) (d : Desc hs) (hc : chunks hs < 2 ^ n) : hs.length ≤ n := by
  apply desc_length n d
  intro h hh
  have : 2 ^ h ≤ chunks hs := by
    unfold chunks
    exact List.single_le_sum (by intros; omega) _ (List.mem_map_of_mem hh)
  exact (Nat.pow_lt_pow_iff_right (by decide)).1 (lt_of_le_of_lt this hc)

end Blake3
