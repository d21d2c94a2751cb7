import Verif.Model.K12
import Verif.Spec.K12
import Verif.Lemmas.CShake

namespace K12
open Spec.K12 (chunks cv lengthEncode lenBytes finalNode turbo)
open Sponge (update final read)

theorem zeroBuf_length : zeroBuf.length = 8192 := by unfold zeroBuf; exact List.length_replicate

theorem take_set_succ (l : List Byte) (r : Nat) (b : Byte) (h : r < l.length) : (l.set r b).take (r + 1) = l.take r ++ [b] := by
  induction l generalizing r with
  | nil => simp at h
  | cons a l ih =>
    cases r with
    | zero => rfl
    | succ r =>
      rw [List.set_cons_succ, List.take_succ_cons, List.take_succ_cons, ih r (by simpa using h)]; rfl

theorem take_app_le (l m : List Byte) (n : Nat) (h : n ≤ l.length) : l.take n = (l ++ m).take n := (List.take_append_of_le_length h).symm

theorem drop_take_app (l m : List Byte) (a n : Nat) (h : a + n ≤ l.length) : (l.drop a).take n = ((l ++ m).drop a).take n := by
  rw [List.drop_append_of_le_length (by omega)]
  exact take_app_le _ _ _ (by rw [List.length_drop]; omega)

theorem aux_le (t k r L : Nat) (h : (t + 1) * 8192 ≤ k * 8192) (hdm : 8192 * k + r = L) : t * 8192 + 8192 ≤ L := by omega

/-! ### Pieces. -/

theorem chunks_append (n : Nat) (hn : 0 < n) (A B : List Byte) (h : n ∣ A.length) : chunks n (A ++ B) = chunks n A ++ chunks n B := by
  obtain ⟨q, hq⟩ := h
  unfold chunks
  have e1 : (A.length + (n - 1)) / n = q := by
    rw [hq, Nat.mul_add_div hn, Nat.div_eq_of_lt (by omega)]; rfl
  have e2 : ((A ++ B).length + (n - 1)) / n = q + (B.length + (n - 1)) / n := by
    rw [List.length_append, hq, Nat.add_assoc, Nat.mul_add_div hn]
  rw [e1, e2, List.range_add, List.map_append, List.map_map]
  congr 1
  · apply List.map_congr_left
    intro i hi
    have hi' := List.mem_range.mp hi
    have hle : i * n + n ≤ A.length := by
      rw [hq, Nat.mul_comm n q]
      have := Nat.mul_le_mul_right n (Nat.succ_le_of_lt hi')
      rw [Nat.succ_mul] at this
      exact this
    rw [List.drop_append_of_le_length (by omega), List.take_append_of_le_length (by rw [List.length_drop]; omega)]
  · apply List.map_congr_left
    intro i _
    simp only [Function.comp]
    have e3 : (q + i) * n = A.length + i * n := by rw [hq, Nat.add_mul, Nat.mul_comm q n]
    rw [e3, ← List.drop_drop, List.drop_left]

theorem chunks_nil (n : Nat) (hn : 0 < n) : chunks n [] = [] := by
  unfold chunks
  rw [List.length_nil, Nat.zero_add, Nat.div_eq_of_lt (by omega)]; rfl

/-! ### Sponge and padding byte. -/

theorem update_lopad (perm : List Byte → List Byte) (d : List Byte) (s : Sponge.Ctx) (l : Byte) :
    update perm { s with lopad := l } d = { update perm s d with lopad := l } := by
  induction d generalizing s with
  | nil => rfl
  | cons b d ih =>
    show update perm (Sponge.absorbByte perm { s with lopad := l } b) d = _
    have : Sponge.absorbByte perm { s with lopad := l } b = { Sponge.absorbByte perm s b with lopad := l } := by
      unfold Sponge.absorbByte
      simp only []
      split <;> rfl
    rw [this, ih]
    rfl

theorem update_append' (perm : List Byte → List Byte) (s : Sponge.Ctx) (a b : List Byte) : update perm s (a ++ b) = update perm (update perm s a) b :=
  (Sponge.update_append perm s a b).symm

theorem update_rate (perm : List Byte → List Byte) (d : List Byte) (s : Sponge.Ctx) : (update perm s d).rate = s.rate := by
  induction d generalizing s with
  | nil => rfl
  | cons b d ih =>
    show (update perm (Sponge.absorbByte perm s b) d).rate = _
    rw [ih]
    unfold Sponge.absorbByte
    simp only []
    split <;> rfl

theorem read_length (perm : List Byte → List Byte) (n : Nat) (s : Sponge.Ctx) : (read perm s n).1.length = n := by
  induction n generalizing s with
  | zero => rfl
  | succ n ih => simp only [Sponge.read, List.length_cons, ih]

/-- The node after the job holds the chaining value. -/
theorem hashNode_take (perm : List Byte → List Byte) (rate : Nat) (hr : 0 < rate) (n : Node) :
    (hashNode perm rate n).buf.take (hashNode perm rate n).filled = cv perm rate (n.buf.take n.filled) := by
  unfold hashNode
  simp only []
  rw [List.take_append_of_le_length (by rw [read_length]), List.take_of_length_le (by rw [read_length])]
  have h := Sponge.final_fresh perm (Sponge.init rate 0x0B 0x80 200) (n.buf.take n.filled) hr rfl rfl
  rw [h, Sponge.read_zero perm _ _ hr rfl]
  rfl

/-! ### Jobs in any order. -/

theorem job_fold (perm : List Byte → List Byte) (l : List Nat) (hl : l.Nodup) (x : Ctx) :
    l.foldl (job perm) x = { x with inodes := fun t => if t ∈ l then hashNode perm x.fin.rate (x.inodes t) else x.inodes t } := by
  induction l generalizing x with
  | nil => simp
  | cons a l ih =>
    rw [List.foldl_cons, ih (List.nodup_cons.mp hl).2]
    unfold job Ctx.setNode
    simp only []
    congr 1
    funext t
    by_cases h1 : t = a
    · subst h1
      have : t ∉ l := (List.nodup_cons.mp hl).1
      simp [this]
    · by_cases h2 : t ∈ l <;> simp [h1, h2]

theorem cv2final_fold (perm : List Byte → List Byte) (k : Nat) (x : Ctx) :
    (List.range k).foldl (fun x t => (({ x with fin := update perm x.fin ((x.inodes t).buf.take (x.inodes t).filled) } : Ctx)).setNode t Node.empty) x =
      { x with fin := update perm x.fin ((List.range k).flatMap fun t => (x.inodes t).buf.take (x.inodes t).filled),
               inodes := fun t => if t < k then Node.empty else x.inodes t } := by
  induction k with
  | zero => simp; rfl
  | succ k ih =>
    rw [List.range_succ, List.foldl_append, ih]
    simp only [List.foldl_cons, List.foldl_nil, Ctx.setNode, List.flatMap_append, List.flatMap_singleton]
    rw [if_neg (by omega), update_append']
    congr 1
    funext t
    by_cases h1 : t = k
    · subst h1; simp
    · by_cases h2 : t < k
      · simp [h1, h2, Nat.lt_succ_of_lt h2]
      · have : ¬ t < k + 1 := by omega
        simp [h1, h2, this]

/-- The pieces of `P` are in the nodes. -/
def Nodes (x : Ctx) (P : List Byte) : Prop :=
  ∀ t, (x.inodes t).buf.length = 8192 ∧ (x.inodes t).filled = min 8192 (P.length - t * 8192) ∧ (x.inodes t).buf.take (x.inodes t).filled = (P.drop (t * 8192)).take 8192

theorem flush_eq (perm : List Byte → List Byte) (sched : Ctx → List Nat → List Nat) (hs : ∀ x l, (sched x l).Perm l) (x : Ctx) (hr : 0 < x.fin.rate) (P : List Byte) (hn : Nodes x P) :
    flush perm sched x = { x with fin := update perm x.fin ((List.range x.ifilled).flatMap fun t => cv perm x.fin.rate ((P.drop (t * 8192)).take 8192)),
                                  inodes := fun t => if t < x.ifilled then Node.empty else x.inodes t, ifilled := 0 } := by
  unfold flush
  rw [job_fold perm _ ((hs x _).nodup_iff.mpr List.nodup_range) x]
  unfold cv2final
  rw [cv2final_fold]
  simp only []
  congr 1
  · funext t
    by_cases h : t < x.ifilled
    · rw [if_pos h, if_pos h]
    · rw [if_neg h, if_neg h, if_neg (fun hc => h (List.mem_range.mp ((hs x _).mem_iff.mp hc)))]
  · congr 1
    rw [List.flatMap_def, List.flatMap_def]
    congr 1
    apply List.map_congr_left
    intro t ht
    rw [if_pos ((hs x _).mem_iff.mpr ht), hashNode_take perm _ hr, (hn t).2.2]

theorem nodes_empty (x : Ctx) (k : Nat) (P : List Byte) (hn : Nodes x P) (hk : P.length ≤ k * 8192) (y : Ctx) (hy : y.inodes = fun t => if t < k then Node.empty else x.inodes t) : Nodes y [] := by
  intro t
  rw [hy]
  by_cases h : t < k
  · simp only [if_pos h]
    refine ⟨zeroBuf_length, ?_, ?_⟩
    · rw [List.length_nil, Nat.zero_sub]; rfl
    · rw [List.drop_nil, List.take_nil]; rfl
  · simp only [if_neg h]
    have h1 := hn t
    have h2 : P.length - t * 8192 = 0 := by
      have := Nat.mul_le_mul_right 8192 (Nat.le_of_not_lt h)
      omega
    rw [h2] at h1
    refine ⟨h1.1, by simpa using h1.2.1, ?_⟩
    rw [h1.2.1]; simp

/-! ### The running state. -/

def oct : List Byte := [0x03, 0, 0, 0, 0, 0, 0, 0]

section
variable (perm : List Byte → List Byte) (rate : Nat)

/-- Long input `S`: everything up to `F` has been hashed into the final node, `P` is in the nodes. -/
structure Long (x : Ctx) (S : List Byte) : Prop where
  tot : x.total = S.length
  nf : x.finalized = false
  rest : 8192 ≤ S.length ∧ ∃ F P, S.drop 8192 = F ++ P ∧ 8192 ∣ F.length ∧ P.length < 64 * 8192 ∧ x.ifilled = P.length / 8192 ∧ Nodes x P ∧
    x.fin = { update perm (Sponge.init rate 0x07 0x80 200) (S.take 8192 ++ oct ++ (chunks 8192 F).flatMap (cv perm rate)) with lopad := 0x06 }

structure Short (x : Ctx) (S : List Byte) : Prop where
  tot : x.total = S.length
  nf : x.finalized = false
  len : S.length ≤ 8192
  ifl : x.ifilled = 0
  nodes : Nodes x []
  fin : x.fin = update perm (Sponge.init rate 0x07 0x80 200) S

def Rel (x : Ctx) (S : List Byte) : Prop := (S.length ≤ 8192 → Short perm rate x S) ∧ (8192 < S.length → Long perm rate x S)

theorem long_rate {x : Ctx} {S : List Byte} (h : Long perm rate x S) : x.fin.rate = rate := by
  obtain ⟨_, _, _, F, P, _, _, _, _, _, hf⟩ := h
  rw [hf]
  show (update perm _ _).rate = _
  rw [update_rate]; rfl

variable (sched : Ctx → List Nat → List Nat) (hs : ∀ x l, (sched x l).Perm l) (hr : 0 < rate)
include hs hr

theorem push_long {x : Ctx} {S : List Byte} (h : Long perm rate x S) (b : Byte) : Long perm rate (pushByte perm sched x b) (S ++ [b]) := by
  have hrate := long_rate perm rate h
  obtain ⟨h1, h2, h3, F, P, h4, h5, h6, h7, h8, h9⟩ := h
  have hdm := Nat.div_add_mod P.length 8192
  have hml := Nat.mod_lt P.length (show 0 < 8192 by omega)
  obtain ⟨k, hk⟩ : ∃ k, k = P.length / 8192 := ⟨_, rfl⟩
  obtain ⟨r, hrr⟩ : ∃ r, r = P.length % 8192 := ⟨_, rfl⟩
  rw [← hk, ← hrr] at hdm
  rw [← hrr] at hml
  have hk7 : x.ifilled = k := by rw [h7, hk]
  obtain ⟨hb1, hb2, hb3⟩ := h8 k
  have hfk : (x.inodes k).filled = r := by rw [hb2]; omega
  -- the state before the test for a flush
  obtain ⟨n, hn⟩ : ∃ n : Node, n = { buf := (x.inodes k).buf.set r b, filled := r + 1 } := ⟨_, rfl⟩
  obtain ⟨y, hy⟩ : ∃ y : Ctx, y = { x.setNode k n with total := x.total + 1, ifilled := (P.length + 1) / 8192 } := ⟨_, rfl⟩
  have hif : (P.length + 1) / 8192 = if r + 1 = 8192 then k + 1 else k := by
    split <;> omega
  have hstep : pushByte perm sched x b = if y.ifilled = NODES then flush perm sched y else y := by
    unfold pushByte
    simp only [hk7, hfk]
    rw [← hn]
    have e3 : (x.setNode k n).ifilled = k := hk7
    have e2 : n.filled = r + 1 := by rw [hn]
    rw [e3]
    by_cases hc : r + 1 = 8192
    · rw [if_pos hc] at hif
      have ey : y = { inodes := (x.setNode k n).inodes, fin := (x.setNode k n).fin, total := x.total + 1, clen := (x.setNode k n).clen, ifilled := k + 1, finalized := (x.setNode k n).finalized } := by
        rw [hy, hif]
      rw [if_pos hc, ← ey]
    · rw [if_neg hc] at hif
      have ey : y = { inodes := (x.setNode k n).inodes, fin := (x.setNode k n).fin, total := x.total + 1, clen := (x.setNode k n).clen, ifilled := k, finalized := (x.setNode k n).finalized } := by
        rw [hy, hif]
      rw [if_neg hc, ← ey]
  have hnodes : Nodes y (P ++ [b]) := by
    intro t
    have hyt : y.inodes t = if t = k then n else x.inodes t := by rw [hy]; rfl
    rw [hyt]
    by_cases ht : t = k
    · subst ht
      simp only [if_true]
      rw [hn]
      simp only [List.length_set, List.length_append, List.length_singleton]
      refine ⟨hb1, by omega, ?_⟩
      have hlen : (P.drop (t * 8192)).length = r := by rw [List.length_drop]; omega
      have hPle : t * 8192 ≤ P.length := by omega
      have hPt : (P.drop (t * 8192) ++ [b]).length ≤ 8192 := by rw [List.length_append, hlen, List.length_singleton]; omega
      rw [List.drop_append_of_le_length hPle, List.take_of_length_le hPt]
      rw [hfk, List.take_of_length_le (by omega : (P.drop (t * 8192)).length ≤ 8192)] at hb3
      rw [take_set_succ _ r b (by omega), hb3]
    · rw [if_neg ht]
      obtain ⟨g1, g2, g3⟩ := h8 t
      refine ⟨g1, ?_, ?_⟩
      · rw [g2, List.length_append, List.length_singleton]
        by_cases hlt : t < k
        · have : (t + 1) * 8192 ≤ k * 8192 := Nat.mul_le_mul_right _ hlt
          omega
        · have : (k + 1) * 8192 ≤ t * 8192 := Nat.mul_le_mul_right _ (by omega)
          omega
      · rw [g3]
        by_cases hlt : t < k
        · have : (t + 1) * 8192 ≤ k * 8192 := Nat.mul_le_mul_right _ hlt
          exact drop_take_app P [b] _ _ (aux_le t k r _ this hdm)
        · have : (k + 1) * 8192 ≤ t * 8192 := Nat.mul_le_mul_right _ (by omega)
          rw [List.drop_eq_nil_of_le (by omega), List.drop_eq_nil_of_le (by rw [List.length_append, List.length_singleton]; omega)]
  have hyf : y.fin = x.fin := by rw [hy]; rfl
  have hyt : y.total = (S ++ [b]).length := by rw [hy, List.length_append]; show x.total + 1 = _; rw [h1]; rfl
  have hynf : y.finalized = false := by rw [hy]; exact h2
  have hyi : y.ifilled = (P ++ [b]).length / 8192 := by rw [hy, List.length_append]; rfl
  have hdrop : (S ++ [b]).drop 8192 = F ++ (P ++ [b]) := by rw [List.drop_append_of_le_length h3, h4, List.append_assoc]
  have htake : (S ++ [b]).take 8192 = S.take 8192 := List.take_append_of_le_length h3
  have hlen2 : (P ++ [b]).length = P.length + 1 := by rw [List.length_append]; rfl
  rw [hstep]
  by_cases hfull : y.ifilled = NODES
  · rw [if_pos hfull]
    have hPl : (P ++ [b]).length = 64 * 8192 := by
      have : (P ++ [b]).length / 8192 = 64 := by rw [← hyi, hfull]; rfl
      omega
    rw [flush_eq perm sched hs y (by rw [hyf, hrate]; exact hr) (P ++ [b]) hnodes]
    refine ⟨hyt, hynf, ?_, F ++ (P ++ [b]), [], ?_, ?_, ?_, rfl, ?_, ?_⟩
    · rw [List.length_append]; omega
    · rw [hdrop, List.append_nil]
    · rw [List.length_append, hPl]; exact Nat.dvd_add h5 ⟨64, rfl⟩
    · simp
    · exact nodes_empty y y.ifilled (P ++ [b]) hnodes (by rw [hfull, hPl]; exact Nat.le_refl _) _ rfl
    · show update perm y.fin _ = _
      rw [hyf, h9, update_lopad, htake]
      congr 1
      rw [← update_append', chunks_append 8192 (by omega) F (P ++ [b]) h5, List.flatMap_append, List.append_assoc (_ ++ _)]
      congr 1
      congr 1
      have hrr : (update perm (Sponge.init rate 0x07 0x80 200) (S.take 8192 ++ oct ++ (chunks 8192 F).flatMap (cv perm rate))).rate = rate := by
        rw [update_rate]; rfl
      have e5 : chunks 8192 (P ++ [b]) = (List.range 64).map fun i => ((P ++ [b]).drop (i * 8192)).take 8192 := by
        unfold chunks; rw [hPl]
      rw [e5, List.flatMap_map, hfull, hrr]
      rfl
  · rw [if_neg hfull]
    have hPl : (P ++ [b]).length < 64 * 8192 := by
      have h10 : (P ++ [b]).length / 8192 ≠ 64 := by rw [← hyi]; exact hfull
      omega
    exact ⟨hyt, hynf, by rw [List.length_append]; omega, F, P ++ [b], hdrop, h5, hPl, hyi, hnodes, by rw [hyf, h9, htake]⟩

theorem pushes_long {x : Ctx} {S : List Byte} (h : Long perm rate x S) (d : List Byte) : Long perm rate (d.foldl (pushByte perm sched) x) (S ++ d) := by
  induction d generalizing x S with
  | nil => simpa using h
  | cons b d ih =>
    rw [List.foldl_cons]
    have := ih (push_long perm rate sched hs hr h b)
    rwa [List.append_assoc] at this

omit hs hr in
theorem start_fin (n : Nat) (hn : 0 < n) (f : Sponge.Ctx) (S : List Byte) (hle : S.length ≤ n) (h : f = update perm (Sponge.init rate 0x07 0x80 200) S) :
    update perm { f with lopad := 0x06 } oct = { update perm (Sponge.init rate 0x07 0x80 200) (S.take n ++ oct ++ (chunks n []).flatMap (cv perm rate)) with lopad := 0x06 } := by
  rw [List.take_of_length_le hle, chunks_nil n hn, List.flatMap_nil, List.append_nil, update_append', update_lopad, ← h]

omit hs hr in
theorem long_intro (x : Ctx) (S : List Byte) (htot : x.total = S.length) (hnf : x.finalized = false) (h0 : 8192 ≤ S.length) (F P : List Byte)
    (h1 : S.drop 8192 = F ++ P) (h2 : 8192 ∣ F.length) (h3 : P.length < 64 * 8192) (h4 : x.ifilled = P.length / 8192) (h5 : Nodes x P)
    (h6 : x.fin = { update perm (Sponge.init rate 0x07 0x80 200) (S.take 8192 ++ oct ++ (chunks 8192 F).flatMap (cv perm rate)) with lopad := 0x06 }) :
    Long perm rate x S := ⟨htot, hnf, h0, F, P, h1, h2, h3, h4, h5, h6⟩

omit hs hr in
/-- Starting the tree part. -/
theorem start_long {x : Ctx} {S : List Byte} (h : Short perm rate x S) (h0 : S.length = 8192) :
    Long perm rate { x with fin := update perm { x.fin with lopad := 0x06 } oct } S := by
  have hle : S.length ≤ 8192 := Nat.le_of_eq h0
  obtain ⟨y, hy⟩ : ∃ y : Ctx, y = { x with fin := update perm { x.fin with lopad := 0x06 } oct } := ⟨_, rfl⟩
  have e1 : y.total = x.total := by rw [hy]
  have e2 : y.finalized = x.finalized := by rw [hy]
  have e3 : y.ifilled = x.ifilled := by rw [hy]
  have e4 : y.inodes = x.inodes := by rw [hy]
  have e5 : y.fin = update perm { x.fin with lopad := 0x06 } oct := by rw [hy]
  have h5 : Nodes y [] := by unfold Nodes; rw [e4]; exact h.nodes
  rw [← hy]
  apply long_intro perm rate y S (e1.trans h.tot) (e2.trans h.nf) (Nat.le_of_eq h0.symm) [] []
  · rw [List.drop_eq_nil_of_le hle]; rfl
  · exact Nat.dvd_zero _
  · decide
  · rw [e3, h.ifl]; decide
  · exact h5
  · rw [e5, start_fin perm rate 8192 (by decide) x.fin S hle h.fin]

theorem update_rel {x : Ctx} {S : List Byte} (h : Rel perm rate x S) (d : List Byte) : Rel perm rate (update4 perm sched x d) (S ++ d) := by
  by_cases hd : d = []
  · subst hd
    unfold update4
    simp only [List.length_nil, ne_eq, not_true_eq_false, false_and, if_false, List.foldl_nil, List.append_nil]
    exact h
  have hdl : d.length ≠ 0 := fun hc => hd (List.length_eq_zero_iff.mp hc)
  by_cases hlong : 8192 < S.length
  · have hl := h.2 hlong
    have e : update4 perm sched x d = d.foldl (pushByte perm sched) x := by
      unfold update4
      have h1 : ¬ (d.length ≠ 0 ∧ x.total < 8192) := by rw [hl.tot]; omega
      simp only [if_neg h1]
      rw [if_neg (by rw [hl.tot]; omega)]
    rw [e]
    exact ⟨fun hc => by rw [List.length_append] at hc; omega, fun _ => pushes_long perm rate sched hs hr hl d⟩
  · have hsh := h.1 (by omega)
    by_cases h8 : S.length = 8192
    · have e : update4 perm sched x d = d.foldl (pushByte perm sched) { x with fin := update perm { x.fin with lopad := 0x06 } oct } := by
        unfold update4
        have h1 : ¬ (d.length ≠ 0 ∧ x.total < 8192) := by rw [hsh.tot]; omega
        simp only [if_neg h1]
        rw [if_pos ⟨hdl, by rw [hsh.tot, h8]⟩]
        unfold oct; rfl
      rw [e]
      exact ⟨fun hc => by rw [List.length_append] at hc; omega, fun _ => pushes_long perm rate sched hs hr (start_long perm rate hsh h8) d⟩
    · obtain ⟨u, hu⟩ : ∃ u, u = if d.length + x.total > 8192 then 8192 - x.total else d.length := ⟨_, rfl⟩
      obtain ⟨y, hy⟩ : ∃ y : Ctx, y = { x with fin := update perm x.fin (d.take u), total := x.total + u } := ⟨_, rfl⟩
      have htot := hsh.tot
      have hul : u ≤ d.length := by rw [hu]; split <;> omega
      have hsy : Short perm rate y (S ++ d.take u) := by
        rw [hy]
        refine ⟨?_, hsh.nf, ?_, hsh.ifl, hsh.nodes, ?_⟩
        · show x.total + u = _
          rw [List.length_append, List.length_take, htot]; omega
        · rw [List.length_append, List.length_take, hu]; split <;> omega
        · show update perm x.fin _ = _
          rw [hsh.fin, update_append']
      have e : update4 perm sched x d = (d.drop u).foldl (pushByte perm sched)
          (if (d.drop u).length ≠ 0 ∧ y.total = 8192 then { y with fin := update perm { y.fin with lopad := 0x06 } oct } else y) := by
        unfold update4
        have h1 : d.length ≠ 0 ∧ x.total < 8192 := ⟨hdl, by rw [htot]; omega⟩
        simp only [if_pos h1]
        rw [← hu, hy]; unfold oct; simp only []
      rw [e]
      have hsplit : S ++ d = (S ++ d.take u) ++ d.drop u := by rw [List.append_assoc, List.take_append_drop]
      by_cases hrest : d.drop u = []
      · rw [hrest, if_neg (by simp)]
        rw [hsplit, hrest, List.append_nil]
        simp only [List.foldl_nil]
        exact ⟨fun _ => hsy, fun hc => by have := hsy.len; omega⟩
      · have hu8 : u < d.length := by
          by_contra hc
          exact hrest (List.drop_eq_nil_of_le (by omega))
        have hy8 : (S ++ d.take u).length = 8192 := by
          rw [List.length_append, List.length_take]
          rw [hu] at hu8 ⊢
          split at hu8 <;> split <;> omega
        rw [if_pos ⟨fun hc => hrest (List.length_eq_zero_iff.mp hc), by rw [hsy.tot, hy8]⟩, hsplit]
        have hdp : 0 < (d.drop u).length := by rw [List.length_drop]; omega
        exact ⟨fun hc => by rw [List.length_append, hy8] at hc; omega,
          fun _ => pushes_long perm rate sched hs hr (start_long perm rate hsy hy8) _⟩

end

theorem rel_init (perm : List Byte → List Byte) (rate : Nat) : Rel perm rate (init rate) [] := by
  refine ⟨fun _ => ⟨rfl, rfl, by simp, rfl, ?_, rfl⟩, fun h => by simp at h⟩
  intro t
  refine ⟨zeroBuf_length, ?_, ?_⟩
  · rw [List.length_nil, Nat.zero_sub]; rfl
  · rw [List.drop_nil, List.take_nil]; rfl


/-! ### Encodings. -/

theorem lenBytes_of (n l : Nat) (h1 : n < 256 ^ (l + 1)) (h2 : 256 ^ l ≤ n) : lenBytes n = l + 1 := by
  have h0 : 0 < 256 ^ l := Nat.pow_pos (by omega)
  unfold lenBytes
  rw [if_neg (by omega)]
  unfold Spec.nbytes
  rw [(Nat.log_eq_iff (Or.inr ⟨by omega, by omega⟩)).mpr ⟨h2, h1⟩]

theorem encLen_eq (n : Nat) (h : n < 2 ^ 24) : encLen n 8 0 = some (lenBytes n) := by
  by_cases h0 : n < 1
  · have : n = 0 := by omega
    subst this; decide
  by_cases h1 : n < 256
  · rw [lenBytes_of n 0 (by omega) (by omega)]
    have a1 : n ≥ 1 := by omega
    have a2 : ¬ n ≥ 256 := by omega
    simp [encLen, a1, a2]
  by_cases h2 : n < 65536
  · rw [lenBytes_of n 1 (by omega) (by omega)]
    have a1 : n ≥ 1 := by omega
    have a2 : n ≥ 256 := by omega
    have a3 : ¬ n ≥ 65536 := by omega
    simp [encLen, a1, a2, a3]
  · rw [lenBytes_of n 2 (by omega) (by omega)]
    have a1 : n ≥ 1 := by omega
    have a2 : n ≥ 256 := by omega
    have a3 : n ≥ 65536 := by omega
    have a4 : ¬ n ≥ 16777216 := by omega
    simp [encLen, a1, a2, a3, a4]

theorem encode_eq (n : Nat) (h : n < 2 ^ 24) : encode n = some (lengthEncode n) := by
  unfold encode
  rw [encLen_eq n h]
  simp only [Option.map_some, lengthEncode, Spec.beBytes]
  congr 2
  apply List.map_congr_left
  intro i _
  rw [Nat.mul_comm _ 8, Nat.pow_mul]

theorem encode_none (n : Nat) (h : 2 ^ 24 ≤ n) : encode n = none := by
  have a1 : n ≥ 1 := by omega
  have a2 : n ≥ 256 := by omega
  have a3 : n ≥ 65536 := by omega
  have a4 : n ≥ 16777216 := by omega
  unfold encode
  simp [encLen, a1, a2, a3, a4]

/-! ### `clen`. -/

theorem foldl_inv {α β γ : Type} (g : α → γ) (f : α → β → α) (h : ∀ a b, g (f a b) = g a) (l : List β) (a : α) : g (l.foldl f a) = g a := by
  induction l generalizing a with
  | nil => rfl
  | cons b l ih => rw [List.foldl_cons, ih, h]

theorem push_clen (perm : List Byte → List Byte) (sched : Ctx → List Nat → List Nat) (x : Ctx) (b : Byte) : (pushByte perm sched x b).clen = x.clen := by
  have hfl : ∀ y : Ctx, (flush perm sched y).clen = y.clen := by
    intro y
    unfold flush cv2final
    show Ctx.clen (List.foldl _ _ _) = _
    refine Eq.trans (foldl_inv Ctx.clen _ ?_ _ _) (foldl_inv Ctx.clen (job perm) (fun _ _ => rfl) _ _)
    intro a b; rfl
  unfold pushByte
  simp only []
  split <;> split <;> first | rfl | (rw [hfl]; rfl)

theorem update_clen (perm : List Byte → List Byte) (sched : Ctx → List Nat → List Nat) (x : Ctx) (d : List Byte) : (update4 perm sched x d).clen = x.clen := by
  unfold update4
  simp only []
  rw [foldl_inv Ctx.clen _ (push_clen perm sched)]
  split <;> split <;> first | rfl | (split <;> rfl)

/-! ### Finishing. -/

section
variable (perm : List Byte → List Byte) (rate : Nat) (sched : Ctx → List Nat → List Nat) (hs : ∀ x l, (sched x l).Perm l) (hr : 0 < rate)
include hs hr

theorem updates_rel (ds : List (List Byte)) {x : Ctx} {S : List Byte} (h : Rel perm rate x S) :
    Rel perm rate (ds.foldl (update4 perm sched) x) (S ++ ds.flatten) := by
  induction ds generalizing x S with
  | nil => simpa using h
  | cons d ds ih =>
    rw [List.foldl_cons, List.flatten_cons, ← List.append_assoc]
    exact ih (update_rel perm rate sched hs hr h d)

omit hs hr in
theorem rel_clen {x : Ctx} {S : List Byte} (h : Rel perm rate x S) (c : Nat) : Rel perm rate { x with clen := c } S :=
  ⟨fun hc => let a := h.1 hc; ⟨a.tot, a.nf, a.len, a.ifl, a.nodes, a.fin⟩, fun hc => let a := h.2 hc; ⟨a.tot, a.nf, a.rest⟩⟩

theorem feeds_rel (ds : List (List Byte)) {x : Ctx} {S : List Byte} (h : Rel perm rate x S) :
    Rel perm rate (ds.foldl (feedC perm sched) x) (S ++ ds.flatten) ∧ (ds.foldl (feedC perm sched) x).clen = x.clen + ds.flatten.length := by
  induction ds generalizing x S with
  | nil => exact ⟨by simpa using h, rfl⟩
  | cons d ds ih =>
    rw [List.foldl_cons, List.flatten_cons, ← List.append_assoc]
    have hd : Rel perm rate (feedC perm sched x d) (S ++ d) := by
      unfold feedC
      exact update_rel perm rate sched hs hr (rel_clen perm rate h _) d
    have h2 := ih hd
    refine ⟨h2.1, ?_⟩
    rw [h2.2]
    unfold feedC
    rw [update_clen, List.length_append]
    show x.clen + d.length + _ = _
    omega

theorem bytes_rel (e : List Byte) {x : Ctx} {S : List Byte} (h : Rel perm rate x S) :
    Rel perm rate (e.foldl (fun x c => update4 perm sched x [c]) x) (S ++ e) := by
  induction e generalizing x S with
  | nil => simpa using h
  | cons b e ih =>
    rw [List.foldl_cons, show S ++ b :: e = (S ++ [b]) ++ e by simp]
    exact ih (update_rel perm rate sched hs hr h [b])

theorem updates_clen (ds : List (List Byte)) (x : Ctx) : (ds.foldl (update4 perm sched) x).clen = x.clen :=
  foldl_inv Ctx.clen _ (update_clen perm sched) ds x

/-- The last flush hashes all the pieces. -/
theorem last_flush {x : Ctx} {S : List Byte} (h : Long perm rate x S) :
    (flush perm sched (if (x.inodes x.ifilled).filled > 0 then { x with ifilled := x.ifilled + 1 } else x)).fin =
      { update perm (Sponge.init rate 0x07 0x80 200) (S.take 8192 ++ oct ++ (chunks 8192 (S.drop 8192)).flatMap (cv perm rate)) with lopad := 0x06 } ∧
    (flush perm sched (if (x.inodes x.ifilled).filled > 0 then { x with ifilled := x.ifilled + 1 } else x)).total = x.total ∧
    (∀ t, ((flush perm sched (if (x.inodes x.ifilled).filled > 0 then { x with ifilled := x.ifilled + 1 } else x)).inodes t).buf.length = 8192) := by
  have hrate := long_rate perm rate h
  obtain ⟨h1, h2, h3, F, P, h4, h5, h6, h7, h8, h9⟩ := h
  obtain ⟨y, hy⟩ : ∃ y : Ctx, y = if (x.inodes x.ifilled).filled > 0 then { x with ifilled := x.ifilled + 1 } else x := ⟨_, rfl⟩
  have hdm := Nat.div_add_mod P.length 8192
  have hml := Nat.mod_lt P.length (show 0 < 8192 by omega)
  have hfill : (x.inodes x.ifilled).filled = P.length % 8192 := by
    rw [(h8 _).2.1, h7]; omega
  have y1 : y.fin = x.fin := by rw [hy]; split <;> rfl
  have y2 : y.total = x.total := by rw [hy]; split <;> rfl
  have y3 : y.inodes = x.inodes := by rw [hy]; split <;> rfl
  have y4 : y.ifilled = (P.length + (8192 - 1)) / 8192 := by
    rw [hy, hfill]
    split
    · show x.ifilled + 1 = _
      rw [h7]; omega
    · rw [h7]; omega
  have hny : Nodes y P := by unfold Nodes; rw [y3]; exact h8
  rw [← hy, flush_eq perm sched hs y (by rw [y1, hrate]; exact hr) P hny]
  refine ⟨?_, y2, ?_⟩
  · have e1 : update perm y.fin ((List.range y.ifilled).flatMap fun t => cv perm y.fin.rate ((P.drop (t * 8192)).take 8192)) =
        { update perm (Sponge.init rate 0x07 0x80 200) (S.take 8192 ++ oct ++ (chunks 8192 (S.drop 8192)).flatMap (cv perm rate)) with lopad := 0x06 } := by
      have e2 : ((List.range y.ifilled).flatMap fun t => cv perm y.fin.rate ((P.drop (t * 8192)).take 8192)) = (chunks 8192 P).flatMap (cv perm rate) := by
        unfold chunks
        rw [List.flatMap_map, y4, y1, hrate]
      rw [e2, y1, h9, update_lopad, h4, chunks_append 8192 (by decide) F P h5, List.flatMap_append, ← List.append_assoc (_ ++ _), ← update_append']
    exact e1
  · intro t
    by_cases ht : t < y.ifilled
    · show (if t < y.ifilled then Node.empty else y.inodes t).buf.length = _
      rw [if_pos ht]; exact zeroBuf_length
    · show (if t < y.ifilled then Node.empty else y.inodes t).buf.length = _
      rw [if_neg ht]; exact (hny t).1

end

theorem upd_bytes (perm : List Byte → List Byte) (e : List Byte) (x : Ctx) :
    e.foldl (fun (x : Ctx) c => { x with fin := update perm x.fin [c] }) x = { x with fin := update perm x.fin e } := by
  induction e generalizing x with
  | nil => rfl
  | cons b e ih => rw [List.foldl_cons, ih]; rfl

/-- A finished context: `st` is the state after the last permutation, `pos` bytes have been read. -/
structure Fin (perm : List Byte → List Byte) (rate : Nat) (st : List Byte) (pos : Nat) (x : Ctx) : Prop where
  fz : x.finalized = true
  rt : x.fin.rate = rate
  sv : (x.inodes 0).buf.take 200 = st
  sta : x.fin.state = perm^[pos / rate] st
  fl : x.fin.filled = pos % rate

theorem absorb_length (perm : List Byte → List Byte) (hp : ∀ s, s.length = 200 → (perm s).length = 200) (r : Nat) (st m : List Byte) (h : st.length = 200) :
    (Spec.absorb perm r st m).length = 200 := by
  unfold Spec.absorb
  generalize Spec.blocks r m = bs
  induction bs generalizing st with
  | nil => exact h
  | cons b bs ih => rw [List.foldl_cons]; exact ih _ (hp _ (by rw [Spec.length_xorOnto, h]))

/-- The end of `K12_Final2`. -/
theorem finish_fin (perm : List Byte → List Byte) (hp : ∀ s, s.length = 200 → (perm s).length = 200) (rate : Nat) (hr : 0 < rate) (x : Ctx) (m : List Byte) (lo : Byte)
    (h : x.fin = { update perm (Sponge.init rate 0x07 0x80 200) m with lopad := lo }) (hb : (x.inodes 0).buf.length = 8192) (y : Ctx)
    (hy : y = ({ x with fin := final perm x.fin }).setNode 0 { filled := (x.inodes 0).filled, buf := (final perm x.fin).state ++ (x.inodes 0).buf.drop 200 }) :
    Fin perm rate (Spec.absorb perm rate (List.replicate 200 0) (m ++ Spec.spongePad rate lo 0x80 (m.length % rate))) 0 { y with finalized := true } := by
  have e : final perm x.fin = { Sponge.init rate lo 0x80 200 with state := Spec.absorb perm rate (List.replicate 200 0) (m ++ Spec.spongePad rate lo 0x80 (m.length % rate)), filled := 0, finalized := true } := by
    rw [h, ← update_lopad]
    exact Sponge.final_fresh perm (Sponge.init rate lo 0x80 200) m hr rfl rfl
  have hl := absorb_length perm hp rate (List.replicate 200 0) (m ++ Spec.spongePad rate lo 0x80 (m.length % rate)) List.length_replicate
  generalize Spec.absorb perm rate (List.replicate 200 0) (m ++ Spec.spongePad rate lo 0x80 (m.length % rate)) = st at *
  have y1 : y.fin = final perm x.fin := by rw [hy]; rfl
  have y2 : (y.inodes 0).buf = (final perm x.fin).state ++ (x.inodes 0).buf.drop 200 := by rw [hy]; rfl
  have e1 : (final perm x.fin).state = st := by rw [e]
  refine ⟨rfl, ?_, ?_, ?_, ?_⟩
  · show y.fin.rate = rate
    rw [y1, e]; rfl
  · show (y.inodes 0).buf.take 200 = st
    rw [y2, e1, List.take_append_of_le_length (Nat.le_of_eq hl.symm), List.take_of_length_le (Nat.le_of_eq hl)]
  · show y.fin.state = _
    rw [y1, e1, Nat.zero_div]; rfl
  · show y.fin.filled = _
    rw [y1, e, Nat.zero_mod]

theorem stream_eq_turbo (perm : List Byte → List Byte) (rate : Nat) (D : Byte) (m : List Byte) (k : Nat) :
    turbo perm rate D m k = Spec.squeezeByte perm rate (Spec.absorb perm rate (List.replicate 200 0) (m ++ Spec.spongePad rate D 0x80 (m.length % rate))) k := rfl

theorem final2_fin (perm : List Byte → List Byte) (hp : ∀ s, s.length = 200 → (perm s).length = 200) (rate : Nat) (sched : Ctx → List Nat → List Nat)
    (hs : ∀ x l, (sched x l).Perm l) (hr : 0 < rate) (x : Ctx) (M C : List Byte) (h : Rel perm rate x (M ++ C)) (hcl : x.clen = C.length)
    (hC : C.length < 2 ^ 24) (hS : (chunks 8192 (M ++ C ++ lengthEncode C.length)).length - 1 < 2 ^ 24) :
    ∃ y st, final2 perm sched x = some y ∧ Fin perm rate st 0 y ∧ ∀ k, Spec.squeezeByte perm rate st k = Spec.K12.stream perm rate M C k := by
  have hnf : x.finalized = false := by
    by_cases hc : (M ++ C).length ≤ 8192
    · exact (h.1 hc).nf
    · exact (h.2 (by omega)).nf
  have hb := bytes_rel perm rate sched hs hr (lengthEncode C.length) h
  unfold final2
  simp only [hnf, Bool.false_eq_true, if_false, hcl, encode_eq _ hC, Option.bind_eq_bind, Option.bind_some]
  obtain ⟨z, hz⟩ : ∃ z, z = (lengthEncode C.length).foldl (fun x c => update4 perm sched x [c]) x := ⟨_, rfl⟩
  rw [← hz] at hb ⊢
  obtain ⟨S, hSS⟩ : ∃ S, S = M ++ C ++ lengthEncode C.length := ⟨_, rfl⟩
  rw [← hSS] at hb hS
  unfold Spec.K12.stream
  simp only []
  rw [← hSS]
  by_cases hshort : S.length ≤ 8192
  · have hsh := hb.1 hshort
    rw [if_pos (by rw [hsh.tot]; exact hshort)]
    refine ⟨_, _, rfl, finish_fin perm hp rate hr z S 0x07 (by rw [hsh.fin]; exact update_lopad perm S (Sponge.init rate 0x07 0x80 200) 0x07) (hsh.nodes 0).1 _ rfl, ?_⟩
    intro k
    rw [if_pos hshort]; rfl
  · have hlg := hb.2 (by omega)
    rw [if_neg (by rw [hlg.tot]; exact hshort)]
    obtain ⟨f1, f2, f3⟩ := last_flush perm rate sched hs hr hlg
    obtain ⟨w, hw⟩ : ∃ w, w = flush perm sched (if (z.inodes z.ifilled).filled > 0 then { z with ifilled := z.ifilled + 1 } else z) := ⟨_, rfl⟩
    rw [← hw] at f1 f2 f3 ⊢
    have hn : (w.total + 8191) / 8192 - 1 = (chunks 8192 S).length - 1 := by
      rw [f2, hlg.tot]; unfold chunks; rw [List.length_map, List.length_range]
    rw [hn, encode_eq _ hS]
    simp only [Option.bind_some, upd_bytes, Option.pure_def]
    refine ⟨_, _, rfl, finish_fin perm hp rate hr { w with fin := update perm (update perm (update perm w.fin (lengthEncode ((chunks 8192 S).length - 1))) [0xff]) [0xff] } (finalNode perm rate S) 0x06 ?_ (f3 0) _ rfl, ?_⟩
    · show update perm (update perm (update perm w.fin (lengthEncode ((chunks 8192 S).length - 1))) [0xff]) [0xff] = _
      have e : ∀ (s : Sponge.Ctx) (A : List Byte), update perm (update perm (update perm { s with lopad := 0x06 } A) [0xff]) [0xff] = { update perm s (A ++ [0xff, 0xff]) with lopad := 0x06 } := by
        intro s A
        rw [← update_append', ← update_append', update_lopad]; rfl
      rw [f1, e, ← update_append']
      unfold finalNode
      simp only [List.append_assoc]
      rfl
    · intro k
      rw [if_neg hshort]; rfl

end K12
