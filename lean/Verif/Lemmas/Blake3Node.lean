import Verif.Lemmas.Blake3

namespace Blake3
open Spec
open Spec.Blake3 (Output chunkOutput parentOutput)

variable {comp : List Word → List Byte → BitVec 64 → Word → Word → List Word}

/-- The mode flag of a context. -/
def modeOf (keyed : Bool) : Word := if keyed then KEYED_HASH else 0

/-- A node collecting the bytes `c` of a chunk. -/
structure Leaf (keyed : Bool) (n : Node) (c : List Byte) : Prop where
  hashed : n.hashed = false
  height : n.height = 0
  remain : n.remain = c.length
  d : n.d = modeOf keyed
  buf : n.buf = c ++ List.replicate (1024 - c.length) 0
  le : c.length ≤ 1024

/-- Chaining value after the first `t` blocks of a chunk. -/
def cvAfter (comp : List Word → List Byte → BitVec 64 → Word → Word → List Word) (key : List Word) (mode : Word)
    (c : List Byte) (ct : Nat) (t : Nat) : List Word :=
  ((List.range t).map fun i => (c.drop (i * 64)).take 64).zipIdx.foldl (fun h p =>
      (comp h p.1 (BitVec.ofNat 64 ct) 64 (mode ||| if p.2 = 0 then Spec.Blake3.CHUNK_START else 0)).take 8) key

theorem cvAfter_succ (key : List Word) (mode : Word) (c : List Byte) (ct t : Nat) :
    cvAfter comp key mode c ct (t + 1) = (comp (cvAfter comp key mode c ct t) ((c.drop (t * 64)).take 64)
      (BitVec.ofNat 64 ct) 64 (mode ||| if t = 0 then Spec.Blake3.CHUNK_START else 0)).take 8 := by
  unfold cvAfter
  rw [List.range_succ, List.map_append, List.zipIdx_append, List.foldl_append]
  simp

theorem chunk_block_full (c : List Byte) (k t : Nat) (h : (t + 1) * 64 ≤ c.length) :
    ((c ++ List.replicate k (0 : Byte)).drop (t * 64)).take 64 = (c.drop (t * 64)).take 64 := by
  rw [List.drop_append_of_le_length (by omega), List.take_append_of_le_length (by rw [List.length_drop]; omega)]

theorem chunk_block_last (c : List Byte) (h : c.length ≤ 1024) :
    ((c ++ List.replicate (1024 - c.length) (0 : Byte)).drop ((c.length - 1) / 64 * 64)).take 64 =
      lastBlock 64 c ++ List.replicate (64 - (lastBlock 64 c).length) 0 := by
  have h1 : (c.length - 1) / 64 * 64 ≤ c.length := by omega
  rw [List.drop_append_of_le_length h1]
  unfold lastBlock
  rw [List.take_append, List.take_of_length_le (by rw [List.length_drop]; omega), List.take_replicate]
  congr 2
  rw [List.length_drop]; omega

/-- The loop of `hash1node` on a leaf, from block `t` on. -/
theorem hashLoop_leaf (ok : CompOK comp) (key : List Word) (mode : Word) (c : List Byte) (ct : Nat)
    (hc : c.length ≤ 1024) (fin : Bool) : ∀ (j t : Nat), t + j = (c.length - 1) / 64 → ∀ (h : List Word) (n : Node),
    h.take 8 = cvAfter comp key mode c ct t → n.height = 0 → n.d = mode → n.t = BitVec.ofNat 64 ct →
    n.remain + t * 64 = c.length → n.buf = c ++ List.replicate (1024 - c.length) 0 →
    ∃ h' n', hashLoop comp fin (16 - t) t h n = (h', n', fin) ∧ n'.height = 0 ∧ n'.t = n.t ∧ n'.buf = n.buf ∧
      n'.hashed = n.hashed ∧
      (fin = true → h'.take 8 = (chunkOutput comp key mode c ct).cv ∧ n'.remain = c.length ∧
        n'.d = (chunkOutput comp key mode c ct).flags ||| Spec.Blake3.ROOT) ∧
      (fin = false → h'.length = 16 ∧ h'.take 8 = (chunkOutput comp key mode c ct).chainingValue comp ∧ n'.remain = 0) := by
  intro j
  induction j with
  | zero =>
    intro t ht h n hh hheight hd hct hrem hbuf
    have ht' : t = (c.length - 1) / 64 := by omega
    have hle : n.remain ≤ 64 := by omega
    obtain ⟨f, hf⟩ : ∃ f, 16 - t = f + 1 := ⟨15 - t, by omega⟩
    have hlast : (lastBlock 64 c).length = n.remain := by
      unfold lastBlock; rw [List.length_drop]; omega
    have hcv : cvAfter comp key mode c ct t = (chunkOutput comp key mode c ct).cv := by
      rw [ht']; rfl
    have hfl : (if n.remain ≤ 64 ∧ n.height = 0 then (if n.height > 0 then
        (if t = 0 ∧ n.height = 0 then n.d ||| CHUNK_START else n.d) ||| PARENT
        else if t = 0 ∧ n.height = 0 then n.d ||| CHUNK_START else n.d) ||| CHUNK_END
        else if n.height > 0 then
        (if t = 0 ∧ n.height = 0 then n.d ||| CHUNK_START else n.d) ||| PARENT
        else if t = 0 ∧ n.height = 0 then n.d ||| CHUNK_START else n.d) =
        (chunkOutput comp key mode c ct).flags := by
      rw [if_pos ⟨hle, hheight⟩, if_neg (by omega), hd]
      unfold chunkOutput
      simp only
      have : initBlocks 64 c = [] ↔ t = 0 := by
        rw [ht']
        unfold initBlocks
        rw [List.map_eq_nil_iff, List.range_eq_nil]
      by_cases c0 : t = 0
      · rw [if_pos ⟨c0, hheight⟩, if_pos (this.2 c0)]; rfl
      · rw [if_neg (fun h => c0 h.1), if_neg (fun h => c0 (this.1 h)), show (0 : Word) = 0#32 from rfl, BitVec.or_zero]; rfl
    rw [hf]
    unfold hashLoop
    simp only []
    cases fin with
    | true =>
      rw [if_pos ⟨hle, rfl⟩]
      refine ⟨_, _, rfl, hheight, rfl, rfl, rfl, fun _ => ⟨by rw [hh, hcv], hrem, ?_⟩, fun h => absurd h (by simp)⟩
      simp only
      rw [hfl]; rfl
    | false =>
      rw [if_neg (by simp)]
      have hb : (if n.remain < 64 then n.remain else 64) = n.remain := by split <;> omega
      rw [if_pos (by rw [hb]; simp)]
      refine ⟨_, _, rfl, hheight, rfl, rfl, rfl, fun h => absurd h (by simp), fun _ => ⟨ok.len _ _ _ _ _, ?_, by simp only; rw [hb]; simp⟩⟩
      unfold Spec.Blake3.Output.chainingValue
      rw [hfl, hb, hbuf, ht', chunk_block_last c hc, ← ok.take h, hh, hcv, hct, ← hlast]
      rfl
  | succ j ih =>
    intro t ht h n hh hheight hd hct hrem hbuf
    obtain ⟨f, hf⟩ : ∃ f, 16 - t = f + 1 := ⟨15 - t, by omega⟩
    have hgt : 64 < n.remain := by omega
    rw [hf]
    unfold hashLoop
    simp only []
    rw [if_neg (show ¬ (n.remain ≤ 64 ∧ fin = true) by omega), if_neg (show ¬ n.remain < 64 by omega),
      if_neg (show ¬ n.remain - 64 = 0 by omega), if_neg (show ¬ (n.remain ≤ 64 ∧ n.height = 0) by omega),
      if_neg (show ¬ n.height > 0 by omega)]
    have hf' : f = 16 - (t + 1) := by omega
    rw [hf']
    have := ih (t + 1) (by omega)
      (comp h ((n.buf.drop (t * 64)).take 64) n.t (BitVec.ofNat 32 64)
        (if t = 0 ∧ n.height = 0 then n.d ||| CHUNK_START else n.d)) { n with remain := n.remain - 64 } ?_ hheight
      hd hct (by simp only; omega) hbuf
    · exact this
    · rw [cvAfter_succ, ← hh, ok.take, hbuf, chunk_block_full c _ t (by omega), hct, hd]
      by_cases c0 : t = 0
      · rw [if_pos ⟨c0, hheight⟩, if_pos c0]; rfl
      · rw [if_neg (fun h => c0 h.1), if_neg c0, show (0 : Word) = 0#32 from rfl, BitVec.or_zero]; rfl

/-- `hash1node` on a leaf that is not the root. -/
theorem hashNode_leaf (ok : CompOK comp) (k : List Word) (keyed : Bool) (n : Node) (c : List Byte) (ct : Nat)
    (hk : k.length = 8) (hn : Leaf keyed n c) (hct : n.t = BitVec.ofNat 64 ct) :
    ∃ n', hashNode comp k keyed false n = (k, n') ∧ n'.height = 0 ∧ n'.buf.length = 1024 ∧
      n'.buf.take 32 = wordBytes ((chunkOutput comp (if keyed then k else IV) (modeOf keyed) c ct).chainingValue comp) := by
  have hkey : ((if keyed then k else IV) ++ List.replicate 8 (0 : Word)).take 8 = if keyed then k else IV := by
    rw [List.take_append_of_le_length, List.take_of_length_le]
    · split <;> simp [hk, IV]
    · split <;> simp [hk, IV]
  obtain ⟨h', n', e, g1, g2, g3, g4, g5, g6⟩ := hashLoop_leaf ok (if keyed then k else IV) (modeOf keyed) c ct hn.le false
    ((c.length - 1) / 64) 0 (by omega) ((if keyed then k else IV) ++ List.replicate 8 0) n
    (by rw [hkey]; rfl) hn.height hn.d hct (by rw [hn.remain]; omega) hn.buf
  obtain ⟨l1, l2, l3⟩ := g6 rfl
  unfold hashNode
  simp only []
  rw [Nat.sub_zero] at e
  rw [e]
  have hb : n.buf.length = 1024 := by rw [hn.buf, List.length_append, List.length_replicate]; have := hn.le; omega
  have hw : (wordBytes (h'.take 16)).length = 64 := by
    rw [wordBytes_eq, length_leBytes, List.length_take, l1]; rfl
  refine ⟨_, rfl, g1, ?_, ?_⟩
  · simp only
    rw [List.length_append, hw, List.length_drop, g3, hb]
  · simp only
    rw [List.take_append_of_le_length (by omega), ← l2]
    have : h'.take 16 = h'.take 8 ++ h'.drop 8 := by
      rw [List.take_of_length_le (by omega), List.take_append_drop]
    rw [this]
    unfold wordBytes
    rw [List.flatMap_append]
    have hl : (wordBytes (h'.take 8)).length = 32 := by
      rw [wordBytes_eq, length_leBytes, List.length_take, l1]; rfl
    exact List.take_left' hl

/-- `hash1node` on the only leaf of a one-chunk message. -/
theorem hashNode_leaf_root (ok : CompOK comp) (k : List Word) (keyed : Bool) (n : Node) (c : List Byte) (ct : Nat)
    (hk : k.length = 8) (hn : Leaf keyed n c) (hct : n.t = BitVec.ofNat 64 ct) :
    ∃ n', hashNode comp k keyed true n = ((chunkOutput comp (if keyed then k else IV) (modeOf keyed) c ct).cv, n') ∧
      n'.height = 0 ∧ n'.buf = n.buf ∧ n'.remain = c.length ∧
      n'.d = (chunkOutput comp (if keyed then k else IV) (modeOf keyed) c ct).flags ||| Spec.Blake3.ROOT := by
  have hkey : ((if keyed then k else IV) ++ List.replicate 8 (0 : Word)).take 8 = if keyed then k else IV := by
    rw [List.take_append_of_le_length, List.take_of_length_le]
    · split <;> simp [hk, IV]
    · split <;> simp [hk, IV]
  obtain ⟨h', n', e, g1, g2, g3, g4, g5, g6⟩ := hashLoop_leaf ok (if keyed then k else IV) (modeOf keyed) c ct hn.le true
    ((c.length - 1) / 64) 0 (by omega) ((if keyed then k else IV) ++ List.replicate 8 0) n
    (by rw [hkey]; rfl) hn.height hn.d hct (by rw [hn.remain]; omega) hn.buf
  obtain ⟨l1, l2, l3⟩ := g5 rfl
  unfold hashNode
  simp only []
  rw [Nat.sub_zero] at e
  rw [e]
  simp only []
  rw [l1]
  exact ⟨n', rfl, g1, g3, l2, l3⟩

/-- A node that stands for the tree output `o`: either already compressed, or a parent whose two chaining
values are in its buffer. -/
structure Rep (comp : List Word → List Byte → BitVec 64 → Word → Word → List Word) (key : List Word) (keyed : Bool)
    (n : Node) (h : Nat) (o : Output) : Prop where
  height : n.height = h
  blen : n.buf.length = 1024
  cv : n.hashed = true → n.buf.take 32 = wordBytes (o.chainingValue comp)
  parent : n.hashed = false → 0 < n.height ∧ n.remain = 64 ∧ n.d = modeOf keyed ∧ n.t = 0 ∧
    ∃ l r, o = parentOutput key (modeOf keyed) l r ∧ n.buf.take 64 = Spec.Blake3.leBytes l ++ Spec.Blake3.leBytes r

theorem hashLoop_parent (fin : Bool) (h : List Word) (n : Node) (p1 : 0 < n.height) (p2 : n.remain = 64) :
    hashLoop comp fin 16 0 h n =
      if fin then (h, { n with remain := 64, d := n.d ||| PARENT ||| ROOT }, true)
      else (comp h (n.buf.take 64) n.t (BitVec.ofNat 32 64) (n.d ||| PARENT), { n with remain := 0 }, false) := by
  have p3 : n.height ≠ 0 := by omega
  unfold hashLoop
  cases fin <;> simp [p1, p2, p3]

/-- `hash1node` on a parent that is not the root. -/
theorem hashNode_parent (ok : CompOK comp) (k : List Word) (keyed : Bool) (n : Node) (h : Nat) (o : Output)
    (hk : k.length = 8) (hn : Rep comp (if keyed then k else IV) keyed n h o) (hh : n.hashed = false) :
    ∃ n', hashNode comp k keyed false n = (k, n') ∧ n'.height = h ∧ n'.buf.length = 1024 ∧
      n'.buf.take 32 = wordBytes (o.chainingValue comp) := by
  have hkey : ((if keyed then k else IV) ++ List.replicate 8 (0 : Word)).take 8 = if keyed then k else IV := by
    rw [List.take_append_of_le_length, List.take_of_length_le]
    · split <;> simp [hk, IV]
    · split <;> simp [hk, IV]
  obtain ⟨p1, p2, p3, p4, l, r, p5, p6⟩ := hn.parent hh
  unfold hashNode
  simp only []
  rw [hashLoop_parent _ _ _ p1 p2, if_neg (by simp)]
  simp only []
  set hh' := comp ((if keyed then k else IV) ++ List.replicate 8 0) (n.buf.take 64) n.t
    (BitVec.ofNat 32 64) (n.d ||| PARENT) with hdef
  have hl16 : hh'.length = 16 := ok.len _ _ _ _ _
  have hw : (wordBytes (hh'.take 16)).length = 64 := by
    rw [wordBytes_eq, length_leBytes, List.length_take, hl16]; rfl
  have hcv : hh'.take 8 = o.chainingValue comp := by
    rw [hdef, ← ok.take, hkey, p5]
    unfold Spec.Blake3.Output.chainingValue parentOutput
    simp only []
    rw [p6, p4, p3]; rfl
  refine ⟨_, rfl, hn.height, ?_, ?_⟩
  · simp only
    rw [List.length_append, hw, List.length_drop, hn.blen]
  · simp only
    rw [List.take_append_of_le_length (by omega), ← hcv]
    have : hh'.take 16 = hh'.take 8 ++ hh'.drop 8 := by
      rw [List.take_of_length_le (by omega), List.take_append_drop]
    rw [this]
    unfold wordBytes
    rw [List.flatMap_append]
    have hl : (wordBytes (hh'.take 8)).length = 32 := by
      rw [wordBytes_eq, length_leBytes, List.length_take, hl16]; rfl
    exact List.take_left' hl

/-- `hash1node` on the root parent. -/
theorem hashNode_parent_root (k : List Word) (keyed : Bool) (n : Node) (h : Nat) (o : Output)
    (hk : k.length = 8) (hn : Rep comp (if keyed then k else IV) keyed n h o) (hh : n.hashed = false) :
    ∃ n', hashNode comp k keyed true n = (o.cv, n') ∧ n'.buf.take 64 = o.block ∧ n'.remain = 64 ∧
      n'.d = o.flags ||| Spec.Blake3.ROOT ∧ o.blen = 64 := by
  have hkey : ((if keyed then k else IV) ++ List.replicate 8 (0 : Word)).take 8 = if keyed then k else IV := by
    rw [List.take_append_of_le_length, List.take_of_length_le]
    · split <;> simp [hk, IV]
    · split <;> simp [hk, IV]
  obtain ⟨p1, p2, p3, p4, l, r, p5, p6⟩ := hn.parent hh
  unfold hashNode
  simp only []
  rw [hashLoop_parent _ _ _ p1 p2, if_pos rfl]
  simp only []
  rw [hkey, p5, p3]
  exact ⟨_, rfl, p6, rfl, rfl, rfl⟩

end Blake3
