import Verif.Lemmas.Blake3Final

namespace Blake3
open Spec
open Spec.Blake3 (Output chunkOutput parentOutput)

variable {comp : List Word → List Byte → BitVec 64 → Word → Word → List Word}

theorem readLoop_spec (ok : CompOK comp) (o : Output) (n : Node) (s : Nat) (hd : n.d = o.flags ||| Spec.Blake3.ROOT)
    (hb : (n.buf.drop s).take 64 = o.block) : ∀ (len : Nat) (x : Ctx) (blk : Option (List Byte)), x.k = o.cv → x.k.length = 8 →
    x.t.toNat + len ≤ 2 ^ 64 →
    (blk = none ∨ x.t.toNat % 64 = 0 ∨ ∃ b, blk = some b ∧
      b = (Spec.Blake3.leBytes (comp o.cv o.block (BitVec.ofNat 64 (x.t.toNat / 64)) (BitVec.ofNat 32 o.blen)
        (o.flags ||| Spec.Blake3.ROOT))).drop (x.t.toNat % 64)) →
    readLoop comp x n s o.blen len blk =
      ((List.range len).map (fun j => o.rootByte comp (x.t.toNat + j)), { x with t := x.t + BitVec.ofNat 64 len }) := by
  intro len
  induction len with
  | zero => intro x blk _ _ _ _; simp [readLoop]
  | succ len ih =>
    intro x blk hk hl ht hblk
    unfold readLoop
    simp only []
    set W := Spec.Blake3.leBytes (comp o.cv o.block (BitVec.ofNat 64 (x.t.toNat / 64)) (BitVec.ofNat 32 o.blen)
        (o.flags ||| Spec.Blake3.ROOT)) with hW
    have hWl : W.length = 64 := by rw [hW, length_leBytes, ok.len]
    have m64 : (x.t % 64).toNat = x.t.toNat % 64 := by rw [BitVec.toNat_umod]; rfl
    have d64 : x.t / 64 = BitVec.ofNat 64 (x.t.toNat / 64) := by
      apply BitVec.eq_of_toNat_eq
      rw [BitVec.toNat_udiv, BitVec.toNat_ofNat, Nat.mod_eq_of_lt (by have := x.t.isLt; omega)]; rfl
    have hcomp : wordBytes (comp (x.k ++ List.replicate 8 0) ((n.buf.drop s).take 64) (x.t / 64) (BitVec.ofNat 32 o.blen) n.d) = W := by
      rw [wordBytes_eq, hW, d64, hb, hd, ← ok.take (x.k ++ List.replicate 8 0),
        List.take_append_of_le_length (by omega), List.take_of_length_le (by omega), hk]
    have z64 : x.t % 64 = 0 ↔ x.t.toNat % 64 = 0 := by
      constructor
      · intro h; rw [← m64, h]; rfl
      · intro h; apply BitVec.eq_of_toNat_eq; rw [m64, h]; rfl
    have hcur : (if x.t % 64 = 0 ∨ blk = none then
        (wordBytes (comp (x.k ++ List.replicate 8 0) ((n.buf.drop s).take 64) (x.t / 64)
          (BitVec.ofNat 32 o.blen) n.d)).drop (x.t % 64).toNat
      else blk.getD []) = W.drop (x.t.toNat % 64) := by
      by_cases c : x.t % 64 = 0 ∨ blk = none
      · rw [if_pos c, hcomp, m64]
      · rw [if_neg c]
        rw [not_or] at c
        rcases hblk with h | h | ⟨b, h1, h2⟩
        · exact absurd h c.2
        · exact absurd (z64.2 h) c.1
        · rw [h1]; exact h2
    rw [hcur]
    set x' : Ctx := { x with t := x.t + 1 } with hx'
    have hlt : x.t.toNat % 64 < W.length := by rw [hWl]; omega
    have hdrop : W.drop (x.t.toNat % 64) = W[x.t.toNat % 64] :: W.drop (x.t.toNat % 64 + 1) := List.drop_eq_getElem_cons hlt
    have hx1 : x'.t.toNat = (x.t.toNat + 1) % 2 ^ 64 := by rw [hx', BitVec.toNat_add]; rfl
    have head : (W.drop (x.t.toNat % 64)).headD 0 = o.rootByte comp x.t.toNat := by
      rw [hdrop]
      unfold Output.rootByte
      rw [← hW, List.getD_eq_getElem?_getD, List.getElem?_eq_getElem hlt]; rfl
    cases len with
    | zero =>
      unfold readLoop
      simp only []
      rw [head]
      simp only [Nat.zero_add, List.range_one, List.map_cons, List.map_nil, Nat.add_zero]
      rfl
    | succ len =>
    have hx2 : x'.t.toNat = x.t.toNat + 1 := by rw [hx1, Nat.mod_eq_of_lt (by omega)]
    rw [ih x' _ hk hl (by rw [hx2]; omega) (by
      by_cases c : x'.t.toNat % 64 = 0
      · exact Or.inr (Or.inl c)
      · refine Or.inr (Or.inr ⟨_, rfl, ?_⟩)
        rw [hdrop, List.tail_cons]
        rw [hx2] at c ⊢
        have e1 : (x.t.toNat + 1) / 64 = x.t.toNat / 64 := by omega
        have e2 : (x.t.toNat + 1) % 64 = x.t.toNat % 64 + 1 := by omega
        rw [e1, e2, hW])]
    simp only []
    rw [head, hx2]
    refine Prod.ext ?_ ?_
    · simp only []
      rw [List.range_succ_eq_map (n := len + 1), List.map_cons, List.map_map]
      congr 1
      apply List.map_congr_left
      intro j _
      simp only [Function.comp, Nat.succ_eq_add_one]
      congr 1; omega
    · simp only [hx']
      congr 1
      rw [show (1 : BitVec 64) = BitVec.ofNat 64 1 from rfl, BitVec.add_assoc, ← BitVec.ofNat_add]
      congr 2; omega

theorem read_spec (ok : CompOK comp) {x : Ctx} {o : Output} (r : RootRep x o) (hk : x.k.length = 8) (len : Nat) (rewind : Bool)
    (ht : (if rewind then 0 else x.t.toNat) + len ≤ 2 ^ 64) :
    read comp x len rewind = ((List.range len).map (fun j => o.rootByte comp ((if rewind then 0 else x.t.toNat) + j)),
      { x with t := (if rewind then 0 else x.t) + BitVec.ofNat 64 len }) := by
  unfold read
  simp only []
  set n := node x 0 with hn
  have hbs : (if n.remain % 64 = 0 ∧ n.remain - n.remain % 64 > 0 then (64, n.remain - n.remain % 64 - 64)
      else (n.remain % 64, n.remain - n.remain % 64)) = (o.blen, n.remain - o.blen) := by
    have hb := r.blen
    rcases r.rem with ⟨h1, h2⟩ | ⟨s, h1, h2⟩
    · rw [← hn] at h1
      rw [h1, h2, if_neg (by omega)]
    · rw [← hn] at h1
      by_cases c : o.blen = 64
      · rw [if_pos (by omega)]
        rw [c]
        congr 1; omega
      · rw [if_neg (by omega)]
        rw [Prod.mk.injEq]
        constructor <;> omega
  rw [hbs]
  simp only []
  cases rewind with
  | false =>
    simp only [Bool.false_eq_true, if_false] at ht ⊢
    rw [readLoop_spec ok o n (n.remain - o.blen) r.d r.block len x none r.k hk ht (Or.inl rfl)]
  | true =>
    simp only [if_true] at ht ⊢
    rw [readLoop_spec ok o n (n.remain - o.blen) r.d r.block len { x with t := 0 } none r.k hk (by simpa using ht) (Or.inl rfl)]
    simp

/-- The context after `BLAKE3_Init`. -/
theorem init_ready {M : List Byte} {junk : List Node} (hj : junk.length = 65) (keyed : Bool) (k : List Word) (hk : k.length = 8) :
    Ready comp M { k := k, t := 0, keyed := keyed, finalize := false, lf := 0, bf := 0,
                   nind := List.range NODES, nodes := junk.map (init1node keyed) } [] [] := by
  have hc : chunks [] = 0 := rfl
  refine ⟨⟨⟨?_, ?_, ?_, ?_, hk⟩, rfl, rfl, trivial, rfl, by simp [hc], by simp [hc], ?_, ?_, by simp, by simp⟩, rfl, by simp, ?_⟩
  · simp [NODES]
  · exact List.nodup_range
  · intro p hp; exact List.mem_range.1 hp
  · simpa using hj
  · intro j hj65
    simp only [List.length_nil, Nat.zero_add] at hj65 ⊢
    rw [List.drop_nil, List.take_nil]
    unfold node NODES
    simp only []
    have e : (List.range 65).getD j 0 = j := by
      rw [List.getD_eq_getElem?_getD, List.getElem?_range hj65]; rfl
    rw [e, List.getD_eq_getElem?_getD, List.getElem?_map, List.getElem?_eq_getElem (by omega)]
    exact ⟨rfl, rfl, rfl, rfl, by simp only [Option.map_some, Option.getD_some, init1node, List.length_nil, List.nil_append, Nat.sub_zero], by simp⟩
  · intro j hjj; exact absurd hjj (by simp)
  · intro h; simp [hc] at h

theorem final_spec (ok : CompOK comp) (sched : Ctx → List Nat → List Nat) (hp : ∀ x l, (sched x l).Perm l)
    {M : List Byte} (hML : M.length < 2 ^ 64) {x : Ctx} {hs : List Nat} (R : Ready comp M x M hs) :
    RootRep (final comp sched x) (Spec.Blake3.output comp (keyOf x) (modeOf x.keyed) M 0) ∧ (final comp sched x).t = 0 := by
  by_cases c : hs = []
  · subst c
    have := final_one ok sched hp R
    rwa [sub_all _ _ _ _ (by have := R.hi; rw [R.lf0] at this; simpa [chunks] using this)] at this
  · exact final_many ok sched hp hML R c

theorem cv_length (ok : CompOK comp) (key : List Word) (mode : Word) (hk : key.length = 8) (m : List Byte) (t : Nat) :
    (Spec.Blake3.output comp key mode m t).cv.length = 8 := by
  unfold Spec.Blake3.output
  split
  · unfold chunkOutput
    simp only []
    rcases List.eq_nil_or_concat (initBlocks 64 m).zipIdx with h | ⟨l, p, h⟩
    · rw [h]; exact hk
    · rw [h]; simp [ok.len]
  · exact hk

end Blake3
