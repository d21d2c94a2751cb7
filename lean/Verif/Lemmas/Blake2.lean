import Verif.Spec.Blake2
import Verif.Model.Blake2
import Verif.Lemmas.Blocks
import Mathlib.Algebra.BigOperators.Ring.List
import Mathlib.Tactic.Ring

namespace Blake2
open Spec

/-- How the C parameters and the RFC parameters correspond. -/
structure Match {W : Nat} (p : Prm W) (P : Spec.Blake2.Variant W) : Prop where
  hW : W = 64 ∨ W = 32
  r1 : p.rot.getD 0 0 = P.R1
  r2 : p.rot.getD 1 0 = P.R2
  r3 : p.rot.getD 2 0 = P.R3
  r4 : p.rot.getD 3 0 = P.R4
  l1 : P.R1 < W
  l2 : P.R2 < W
  l3 : P.R3 < W
  l4 : P.R4 < W
  rd : p.rounds = P.rounds
  ivl : p.iv.length = 8
  iv : ∀ i, i < 8 → p.iv.getD i 0 = P.IV i
  th : p.tHigh = decide (W = 32)

theorem rotr_eq {W : Nat} (x : BitVec W) (n : Nat) (h : n < W) : rotr x n = Spec.Blake2.ror x n := by
  unfold rotr Spec.Blake2.ror
  rw [BitVec.rotateRight_def, Nat.mod_eq_of_lt h]

def Rv {W : Nat} (n : Nat) (st : List (BitVec W)) (v : Nat → BitVec W) : Prop :=
  st.length = n ∧ ∀ i, i < n → st.getD i 0 = v i

theorem getD_set {α : Type} (l : List α) (i j : Nat) (x d : α) (hi : i < l.length) :
    (l.set i x).getD j d = if j = i then x else l.getD j d := by
  rw [List.getD_eq_getElem?_getD, List.getElem?_set, List.getD_eq_getElem?_getD]
  by_cases h : i = j
  · subst h; simp [hi]
  · rw [if_neg h, if_neg (Ne.symm h)]

/-- The state during a quarter round: the four words being mixed, and the rest as in `v`. -/
structure Q {W : Nat} (st : List (BitVec W)) (v : Nat → BitVec W) (a b c d : Nat) (A B C D : BitVec W) : Prop where
  len : st.length = 16
  ea : st.getD a 0 = A
  eb : st.getD b 0 = B
  ec : st.getD c 0 = C
  ed : st.getD d 0 = D
  rest : ∀ i, i < 16 → i ≠ a → i ≠ b → i ≠ c → i ≠ d → st.getD i 0 = v i

theorem qround_spec {W : Nat} {p : Prm W} {P : Spec.Blake2.Variant W} (M : Match p P)
    {st : List (BitVec W)} {v : Nat → BitVec W} (h : Rv 16 st v) {a b c d : Nat}
    (ha : a < 16) (hb : b < 16) (hc : c < 16) (hd : d < 16) (hab : a ≠ b) (hac : a ≠ c) (had : a ≠ d)
    (hbc : b ≠ c) (hbd : b ≠ d) (hcd : c ≠ d) (x y : BitVec W) :
    Rv 16 (qround p st a b c d x y) (Spec.Blake2.G P v a b c d x y) := by
  obtain ⟨hl, hv⟩ := h
  have q0 : Q st v a b c d (v a) (v b) (v c) (v d) :=
    ⟨hl, hv a ha, hv b hb, hv c hc, hv d hd, fun i hi _ _ _ _ => hv i hi⟩
  have sA : ∀ {s : List (BitVec W)} {A B C D X Y : BitVec W}, Q s v a b c d A B C D → X = Y →
      Q (s.set a X) v a b c d Y B C D := by
    rintro s A B C D X Y ⟨h1, h2, h3, h4, h5, h6⟩ rfl
    have : a < s.length := by omega
    refine ⟨by simpa using h1, ?_, ?_, ?_, ?_, ?_⟩
    · rw [getD_set _ _ _ _ _ this, if_pos rfl]
    · rw [getD_set _ _ _ _ _ this, if_neg hab.symm, h3]
    · rw [getD_set _ _ _ _ _ this, if_neg hac.symm, h4]
    · rw [getD_set _ _ _ _ _ this, if_neg had.symm, h5]
    · intro i k1 k2 k3 k4 k5
      rw [getD_set _ _ _ _ _ this, if_neg k2, h6 i k1 k2 k3 k4 k5]
  have sB : ∀ {s : List (BitVec W)} {A B C D X Y : BitVec W}, Q s v a b c d A B C D → X = Y →
      Q (s.set b X) v a b c d A Y C D := by
    rintro s A B C D X Y ⟨h1, h2, h3, h4, h5, h6⟩ rfl
    have : b < s.length := by omega
    refine ⟨by simpa using h1, ?_, ?_, ?_, ?_, ?_⟩
    · rw [getD_set _ _ _ _ _ this, if_neg hab, h2]
    · rw [getD_set _ _ _ _ _ this, if_pos rfl]
    · rw [getD_set _ _ _ _ _ this, if_neg hbc.symm, h4]
    · rw [getD_set _ _ _ _ _ this, if_neg hbd.symm, h5]
    · intro i k1 k2 k3 k4 k5
      rw [getD_set _ _ _ _ _ this, if_neg k3, h6 i k1 k2 k3 k4 k5]
  have sC : ∀ {s : List (BitVec W)} {A B C D X Y : BitVec W}, Q s v a b c d A B C D → X = Y →
      Q (s.set c X) v a b c d A B Y D := by
    rintro s A B C D X Y ⟨h1, h2, h3, h4, h5, h6⟩ rfl
    have : c < s.length := by omega
    refine ⟨by simpa using h1, ?_, ?_, ?_, ?_, ?_⟩
    · rw [getD_set _ _ _ _ _ this, if_neg hac, h2]
    · rw [getD_set _ _ _ _ _ this, if_neg hbc, h3]
    · rw [getD_set _ _ _ _ _ this, if_pos rfl]
    · rw [getD_set _ _ _ _ _ this, if_neg hcd.symm, h5]
    · intro i k1 k2 k3 k4 k5
      rw [getD_set _ _ _ _ _ this, if_neg k4, h6 i k1 k2 k3 k4 k5]
  have sD : ∀ {s : List (BitVec W)} {A B C D X Y : BitVec W}, Q s v a b c d A B C D → X = Y →
      Q (s.set d X) v a b c d A B C Y := by
    rintro s A B C D X Y ⟨h1, h2, h3, h4, h5, h6⟩ rfl
    have : d < s.length := by omega
    refine ⟨by simpa using h1, ?_, ?_, ?_, ?_, ?_⟩
    · rw [getD_set _ _ _ _ _ this, if_neg had, h2]
    · rw [getD_set _ _ _ _ _ this, if_neg hbd, h3]
    · rw [getD_set _ _ _ _ _ this, if_neg hcd, h4]
    · rw [getD_set _ _ _ _ _ this, if_pos rfl]
    · intro i k1 k2 k3 k4 k5
      rw [getD_set _ _ _ _ _ this, if_neg k5, h6 i k1 k2 k3 k4 k5]
  unfold qround Spec.Blake2.G
  lift_lets
  intro s1 s2 s3 s4 s5 s6 s7 s8 s9 s10 s11 a1 d1 c1 b1 a2 d2 c2 b2
  have q1 : Q s1 v a b c d a1 (v b) (v c) (v d) := sA q0 (by rw [q0.ea, q0.eb, ← BitVec.add_assoc])
  have q2 := sD q1 (X := s1.getD d 0 ^^^ s1.getD a 0) (by rw [q1.ed, q1.ea])
  have q3 : Q s3 v a b c d a1 (v b) (v c) d1 := sD q2 (by rw [q2.ed, M.r1, rotr_eq _ _ M.l1])
  have q4 : Q s4 v a b c d a1 (v b) c1 d1 := sC q3 (by rw [q3.ed, q3.ec])
  have q5 := sB q4 (X := s4.getD b 0 ^^^ s4.getD c 0) (by rw [q4.eb, q4.ec])
  have q6 : Q s6 v a b c d a1 b1 c1 d1 := sB q5 (by rw [q5.eb, M.r2, rotr_eq _ _ M.l2])
  have q7 : Q s7 v a b c d a2 b1 c1 d1 := sA q6 (by rw [q6.ea, q6.eb, ← BitVec.add_assoc])
  have q8 := sD q7 (X := s7.getD d 0 ^^^ s7.getD a 0) (by rw [q7.ed, q7.ea])
  have q9 : Q s9 v a b c d a2 b1 c1 d2 := sD q8 (by rw [q8.ed, M.r3, rotr_eq _ _ M.l3])
  have q10 : Q s10 v a b c d a2 b1 c2 d2 := sC q9 (by rw [q9.ed, q9.ec])
  have q11 := sB q10 (X := s10.getD b 0 ^^^ s10.getD c 0) (by rw [q10.eb, q10.ec])
  have q12 : Q (s11.set b (rotr (s11.getD b 0) (p.rot.getD 3 0))) v a b c d a2 b2 c2 d2 :=
    sB q11 (by rw [q11.eb, M.r4, rotr_eq _ _ M.l4])
  refine ⟨q12.len, fun i hi => ?_⟩
  beta_reduce
  by_cases e1 : i = a
  · rw [if_pos e1, e1, q12.ea]
  · rw [if_neg e1]
    by_cases e2 : i = b
    · rw [if_pos e2, e2, q12.eb]
    · rw [if_neg e2]
      by_cases e3 : i = c
      · rw [if_pos e3, e3, q12.ec]
      · rw [if_neg e3]
        by_cases e4 : i = d
        · rw [if_pos e4, e4, q12.ed]
        · rw [if_neg e4, q12.rest i hi e1 e2 e3 e4]

theorem load_aux (W : Nat) (bs : List (BitVec 8)) (h : 8 * bs.length ≤ W) :
    ((bs.foldr (fun x (acc : BitVec W) => acc <<< 8 ||| x.setWidth W) 0).toNat < 2 ^ (8 * bs.length)) ∧
    (bs.foldr (fun x (acc : BitVec W) => acc <<< 8 ||| x.setWidth W) 0).toNat =
      ((List.range bs.length).map fun j => (bs.getD j 0).toNat * 256 ^ j).sum := by
  induction bs with
  | nil => simp
  | cons b bs ih =>
    simp only [List.length_cons] at h ⊢
    obtain ⟨i1, i2⟩ := ih (by omega)
    rw [List.foldr_cons]
    generalize bs.foldr (fun x (acc : BitVec W) => acc <<< 8 ||| x.setWidth W) 0 = acc at i1 i2
    have hb : b.toNat < 2 ^ 8 := b.isLt
    have e : (acc <<< 8 ||| b.setWidth W).toNat = acc.toNat * 2 ^ 8 + b.toNat := by
      rw [BitVec.toNat_or, BitVec.toNat_shiftLeft, BitVec.toNat_setWidth, Nat.mod_eq_of_lt, Nat.mod_eq_of_lt,
        ← Nat.shiftLeft_add_eq_or_of_lt hb, Nat.shiftLeft_eq]
      · exact lt_of_lt_of_le hb (Nat.pow_le_pow_right (by omega) (by omega))
      · rw [Nat.shiftLeft_eq]
        have : acc.toNat * 2 ^ 8 < 2 ^ (8 * bs.length) * 2 ^ 8 := Nat.mul_lt_mul_of_pos_right i1 (by norm_num)
        rw [← Nat.pow_add] at this
        exact lt_of_lt_of_le this (Nat.pow_le_pow_right (by omega) (by omega))
    rw [e]
    constructor
    · rw [Nat.mul_add, Nat.pow_add]; omega
    · rw [i2, List.range_succ_eq_map, List.map_cons, List.sum_cons, List.map_map]
      have : ((List.range bs.length).map ((fun j => ((b :: bs).getD j 0).toNat * 256 ^ j) ∘ Nat.succ)).sum =
          ((List.range bs.length).map fun j => (bs.getD j 0).toNat * 256 ^ j * 256).sum := by
        congr 1
        apply List.map_congr_left
        intro j _
        simp [Nat.pow_succ, Nat.mul_assoc]
      rw [this, List.sum_map_mul_right]
      simp; omega

theorem loadWord_eq (W : Nat) (b : List Byte) (i : Nat) : loadWord W b i = Spec.Blake2.leWord W b i := by
  unfold loadWord Spec.Blake2.leWord
  have h := (load_aux W ((List.range (W / 8)).map fun j => b.getD (W / 8 * i + j) 0)
    (by simp; omega)).2
  rw [List.foldr_map, List.length_map, List.length_range] at h
  apply BitVec.eq_of_toNat_eq
  rw [h, BitVec.toNat_ofNat]
  have e : ((List.range (W / 8)).map fun j =>
      (((List.range (W / 8)).map fun j => b.getD (W / 8 * i + j) 0).getD j 0).toNat * 256 ^ j) =
      (List.range (W / 8)).map fun j => (b.getD (W / 8 * i + j) 0).toNat * 256 ^ j := by
    apply List.map_congr_left
    intro j hj
    rw [List.mem_range] at hj
    rw [List.getD_eq_getElem?_getD, List.getElem?_map, List.getElem?_range hj]; rfl
  rw [e] at h ⊢
  rw [Nat.mod_eq_of_lt]
  rw [← h]; exact BitVec.isLt _

theorem sigma_eq (r i : Nat) : (sigma.getD (r % 10) []).getD i 0 = Spec.Blake2.SIGMA r i := rfl

theorem innerBlock_spec {W : Nat} {p : Prm W} {P : Spec.Blake2.Variant W} (M : Match p P)
    {st : List (BitVec W)} {v : Nat → BitVec W} (h : Rv 16 st v) (m : List Byte) (r : Nat) :
    Rv 16 (innerBlock p st m (sigma.getD (r % 10) [])) (Spec.Blake2.round P (Spec.Blake2.leWord W m) r v) := by
  unfold innerBlock Spec.Blake2.round
  simp only [loadWord_eq, sigma_eq]
  simp only [show List.range 4 = [0, 1, 2, 3] from rfl, List.foldl_cons, List.foldl_nil]
  refine qround_spec M ?_ ?_ ?_ ?_ ?_ ?_ ?_ ?_ ?_ ?_ ?_ _ _ <;> first | (show _ < _; decide) | (show _ ≠ _; decide) | skip
  refine qround_spec M ?_ ?_ ?_ ?_ ?_ ?_ ?_ ?_ ?_ ?_ ?_ _ _ <;> first | (show _ < _; decide) | (show _ ≠ _; decide) | skip
  refine qround_spec M ?_ ?_ ?_ ?_ ?_ ?_ ?_ ?_ ?_ ?_ ?_ _ _ <;> first | (show _ < _; decide) | (show _ ≠ _; decide) | skip
  refine qround_spec M ?_ ?_ ?_ ?_ ?_ ?_ ?_ ?_ ?_ ?_ ?_ _ _ <;> first | (show _ < _; decide) | (show _ ≠ _; decide) | skip
  refine qround_spec M ?_ ?_ ?_ ?_ ?_ ?_ ?_ ?_ ?_ ?_ ?_ _ _ <;> first | (show _ < _; decide) | (show _ ≠ _; decide) | skip
  refine qround_spec M ?_ ?_ ?_ ?_ ?_ ?_ ?_ ?_ ?_ ?_ ?_ _ _ <;> first | (show _ < _; decide) | (show _ ≠ _; decide) | skip
  refine qround_spec M ?_ ?_ ?_ ?_ ?_ ?_ ?_ ?_ ?_ ?_ ?_ _ _ <;> first | (show _ < _; decide) | (show _ ≠ _; decide) | skip
  refine qround_spec M h ?_ ?_ ?_ ?_ ?_ ?_ ?_ ?_ ?_ ?_ _ _ <;> first | (show _ < _; decide) | (show _ ≠ _; decide)

theorem compress_spec {W : Nat} {p : Prm W} {P : Spec.Blake2.Variant W} (M : Match p P)
    {h : List (BitVec W)} {hf : Nat → BitVec W} (hr : Rv 8 h hf) (m : List Byte) (t : BitVec 64) (f : Bool) :
    Rv 8 (compress p h m t f) (Spec.Blake2.F P hf m t.toNat f) := by
  obtain ⟨hl, hv⟩ := hr
  unfold compress Spec.Blake2.F
  simp only []
  set vi := (List.range 8).map (fun i => h.getD i 0) ++ (List.range 8).map (fun i => p.iv.getD i 0) with hvi
  have hvil : vi.length = 16 := by simp [hvi]
  have hvg : ∀ i, i < 16 → vi.getD i 0 = if i < 8 then hf i else P.IV (i - 8) := by
    intro i hi
    rw [hvi, List.getD_eq_getElem?_getD, List.getElem?_append]
    by_cases c : i < 8
    · rw [if_pos (by simpa using c), if_pos c, List.getElem?_map, List.getElem?_range c]
      simpa using hv i c
    · rw [if_neg (by simpa using c), if_neg c, List.getElem?_map, List.length_map, List.length_range,
        List.getElem?_range (by omega)]
      simpa using M.iv (i - 8) (by omega)
  have hfin : ∀ (v0 : List (BitVec W)) (w0 : Nat → BitVec W), Rv 16 v0 w0 → ∀ n,
      Rv 16 ((List.range n).foldl (fun v i => innerBlock p v m (sigma.getD (i % 10) [])) v0)
       ((List.range n).foldl (fun v r => Spec.Blake2.round P (Spec.Blake2.leWord W m) r v) w0) := by
    intro v0 w0 h0 n
    induction n with
    | zero => exact h0
    | succ n ih =>
      rw [List.range_succ, List.foldl_append, List.foldl_append]
      simp only [List.foldl_cons, List.foldl_nil]
      exact innerBlock_spec M ih m n
  have key : Rv 16 (let v := vi.set 12 (vi.getD 12 0 ^^^ t.setWidth W)
      let v := if p.tHigh = true then v.set 13 (v.getD 13 0 ^^^ (t >>> 32).setWidth W) else v
      if f = true then v.set 14 (~~~v.getD 14 0) else v)
      (fun i =>
        if i < 8 then hf i
        else if i = 12 then P.IV 4 ^^^ BitVec.ofNat W t.toNat
        else if i = 13 then P.IV 5 ^^^ BitVec.ofNat W (t.toNat / 2 ^ W)
        else if i = 14 ∧ f then P.IV 6 ^^^ BitVec.allOnes W
        else P.IV (i - 8)) := by
    simp only []
    have e12 : t.setWidth W = BitVec.ofNat W t.toNat := by
      apply BitVec.eq_of_toNat_eq; simp
    rw [e12]
    have h1 : Rv 16 (if p.tHigh = true then (vi.set 12 (vi.getD 12 0 ^^^ BitVec.ofNat W t.toNat)).set 13
        ((vi.set 12 (vi.getD 12 0 ^^^ BitVec.ofNat W t.toNat)).getD 13 0 ^^^ (t >>> 32).setWidth W)
        else vi.set 12 (vi.getD 12 0 ^^^ BitVec.ofNat W t.toNat))
      (fun i => if i < 8 then hf i
        else if i = 12 then P.IV 4 ^^^ BitVec.ofNat W t.toNat
        else if i = 13 then P.IV 5 ^^^ BitVec.ofNat W (t.toNat / 2 ^ W)
        else P.IV (i - 8)) := by
      by_cases c : W = 32
      · rw [if_pos (by rw [M.th]; simpa using c)]
        refine ⟨by simp [hvil], fun i hi => ?_⟩
        rw [getD_set _ _ _ _ _ (by simp [hvil]), getD_set _ _ _ _ _ (by simp [hvil]),
          getD_set _ _ _ _ _ (by simp [hvil]), hvg i hi, hvg 12 (by omega), hvg 13 (by omega)]
        have e13 : (t >>> 32).setWidth W = BitVec.ofNat W (t.toNat / 2 ^ W) := by
          apply BitVec.eq_of_toNat_eq
          subst c
          rw [BitVec.toNat_setWidth, BitVec.toNat_ofNat, BitVec.toNat_ushiftRight, Nat.shiftRight_eq_div_pow]
        rw [e13]
        by_cases e : i = 13
        · subst e; simp
        · by_cases e' : i = 12
          · subst e'; simp
          · simp [e, e']
      · have hW : W = 64 := by rcases M.hW with h | h <;> [exact h; exact absurd h c]
        rw [if_neg (by rw [M.th]; simpa using c)]
        refine ⟨by simp [hvil], fun i hi => ?_⟩
        rw [getD_set _ _ _ _ _ (by simp [hvil]), hvg i hi, hvg 12 (by omega)]
        have : t.toNat / 2 ^ W = 0 := by subst hW; exact Nat.div_eq_of_lt t.isLt
        rw [this]
        by_cases e : i = 13
        · subst e; simp
        · by_cases e' : i = 12
          · subst e'; simp
          · simp [e, e']
    generalize (if p.tHigh = true then _ else _ : List (BitVec W)) = v1 at h1
    obtain ⟨g1, g2⟩ := h1
    cases f with
    | false =>
      rw [if_neg (by simp)]
      refine ⟨g1, fun i hi => ?_⟩
      rw [g2 i hi]; simp
    | true =>
      rw [if_pos rfl]
      refine ⟨by simp [g1], fun i hi => ?_⟩
      rw [getD_set _ _ _ _ _ (by omega), g2 i hi, g2 14 (by omega)]
      by_cases e : i = 14
      · subst e
        simp only [if_true, if_neg (show ¬ 14 < 8 by omega), if_neg (show ¬ 14 = 12 by omega),
          if_neg (show ¬ 14 = 13 by omega), and_self]
        rw [show 14 - 8 = 6 from rfl]
        apply BitVec.eq_of_getLsbD_eq
        intro j hj
        simp [hj]
      · simp [e]
  obtain ⟨k1, k2⟩ := hfin _ _ key p.rounds
  rw [M.rd] at k1 k2
  rw [M.rd]
  refine ⟨by simp, fun i hi => ?_⟩
  rw [List.getD_eq_getElem?_getD, List.getElem?_map, List.getElem?_range hi]
  simp only [Option.map_some, Option.getD_some]
  rw [hv i hi, k2 i (by omega), k2 (i + 8) (by omega), BitVec.xor_assoc]


/-! ### Streaming -/

variable {W : Nat} (p : Prm W)

/-- What the lazy engine does with a full block: the chaining value and the counter. -/
def stepF (s : List (BitVec W) × BitVec 64) (blk : List Byte) : List (BitVec W) × BitVec 64 :=
  (compress p s.1 blk (s.2 + BitVec.ofNat 64 (bsize W)) false, s.2 + BitVec.ofNat 64 (bsize W))

/-- The context holds chaining value and counter `s.1` and the unprocessed bytes `s.2`. -/
structure Rel (x : Ctx W) (s : (List (BitVec W) × BitVec 64) × List Byte) : Prop where
  hh : x.h = s.1.1
  ht : x.t = s.1.2
  bl : x.b.length = bsize W
  fl : x.filled = s.2.length
  le : s.2.length ≤ bsize W
  bf : x.b.take x.filled = s.2

theorem bsize_pos (hW : W = 64 ∨ W = 32) : 0 < bsize W := by
  rcases hW with h | h <;> subst h <;> decide

theorem push_spec (hW : W = 64 ∨ W = 32) (x : Ctx W) (s : (List (BitVec W) × BitVec 64) × List Byte)
    (h : Rel x s) (d : Byte) :
    Rel (pushByte p x d) (lazyPush (stepF p) (bsize W) s d) ∧
      (pushByte p x d).outlen = x.outlen ∧ (pushByte p x d).finalized = x.finalized := by
  obtain ⟨h1, h2, h3, h4, h5, h6⟩ := h
  have hB := bsize_pos hW
  unfold pushByte lazyPush
  by_cases c : s.2.length = bsize W
  · have hb : x.b = s.2 := by
      rw [← h6, List.take_of_length_le (by omega)]
    rw [if_pos (by omega), if_pos c]
    refine ⟨⟨?_, ?_, ?_, ?_, ?_, ?_⟩, rfl, rfl⟩
    · simp only [stepF]; rw [h1, h2, h4, c, hb]
    · simp only [stepF]; rw [h2, h4, c]
    · simpa using h3
    · simp
    · simp; omega
    · simp only [Nat.zero_add]
      cases hx : x.b with
      | nil => rw [hx] at h3; simp at h3; omega
      | cons a l => simp
  · rw [if_neg (by omega), if_neg c]
    refine ⟨⟨h1, h2, by simpa using h3, ?_, ?_, ?_⟩, rfl, rfl⟩
    · simp [h4]
    · simp; omega
    · simp only
      have hlt : x.filled < x.b.length := by omega
      rw [List.take_succ, List.getElem?_set_self hlt]
      simp only [Option.toList]
      rw [List.take_set_of_le (le_refl _), h6]

theorem update_spec (hW : W = 64 ∨ W = 32) (data : List Byte) : ∀ (x : Ctx W) s, Rel x s →
    Rel (update p x data) (data.foldl (lazyPush (stepF p) (bsize W)) s) ∧
      (update p x data).outlen = x.outlen ∧ (update p x data).finalized = x.finalized := by
  induction data with
  | nil => intro x s h; exact ⟨h, rfl, rfl⟩
  | cons d data ih =>
    intro x s h
    obtain ⟨g1, g2, g3⟩ := push_spec p hW x s h d
    obtain ⟨k1, k2, k3⟩ := ih _ _ g1
    exact ⟨k1, k2.trans g2, k3.trans g3⟩

theorem updates_spec (hW : W = 64 ∨ W = 32) (ms : List (List Byte)) : ∀ (x : Ctx W) s, Rel x s →
    Rel (ms.foldl (update p) x) (ms.flatten.foldl (lazyPush (stepF p) (bsize W)) s) ∧
      (ms.foldl (update p) x).outlen = x.outlen ∧ (ms.foldl (update p) x).finalized = x.finalized := by
  induction ms with
  | nil => intro x s h; exact ⟨h, rfl, rfl⟩
  | cons d data ih =>
    intro x s h
    obtain ⟨g1, g2, g3⟩ := update_spec p hW d x s h
    obtain ⟨k1, k2, k3⟩ := ih _ _ g1
    rw [List.flatten_cons, List.foldl_append]
    exact ⟨k1, k2.trans g2, k3.trans g3⟩

theorem lazy_short {σ α : Type} (f : σ → List α → σ) (r : Nat) (h : σ) : ∀ (m b : List α),
    b.length + m.length ≤ r → m.foldl (lazyPush f r) (h, b) = (h, b ++ m) := by
  intro m
  induction m with
  | nil => intro b _; simp
  | cons x m ih =>
    intro b hb
    rw [List.length_cons] at hb
    rw [List.foldl_cons, lazyPush, if_neg (by simp only; omega), ih _ (by simp; omega)]
    simp

/-- What the key leaves in the buffer beyond the key itself: the zeros it was filled with. -/
theorem update_b (hW : W = 64 ∨ W = 32) (data : List Byte) : ∀ (x : Ctx W), x.filled + data.length ≤ bsize W →
    x.b.length = bsize W →
    (update p x data).b = x.b.take x.filled ++ data ++ x.b.drop (x.filled + data.length) ∧
    (update p x data).filled = x.filled + data.length ∧ (update p x data).h = x.h ∧
    (update p x data).t = x.t := by
  induction data with
  | nil => intro x _ _; simp [update]
  | cons d data ih =>
    intro x hx hb
    rw [List.length_cons] at hx
    have e : pushByte p x d = { x with b := x.b.set x.filled d, filled := x.filled + 1 } := by
      unfold pushByte; rw [if_neg (by omega)]
    show (update p (pushByte p x d) data).b = _ ∧ _ ∧ _ ∧ _
    obtain ⟨k1, k2, k3, k4⟩ := ih (pushByte p x d) (by rw [e]; simp only; omega) (by rw [e]; simpa using hb)
    refine ⟨?_, ?_, ?_, ?_⟩
    · rw [k1, e]
      simp only [List.length_cons]
      rw [List.take_succ, List.getElem?_set_self (by omega)]
      simp only [Option.toList]
      rw [List.take_set_of_le (le_refl _), List.drop_set_of_lt (by omega), Nat.add_assoc, Nat.add_comm 1]
      simp
    · show (update p (pushByte p x d) data).filled = _
      rw [k2, e]; simp only [List.length_cons]; omega
    · show (update p (pushByte p x d) data).h = _
      rw [k3, e]
    · show (update p (pushByte p x d) data).t = _
      rw [k4, e]

theorem zeroLoop_eq : ∀ (n filled : Nat) (b : List Byte), filled + n = b.length →
    zeroLoop n filled b = b.take filled ++ List.replicate n 0 := by
  intro n
  induction n with
  | zero => intro f b h; simp [zeroLoop]; omega
  | succ n ih =>
    intro f b h
    rw [zeroLoop, ih _ _ (by simp; omega), List.take_succ, List.getElem?_set_self (by omega),
      List.take_set_of_le (le_refl _), List.replicate_succ]
    simp

theorem fold_counter {P : Spec.Blake2.Variant W} (M : Match p P) (blks : List (List Byte)) :
    ∀ (h : List (BitVec W)) (hf : Nat → BitVec W) (k : Nat), Rv 8 h hf → (k + blks.length) * bsize W < 2 ^ 64 →
    Rv 8 (blks.foldl (stepF p) (h, BitVec.ofNat 64 (k * bsize W))).1
      ((blks.zipIdx k).foldl (fun h q => Spec.Blake2.F P h q.1 ((q.2 + 1) * bsize W) false) hf) ∧
    (blks.foldl (stepF p) (h, BitVec.ofNat 64 (k * bsize W))).2 =
        BitVec.ofNat 64 ((k + blks.length) * bsize W) := by
  induction blks with
  | nil => intro h hf k hr _; exact ⟨hr, rfl⟩
  | cons b blks ih =>
    intro h hf k hr hk
    rw [List.length_cons] at hk
    rw [List.foldl_cons, List.zipIdx_cons, List.foldl_cons, List.length_cons]
    have e : BitVec.ofNat 64 (k * bsize W) + BitVec.ofNat 64 (bsize W) = BitVec.ofNat 64 ((k + 1) * bsize W) := by
      rw [← BitVec.ofNat_add, Nat.add_mul, Nat.one_mul]
    have e2 : k + (blks.length + 1) = k + 1 + blks.length := by omega
    rw [stepF, e, e2]
    have hc := compress_spec M hr b (BitVec.ofNat 64 ((k + 1) * bsize W)) false
    rw [BitVec.toNat_ofNat, Nat.mod_eq_of_lt] at hc
    · exact ih _ _ (k + 1) hc (by rw [← e2]; exact hk)
    · refine lt_of_le_of_lt (Nat.mul_le_mul_right _ ?_) hk
      omega

theorem storeWord_getD (b : List Byte) (i : Nat) (w : BitVec W) (j : Nat) (hj : W / 8 * i + W / 8 ≤ b.length) :
    (storeWord b i w).length = b.length ∧
    (storeWord b i w).getD j 0 = if W / 8 * i ≤ j ∧ j < W / 8 * i + W / 8
      then (w >>> (8 * (j - W / 8 * i))).setWidth 8 else b.getD j 0 := by
  unfold storeWord
  have gen : ∀ n, n ≤ W / 8 →
      ((List.range n).foldl (fun b j => b.set (W / 8 * i + j) ((w >>> (8 * j)).setWidth 8)) b).length = b.length ∧
      ((List.range n).foldl (fun b j => b.set (W / 8 * i + j) ((w >>> (8 * j)).setWidth 8)) b).getD j 0 =
        if W / 8 * i ≤ j ∧ j < W / 8 * i + n then (w >>> (8 * (j - W / 8 * i))).setWidth 8 else b.getD j 0 := by
    intro n
    induction n with
    | zero => intro _; refine ⟨rfl, ?_⟩; rw [if_neg (by omega)]; rfl
    | succ n ih =>
      intro hn
      obtain ⟨i1, i2⟩ := ih (by omega)
      rw [List.range_succ, List.foldl_append]
      simp only [List.foldl_cons, List.foldl_nil]
      refine ⟨by simpa using i1, ?_⟩
      rw [getD_set _ _ _ _ _ (by rw [i1]; omega), i2]
      by_cases c : j = W / 8 * i + n
      · rw [if_pos c, if_pos (by omega)]
        congr 3; omega
      · rw [if_neg c]
        by_cases c2 : W / 8 * i ≤ j ∧ j < W / 8 * i + n
        · rw [if_pos c2, if_pos (by omega)]
        · rw [if_neg c2, if_neg (by omega)]
  exact gen _ (le_refl _)

theorem store_all (hW : W = 64 ∨ W = 32) (b : List Byte) (hb : b.length = bsize W) (h : Nat → BitVec W)
    (hl : List (BitVec W)) (hr : Rv 8 hl h) (j : Nat) (hj : j < 8 * (W / 8)) :
    ((List.range 8).foldl (fun b i => storeWord b i (hl.getD i 0)) b).getD j 0 = Spec.Blake2.leByte h j := by
  have gen : ∀ n, n ≤ 8 →
      ((List.range n).foldl (fun b i => storeWord b i (hl.getD i 0)) b).length = b.length ∧
      (j < n * (W / 8) → ((List.range n).foldl (fun b i => storeWord b i (hl.getD i 0)) b).getD j 0 =
        Spec.Blake2.leByte h j) := by
    intro n
    induction n with
    | zero => intro _; exact ⟨rfl, fun h => by omega⟩
    | succ n ih =>
      intro hn
      obtain ⟨i1, i2⟩ := ih (by omega)
      rw [List.range_succ, List.foldl_append]
      simp only [List.foldl_cons, List.foldl_nil]
      have hw : W / 8 * n + W / 8 ≤ ((List.range n).foldl (fun b i => storeWord b i (hl.getD i 0)) b).length := by
        rw [i1, hb]
        unfold bsize
        rcases hW with h | h <;> subst h <;> omega
      obtain ⟨s1, s2⟩ := storeWord_getD _ n (hl.getD n 0) j hw
      refine ⟨s1.trans i1, fun hjn => ?_⟩
      rw [s2]
      by_cases c : W / 8 * n ≤ j
      · have hjn' : j < W / 8 * n + W / 8 := by rw [Nat.add_mul, Nat.mul_comm n] at hjn; omega
        rw [if_pos ⟨c, hjn'⟩, hr.2 n (by omega)]
        unfold Spec.Blake2.leByte
        have hpos : 0 < W / 8 := by omega
        have e1 : j / (W / 8) = n := by
          apply Nat.div_eq_of_lt_le <;> rw [Nat.mul_comm] <;> [exact c; skip]
          rw [Nat.mul_add]; omega
        have e2 : j % (W / 8) = j - W / 8 * n := by rw [Nat.mod_eq_sub_mul_div, e1]
        rw [e1, e2]
        apply BitVec.eq_of_toNat_eq
        rw [BitVec.toNat_setWidth, BitVec.toNat_ofNat, BitVec.toNat_ushiftRight, Nat.shiftRight_eq_div_pow,
          Nat.pow_mul]
      · rw [if_neg (by omega)]
        exact i2 (by rw [Nat.mul_comm]; omega)
  exact (gen 8 (le_refl _)).2 hj

theorem matchB : Match prmB Spec.Blake2.blake2b where
  hW := Or.inl rfl
  r1 := rfl
  r2 := rfl
  r3 := rfl
  r4 := rfl
  l1 := by decide
  l2 := by decide
  l3 := by decide
  l4 := by decide
  rd := rfl
  ivl := rfl
  iv := by decide
  th := rfl

theorem matchS : Match prmS Spec.Blake2.blake2s where
  hW := Or.inr rfl
  r1 := rfl
  r2 := rfl
  r3 := rfl
  r4 := rfl
  l1 := by decide
  l2 := by decide
  l3 := by decide
  l4 := by decide
  rd := rfl
  ivl := rfl
  iv := by decide
  th := rfl

end Blake2
