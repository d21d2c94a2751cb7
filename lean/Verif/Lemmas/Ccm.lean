import Verif.Lemmas.Aead
import Verif.Model.Ccm
import Mathlib.Tactic.IntervalCases

namespace Ccm
open Spec Aead

theorem iv_cases {P : List Byte → Prop} (iv : List Byte) (h7 : 7 ≤ iv.length) (h13 : iv.length ≤ 13)
    (c7 : ∀ a0 a1 a2 a3 a4 a5 a6 : Byte, P [a0, a1, a2, a3, a4, a5, a6])
    (c8 : ∀ a0 a1 a2 a3 a4 a5 a6 a7 : Byte, P [a0, a1, a2, a3, a4, a5, a6, a7])
    (c9 : ∀ a0 a1 a2 a3 a4 a5 a6 a7 a8 : Byte, P [a0, a1, a2, a3, a4, a5, a6, a7, a8])
    (c10 : ∀ a0 a1 a2 a3 a4 a5 a6 a7 a8 a9 : Byte, P [a0, a1, a2, a3, a4, a5, a6, a7, a8, a9])
    (c11 : ∀ a0 a1 a2 a3 a4 a5 a6 a7 a8 a9 a10 : Byte, P [a0, a1, a2, a3, a4, a5, a6, a7, a8, a9, a10])
    (c12 : ∀ a0 a1 a2 a3 a4 a5 a6 a7 a8 a9 a10 a11 : Byte, P [a0, a1, a2, a3, a4, a5, a6, a7, a8, a9, a10, a11])
    (c13 : ∀ a0 a1 a2 a3 a4 a5 a6 a7 a8 a9 a10 a11 a12 : Byte, P [a0, a1, a2, a3, a4, a5, a6, a7, a8, a9, a10, a11, a12])
    : P iv := by
  match iv, h7, h13 with
  | [a0, a1, a2, a3, a4, a5, a6], _, _ => exact c7 a0 a1 a2 a3 a4 a5 a6
  | [a0, a1, a2, a3, a4, a5, a6, a7], _, _ => exact c8 a0 a1 a2 a3 a4 a5 a6 a7
  | [a0, a1, a2, a3, a4, a5, a6, a7, a8], _, _ => exact c9 a0 a1 a2 a3 a4 a5 a6 a7 a8
  | [a0, a1, a2, a3, a4, a5, a6, a7, a8, a9], _, _ => exact c10 a0 a1 a2 a3 a4 a5 a6 a7 a8 a9
  | [a0, a1, a2, a3, a4, a5, a6, a7, a8, a9, a10], _, _ => exact c11 a0 a1 a2 a3 a4 a5 a6 a7 a8 a9 a10
  | [a0, a1, a2, a3, a4, a5, a6, a7, a8, a9, a10, a11], _, _ => exact c12 a0 a1 a2 a3 a4 a5 a6 a7 a8 a9 a10 a11
  | [a0, a1, a2, a3, a4, a5, a6, a7, a8, a9, a10, a11, a12], _, _ => exact c13 a0 a1 a2 a3 a4 a5 a6 a7 a8 a9 a10 a11 a12
  | [], h, _ => exact absurd h (by decide)
  | [_], h, _ => exact absurd h (by simp)
  | [_, _], h, _ => exact absurd h (by simp)
  | [_, _, _], h, _ => exact absurd h (by simp)
  | [_, _, _, _], h, _ => exact absurd h (by simp)
  | [_, _, _, _, _], h, _ => exact absurd h (by simp)
  | [_, _, _, _, _, _], h, _ => exact absurd h (by simp)
  | _ :: _ :: _ :: _ :: _ :: _ :: _ :: _ :: _ :: _ :: _ :: _ :: _ :: _ :: _, _, h => exact absurd h (by simp)

theorem r1 : List.range 1 = [0] := rfl
theorem r2 : List.range 2 = [0, 1] := rfl
theorem r3 : List.range 3 = [0, 1, 2] := rfl
theorem r4 : List.range 4 = [0, 1, 2, 3] := rfl
theorem r5 : List.range 5 = [0, 1, 2, 3, 4] := rfl
theorem r6 : List.range 6 = [0, 1, 2, 3, 4, 5] := rfl
theorem r7 : List.range 7 = [0, 1, 2, 3, 4, 5, 6] := rfl
theorem r8 : List.range 8 = [0, 1, 2, 3, 4, 5, 6, 7] := rfl
theorem r9 : List.range 9 = [0, 1, 2, 3, 4, 5, 6, 7, 8] := rfl
theorem r10 : List.range 10 = [0, 1, 2, 3, 4, 5, 6, 7, 8, 9] := rfl
theorem r11 : List.range 11 = [0, 1, 2, 3, 4, 5, 6, 7, 8, 9, 10] := rfl
theorem r12 : List.range 12 = [0, 1, 2, 3, 4, 5, 6, 7, 8, 9, 10, 11] := rfl
theorem r13 : List.range 13 = [0, 1, 2, 3, 4, 5, 6, 7, 8, 9, 10, 11, 12] := rfl

theorem ctrInit_eq (iv : List Byte) (h7 : 7 ≤ iv.length) (h13 : iv.length ≤ 13) : ctrInit iv = ccmCtr iv 1 := by
  apply iv_cases (P := fun iv => ctrInit iv = ccmCtr iv 1) iv h7 h13 <;> intros <;> simp [ctrInit, putIv, zeros, ccmCtr, beN, r1, r2, r3, r4, r5, r6, r7, r8, r9, r10, r11, r12, r13]

theorem bump_eq (iv : List Byte) (h7 : 7 ≤ iv.length) (h13 : iv.length ≤ 13) : bump iv.length 15 (ccmCtr iv 1) = ccmCtr iv 2 := by
  apply iv_cases (P := fun iv => bump iv.length 15 (ccmCtr iv 1) = ccmCtr iv 2) iv h7 h13 <;> intros <;> simp [bump, ccmCtr, beN, r1, r2, r3, r4, r5, r6, r7, r8, r9, r10, r11, r12, r13]

theorem clear_eq (iv : List Byte) (h7 : 7 ≤ iv.length) (h13 : iv.length ≤ 13) (x : Nat) : clearCtr iv.length (ccmCtr iv x) = ccmCtr iv 0 := by
  apply iv_cases (P := fun iv => clearCtr iv.length (ccmCtr iv x) = ccmCtr iv 0) iv h7 h13 <;> intros <;> simp [clearCtr, ccmCtr, beN, r1, r2, r3, r4, r5, r6, r7, r8, r9, r10, r11, r12, r13]

theorem reset_eq (iv : List Byte) (h7 : 7 ≤ iv.length) (h13 : iv.length ≤ 13) :
    (List.range (14 - iv.length)).foldl (fun C k => C.set (14 - k) 0#8) ((ccmCtr iv 0).set 15 1#8) = ccmCtr iv 1 := by
  apply iv_cases (P := fun iv => (List.range (14 - iv.length)).foldl (fun C k => C.set (14 - k) 0#8) ((ccmCtr iv 0).set 15 1#8) = ccmCtr iv 1) iv h7 h13 <;>
    intros <;> simp [ccmCtr, beN, r1, r2, r3, r4, r5, r6, r7, r8, r9, r10, r11, r12, r13]

theorem flag_eq (q t : Nat) (hq1 : 2 ≤ q) (hq2 : q ≤ 8) (h1 : 4 ≤ t) (h2 : t ≤ 16) (a : Bool) :
    (((if a then 1 else 0) <<< 6) ||| ((t - 2) / 2) <<< 3 ||| (q - 1)) = (if a then 64 else 0) + 8 * ((t - 2) / 2) + (q - 1) := by
  interval_cases q <;> interval_cases t <;> cases a <;> rfl

theorem b0_eq (iv A : List Byte) (h7 : 7 ≤ iv.length) (h13 : iv.length ≤ 13) (t n : Nat) (h1 : 4 ≤ t) (h2 : t ≤ 16) :
    b0 iv A.length n t = ccmB0 iv A t n := by
  unfold b0 ccmB0
  have hf := flag_eq (15 - iv.length) t (by omega) (by omega) h1 h2 (decide (A.length ≠ 0))
  have hA : (if A = [] then 0 else 64) = if decide (A.length ≠ 0) then 64 else 0 := by
    cases A <;> simp
  simp only [decide_eq_true_eq] at hf hA
  simp only []
  rw [hf, ← hA]
  generalize (if A = [] then 0 else 64) + 8 * ((t - 2) / 2) = F
  have hs : ∀ k, n >>> (k * 8) = n / 256 ^ k := by
    intro k
    rw [Nat.shiftRight_eq_div_pow, Nat.mul_comm, Nat.pow_mul]
  simp only [hs]
  apply iv_cases (P := fun iv => (List.range (15 - iv.length)).foldl (fun B i => B.set (i + 1 + iv.length) (BitVec.ofNat 8 (n / 256 ^ (15 - iv.length - (i + 1)))))
    (putIv (zeros.set 0 (BitVec.ofNat 8 (F + (15 - iv.length - 1)))) iv) =
    [BitVec.ofNat 8 (F + (15 - iv.length - 1))] ++ iv ++ beN (15 - iv.length) n) iv h7 h13 <;> intros <;> simp [putIv, zeros, beN, r1, r2, r3, r4, r5, r6, r7, r8, r9, r10, r11, r12, r13]


/-! Associated data. -/

variable (enc : List Byte → List Byte)

/-- One CBC-MAC step. -/
def mac (Y X : List Byte) : List Byte := enc (List.zipWith (· ^^^ ·) X Y)

/-- The array `B` with `p` written at its start. -/
def padTo (p : List Byte) : List Byte := p ++ List.replicate (16 - p.length) 0

theorem padTo_set (p : List Byte) (hp : p.length < 16) (b : Byte) : (padTo p).set p.length b = padTo (p ++ [b]) := by
  unfold padTo
  rw [List.set_append, if_neg (by omega), Nat.sub_self]
  obtain ⟨k, hk⟩ : ∃ k, 16 - p.length = k + 1 := ⟨16 - p.length - 1, by omega⟩
  rw [hk, List.replicate_succ, List.set_cons_zero, List.append_assoc]
  have : 16 - (p ++ [b]).length = k := by simp; omega
  rw [this]
  rfl

theorem padTo_full (p : List Byte) (hp : p.length = 16) : padTo p = p := by
  unfold padTo
  rw [hp]
  simp

theorem padTo_nil : padTo [] = zeros := rfl

theorem aad_fold (A : List Byte) : ∀ (p Y : List Byte), p.length < 16 →
    A.foldl (aadStep enc) (padTo p, Y, p.length) =
      (padTo (A.foldl (pushByte (mac enc) 16) (Y, p)).2, (A.foldl (pushByte (mac enc) 16) (Y, p)).1, (A.foldl (pushByte (mac enc) 16) (Y, p)).2.length) ∧
    (A.foldl (pushByte (mac enc) 16) (Y, p)).2.length < 16 := by
  induction A with
  | nil => intro p Y hp; exact ⟨rfl, hp⟩
  | cons a A ih =>
    intro p Y hp
    rw [List.foldl_cons, List.foldl_cons]
    have hl : (p ++ [a]).length = p.length + 1 := by simp
    by_cases hf : p.length + 1 = 16
    · have e1 : aadStep enc (padTo p, Y, p.length) a = (padTo [], mac enc Y (p ++ [a]), ([] : List Byte).length) := by
        unfold aadStep
        simp only []
        rw [if_pos (by omega), padTo_set p hp, padTo_full _ (by omega)]
        rfl
      have e2 : pushByte (mac enc) 16 (Y, p) a = (mac enc Y (p ++ [a]), []) := by
        unfold pushByte
        simp only []
        rw [if_pos (by omega)]
      rw [e1, e2]
      exact ih [] _ (by simp)
    · have e1 : aadStep enc (padTo p, Y, p.length) a = (padTo (p ++ [a]), Y, (p ++ [a]).length) := by
        unfold aadStep
        simp only []
        rw [if_neg (by omega), padTo_set p hp, hl]
      have e2 : pushByte (mac enc) 16 (Y, p) a = (Y, p ++ [a]) := by
        unfold pushByte
        simp only []
        rw [if_neg (by omega)]
      rw [e1, e2]
      exact ih _ _ (by omega)

theorem zeroFill_split (m : List Byte) : blocks 16 (zeroFill 16 m) = blocks 16 m ++ (if tailBlock 16 m = [] then [] else [padTo (tailBlock 16 m)]) := by
  obtain ⟨A, T, hm, hd, hT, hb, ht⟩ := split_aligned (r := 16) (by omega) m
  have hz : zeroFill 16 m = A ++ (T ++ List.replicate ((16 - m.length % 16) % 16) 0) := by
    unfold zeroFill
    conv_lhs => rw [hm]
    rw [List.append_assoc]
    congr 4
    rw [← hm]
  have hmod : m.length % 16 = T.length := by
    have := length_tailBlock 16 m
    rw [ht] at this
    omega
  rw [hz, blocks_append_aligned (by omega) hd, hb, ht]
  congr 1
  rw [hmod]
  by_cases h : T = []
  · subst h
    rfl
  · rw [if_neg h]
    have h0 : T.length ≠ 0 := fun e => h (List.length_eq_zero_iff.mp e)
    rw [Nat.mod_eq_of_lt (by omega)]
    exact blocks_single (by omega) (by simp; omega)

theorem byte_shift (n k : Nat) : BitVec.ofNat 8 (n >>> (8 * k)) = BitVec.ofNat 8 (n / 256 ^ k) := by
  rw [Nat.shiftRight_eq_div_pow, Nat.pow_mul]

/-- The header bytes of the associated data. -/
theorem aadHead_eq (A : List Byte) : ∃ h, h.length < 16 ∧ aadHead A.length = (padTo h, h.length) ∧ ccmAad A = h ++ A := by
  unfold aadHead ccmAad
  simp only []
  by_cases c0 : A.length = 0
  · have : A = [] := List.length_eq_zero_iff.mp c0
    subst this
    exact ⟨[], by simp, rfl, rfl⟩
  · have hne : A ≠ [] := fun e => c0 (by simp [e])
    rw [if_neg c0, if_neg hne]
    have s8 := byte_shift A.length 1
    have s16 := byte_shift A.length 2
    have s24 := byte_shift A.length 3
    have s32 := byte_shift A.length 4
    have s40 := byte_shift A.length 5
    have s48 := byte_shift A.length 6
    have s56 := byte_shift A.length 7
    simp only [Nat.reduceMul] at s8 s16 s24 s32 s40 s48 s56
    rw [Nat.shiftRight_zero, s8, s16, s24, s32, s40, s48, s56]
    by_cases c1 : A.length < 0xFF00
    · rw [if_pos c1, if_pos c1]
      refine ⟨beN 2 A.length, by simp [beN], ?_, rfl⟩
      simp [beN, zeros, padTo, show List.range 2 = [0, 1] from rfl]
    · rw [if_neg c1, if_neg c1]
      by_cases c2 : A.length < 2 ^ 32
      · rw [if_pos (by omega), if_pos c2]
        refine ⟨[0xFF, 0xFE] ++ beN 4 A.length, by simp [beN], ?_, rfl⟩
        simp [beN, zeros, padTo, show List.range 4 = [0, 1, 2, 3] from rfl]
      · rw [if_neg (by omega), if_neg c2]
        refine ⟨[0xFF, 0xFF] ++ beN 8 A.length, by simp [beN], ?_, rfl⟩
        simp [beN, zeros, padTo, show List.range 8 = [0, 1, 2, 3, 4, 5, 6, 7] from rfl]

theorem prelude_eq (iv A : List Byte) (n t : Nat) (h7 : 7 ≤ iv.length) (h13 : iv.length ≤ 13) (h1 : 4 ≤ t) (h2 : t ≤ 16) :
    prelude enc iv A n t = (blocks 16 (zeroFill 16 (ccmAad A))).foldl (mac enc) (enc (ccmB0 iv A t n)) := by
  obtain ⟨h, hl, ha, hc⟩ := aadHead_eq A
  unfold prelude
  simp only []
  rw [b0_eq iv A h7 h13 t n h1 h2, ha]
  simp only []
  generalize enc (ccmB0 iv A t n) = Y0
  obtain ⟨e, hlt⟩ := aad_fold enc A h Y0 hl
  rw [e]
  simp only []
  have hp : A.foldl (pushByte (mac enc) 16) (Y0, h) = ((blocks 16 (ccmAad A)).foldl (mac enc) Y0, tailBlock 16 (ccmAad A)) := by
    rw [← foldl_pushByte (mac enc) 16 (by omega) Y0 (ccmAad A), hc, List.foldl_append, foldl_pushByte (mac enc) 16 (by omega) Y0 h,
      blocks_short hl, tailBlock_short hl]
    rfl
  rw [hp, zeroFill_split, List.foldl_append]
  simp only []
  by_cases ht : tailBlock 16 (ccmAad A) = []
  · rw [if_pos ht, ht]
    simp
  · rw [if_neg ht, if_pos (fun e => ht (List.length_eq_zero_iff.mp e))]
    rfl


/-! The main loops. -/

/-- The accumulator after the plaintext bytes `P`. -/
def acc (Y0 : List Byte) (P : List Byte) : List Byte × List Byte := P.foldl (pushByte (mac enc) 16) (Y0, [])

theorem acc_tail (Y0 P : List Byte) : (acc enc Y0 P).2.length = P.length % 16 := by
  unfold acc
  rw [foldl_pushByte (mac enc) 16 (by omega)]
  exact length_tailBlock 16 P

/-- The loop state after `P`. -/
def stAt (iv Y0 P : List Byte) (M : Mem) : St :=
  { i := P.length, j := P.length % 16, B := padTo (acc enc Y0 P).2, Y := (acc enc Y0 P).1, Ctr := ccmCtr iv (P.length / 16 + 1),
    S := enc (ccmCtr iv (P.length / 16 + 1)), mem := M }

theorem step_core (iv : List Byte) (h7 : 7 ≤ iv.length) (h13 : iv.length ≤ 13) (Y0 P : List Byte) (b : Byte) (hP : P.length < 31) (M M' : Mem) :
    (let s : St := { stAt enc iv Y0 P M with B := (stAt enc iv Y0 P M).B.set (stAt enc iv Y0 P M).j b, mem := M', i := P.length + 1, j := P.length % 16 + 1 }
     if s.j ≥ 16 then fullBlock enc iv.length s else s) = stAt enc iv Y0 (P ++ [b]) M' := by
  have ht := acc_tail enc Y0 P
  have hs : (stAt enc iv Y0 P M).B.set (stAt enc iv Y0 P M).j b = padTo ((acc enc Y0 P).2 ++ [b]) := by
    show (padTo (acc enc Y0 P).2).set (P.length % 16) b = _
    rw [← ht]
    exact padTo_set _ (by omega) b
  have ha : acc enc Y0 (P ++ [b]) = pushByte (mac enc) 16 (acc enc Y0 P) b := by
    unfold acc
    rw [List.foldl_append]
    rfl
  have hl : ((acc enc Y0 P).2 ++ [b]).length = P.length % 16 + 1 := by simp [ht]
  simp only []
  rw [hs]
  by_cases hf : P.length % 16 + 1 = 16
  · have hP15 : P.length = 15 := by omega
    rw [if_pos (by omega)]
    have hp : pushByte (mac enc) 16 (acc enc Y0 P) b = (mac enc (acc enc Y0 P).1 ((acc enc Y0 P).2 ++ [b]), []) := by
      unfold pushByte
      rw [if_pos (by omega)]
    unfold fullBlock stAt
    rw [ha, hp]
    simp only []
    rw [padTo_full _ (by omega)]
    rw [List.length_append, hP15]
    have hb := bump_eq iv h7 h13
    simp only [Nat.reduceDiv, Nat.zero_add, List.length_singleton, Nat.reduceAdd, Nat.reduceMod]
    rw [hb]
    rfl
  · rw [if_neg (by omega)]
    have hp : pushByte (mac enc) 16 (acc enc Y0 P) b = ((acc enc Y0 P).1, (acc enc Y0 P).2 ++ [b]) := by
      unfold pushByte
      rw [if_neg (by omega)]
    unfold stAt
    rw [ha, hp]
    simp only [List.length_append, List.length_singleton]
    rw [show (P.length + 1) % 16 = P.length % 16 + 1 by omega, show (P.length + 1) / 16 = P.length / 16 by omega]

/-- The key stream byte `k`. -/
def ks (iv : List Byte) (k : Nat) : Byte := (enc (ccmCtr iv (k / 16 + 1))).getD (k % 16) 0

theorem encStep_eq (iv : List Byte) (h7 : 7 ≤ iv.length) (h13 : iv.length ≤ 13) (Y0 : List Byte) (m : Mem) (inp out n k : Nat) (hn : n ≤ 31)
    (hk : k < n) (hs : Streamable inp out n) :
    encStep enc iv.length inp out (stAt enc iv Y0 (bytesAt m inp k) (xored m inp out (ks enc iv) k)) =
      stAt enc iv Y0 (bytesAt m inp (k + 1)) (xored m inp out (ks enc iv) (k + 1)) := by
  have hb : bytesAt m inp (k + 1) = bytesAt m inp k ++ [m (inp + k)] := by
    unfold bytesAt
    rw [List.range_succ, List.map_append]
    rfl
  have hl := length_bytesAt m inp k
  rw [hb, ← step_core enc iv h7 h13 Y0 _ (m (inp + k)) (by omega) (xored m inp out (ks enc iv) k), ← xored_step hs m _ k hk,
    xored_read hs m _ k k (le_refl _) hk]
  unfold encStep
  simp only []
  rw [show (stAt enc iv Y0 (bytesAt m inp k) (xored m inp out (ks enc iv) k)).i = k from hl,
    show (stAt enc iv Y0 (bytesAt m inp k) (xored m inp out (ks enc iv) k)).j = k % 16 by simp [stAt, hl], hl,
    show (stAt enc iv Y0 (bytesAt m inp k) (xored m inp out (ks enc iv) k)).mem = xored m inp out (ks enc iv) k from rfl,
    xored_read hs m _ k k (le_refl _) hk,
    show (stAt enc iv Y0 (bytesAt m inp k) (xored m inp out (ks enc iv) k)).S.getD (k % 16) 0 = ks enc iv k by simp [stAt, hl, ks]]

theorem decStep_eq (iv : List Byte) (h7 : 7 ≤ iv.length) (h13 : iv.length ≤ 13) (Y0 : List Byte) (m : Mem) (inp n k : Nat) (hn : n ≤ 31) (hk : k < n)
    (P : List Byte) (hP : P.length = n) (hx : ∀ i, i < n → P.getD i 0 = m (inp + i) ^^^ ks enc iv i) :
    decStep enc iv.length inp (stAt enc iv Y0 (P.take k) m) = stAt enc iv Y0 (P.take (k + 1)) m := by
  have hb : P.take (k + 1) = P.take k ++ [m (inp + k) ^^^ ks enc iv k] := by
    rw [List.take_succ, List.getElem?_eq_getElem (by omega)]
    have := hx k hk
    rw [List.getD_eq_getElem?_getD, List.getElem?_eq_getElem (by omega)] at this
    rw [← this]
    rfl
  have hl : (P.take k).length = k := by simp; omega
  rw [hb, ← step_core enc iv h7 h13 Y0 _ _ (by omega) m]
  unfold decStep
  simp only []
  rw [show (stAt enc iv Y0 (P.take k) m).i = k from hl,
    show (stAt enc iv Y0 (P.take k) m).j = k % 16 by simp [stAt, hl], hl,
    show (stAt enc iv Y0 (P.take k) m).mem = m from rfl,
    show (stAt enc iv Y0 (P.take k) m).S.getD (k % 16) 0 = ks enc iv k by simp [stAt, hl, ks]]

/-- Running the loop along a sequence of states. -/
theorem loop_run (step : St → St) (n : Nat) (f : Nat → St) (hi : ∀ k, k ≤ n → (f k).i = k) (hs : ∀ k, k < n → step (f k) = f (k + 1)) :
    ∀ d fuel k, k + d = n → d ≤ fuel → loop step n fuel (f k) = some (f n) := by
  intro d
  induction d with
  | zero =>
    intro fuel k hk _
    have : k = n := by omega
    subst this
    have h := hi k (le_refl _)
    cases fuel <;> (unfold loop; rw [if_neg (by omega)])
  | succ d ih =>
    intro fuel k hk hf
    have h := hi k (by omega)
    obtain ⟨g, hg⟩ : ∃ g, fuel = g + 1 := ⟨fuel - 1, by omega⟩
    subst hg
    unfold loop
    rw [if_pos (by omega), hs k (by omega)]
    exact ih g (k + 1) (by omega) (by omega)

/-- The loops never end when there are 32 bytes or more. -/
theorem loop_stuck (step : St → St) (n : Nat) (hn : 32 ≤ n)
    (hstep : ∀ s : St, ((s.i = s.j ∨ s.i = 16 + s.j) ∧ s.j < 16) → (((step s).i = (step s).j ∨ (step s).i = 16 + (step s).j) ∧ (step s).j < 16)) :
    ∀ fuel (s : St), ((s.i = s.j ∨ s.i = 16 + s.j) ∧ s.j < 16) → loop step n fuel s = none := by
  intro fuel
  induction fuel with
  | zero => intro s h; unfold loop; rw [if_pos (by omega)]
  | succ f ih => intro s h; unfold loop; rw [if_pos (by omega)]; exact ih _ (hstep s h)

theorem encStep_stuck (ivlen inp out : Nat) (s : St) (h : (s.i = s.j ∨ s.i = 16 + s.j) ∧ s.j < 16) :
    ((encStep enc ivlen inp out s).i = (encStep enc ivlen inp out s).j ∨ (encStep enc ivlen inp out s).i = 16 + (encStep enc ivlen inp out s).j) ∧
      (encStep enc ivlen inp out s).j < 16 := by
  unfold encStep
  simp only []
  split
  · simp [fullBlock]
  · simp only [ge_iff_le, not_le] at *
    refine ⟨?_, by assumption⟩
    omega

theorem decStep_stuck (ivlen inp : Nat) (s : St) (h : (s.i = s.j ∨ s.i = 16 + s.j) ∧ s.j < 16) :
    ((decStep enc ivlen inp s).i = (decStep enc ivlen inp s).j ∨ (decStep enc ivlen inp s).i = 16 + (decStep enc ivlen inp s).j) ∧
      (decStep enc ivlen inp s).j < 16 := by
  unfold decStep
  simp only []
  split
  · simp [fullBlock]
  · simp only [ge_iff_le, not_le] at *
    refine ⟨?_, by assumption⟩
    omega

theorem zipXor_zeros (X : List Byte) (h : X.length = 16) : List.zipWith (· ^^^ ·) X (List.replicate 16 (0 : Byte)) = X := by
  apply list_ext_getD (by simp [h])
  intro k hk
  have hk' : k < 16 := by simp at hk; omega
  rw [List.getD_eq_getElem?_getD, List.getElem?_zipWith, List.getElem?_eq_getElem (by omega), List.getElem?_replicate, if_pos hk']
  simp [List.getD_eq_getElem?_getD, List.getElem?_eq_getElem (h ▸ hk')]

theorem length_b0 (iv A : List Byte) (h13 : iv.length ≤ 13) (t n : Nat) : (ccmB0 iv A t n).length = 16 := by
  simp [ccmB0, beN]; omega

theorem length_ctr (iv : List Byte) (h13 : iv.length ≤ 13) (n : Nat) : (ccmCtr iv n).length = 16 := by
  simp [ccmCtr, beN]; omega

/-- The final `Y`, `S`. -/
theorem finish_eq (iv A P : List Byte) (t : Nat) (h7 : 7 ≤ iv.length) (h13 : iv.length ≤ 13) (h1 : 4 ≤ t) (h2 : t ≤ 16) (M : Mem) :
    finish enc iv.length (stAt enc iv (prelude enc iv A P.length t) P M) = (ccmMac enc iv A P t, enc (ccmCtr iv 0)) := by
  unfold finish
  have hc : (stAt enc iv (prelude enc iv A P.length t) P M).Ctr = ccmCtr iv (P.length / 16 + 1) := rfl
  rw [hc, clear_eq iv h7 h13]
  refine Prod.ext ?_ rfl
  show (if P.length % 16 ≠ 0 then mac enc (acc enc _ P).1 (padTo (acc enc _ P).2) else (acc enc _ P).1) = _
  unfold ccmMac
  have hB := length_b0 iv A h13 t P.length
  have hal : 16 ∣ (zeroFill 16 (ccmAad A)).length := ⟨_, by rw [length_zeroFill 16 (by omega), Nat.mul_comm]⟩
  rw [List.append_assoc, blocks_append_aligned (by omega) ⟨1, by omega⟩, blocks_append_aligned (by omega) hal, blocks_single (by omega) hB,
    List.foldl_append, List.foldl_append]
  simp only [List.foldl_cons, List.foldl_nil]
  rw [show xorBytes (ccmB0 iv A t P.length) (List.replicate 16 0) = ccmB0 iv A t P.length from zipXor_zeros _ hB]
  rw [prelude_eq enc iv A P.length t h7 h13 h1 h2]
  rw [show (fun Y B => enc (xorBytes B Y)) = mac enc from rfl]
  generalize (blocks 16 (zeroFill 16 (ccmAad A))).foldl (mac enc) (enc (ccmB0 iv A t P.length)) = Y0
  have ht := acc_tail enc Y0 P
  rw [zeroFill_split, List.foldl_append]
  unfold acc at ht ⊢
  rw [foldl_pushByte (mac enc) 16 (by omega)] at ht ⊢
  simp only [] at ht ⊢
  by_cases h : tailBlock 16 P = []
  · rw [if_pos h, if_neg (by rw [h] at ht; simp at ht; omega)]
    rfl
  · rw [if_neg h, if_pos (by rw [← ht]; exact fun e => h (List.length_eq_zero_iff.mp e))]
    rfl

theorem start_eq (iv A : List Byte) (n t : Nat) (h7 : 7 ≤ iv.length) (h13 : iv.length ≤ 13) (m : Mem) :
    start enc iv A n t m = stAt enc iv (prelude enc iv A n t) [] m := by
  unfold start stAt
  rw [ctrInit_eq iv h7 h13]
  rfl

theorem xor_take (a b : List Byte) (ha : a.length = 16) (hb : b.length = 16) (t : Nat) (ht : t ≤ 16) :
    ((List.range t).map fun j => a.getD j 0 ^^^ b.getD j 0) = (xorBytes a b).take t := by
  apply List.ext_getElem
  · simp [xorBytes, ha, hb]; omega
  · intro k h1 h2
    have hk : k < t := by simpa using h1
    simp [xorBytes, List.getD_eq_getElem?_getD, List.getElem?_eq_getElem (show k < a.length by omega), List.getElem?_eq_getElem (show k < b.length by omega)]

theorem length_mac (E : List Byte → List Byte) (hE : ∀ x, x.length = 16 → (E x).length = 16) (bs : List (List Byte)) : ∀ Y0 : List Byte, Y0.length = 16 →
    (∀ b ∈ bs, b.length = 16) → (bs.foldl (fun Y B => E (xorBytes B Y)) Y0).length = 16 := by
  induction bs with
  | nil => intro Y h _; exact h
  | cons b bs ih =>
    intro Y h hb
    rw [List.foldl_cons]
    refine ih _ (hE _ ?_) (fun x hx => hb x (List.mem_cons_of_mem _ hx))
    simp [xorBytes, h, hb b (List.mem_cons_self ..)]

theorem length_ccmMac (E : List Byte → List Byte) (hE : ∀ x, x.length = 16 → (E x).length = 16) (N A P : List Byte) (t : Nat) :
    (ccmMac E N A P t).length = 16 :=
  length_mac E hE _ _ (by simp) (fun b hb => by
    unfold blocks at hb
    obtain ⟨i, hi, rfl⟩ := List.mem_map.mp hb
    have hi := List.mem_range.mp hi
    rw [List.length_take, List.length_drop]
    have := Nat.div_mul_le_self (ccmB0 N A t P.length ++ zeroFill 16 (ccmAad A) ++ zeroFill 16 P).length 16
    have : (i + 1) * 16 ≤ (ccmB0 N A t P.length ++ zeroFill 16 (ccmAad A) ++ zeroFill 16 P).length := le_trans (Nat.mul_le_mul_right 16 hi) this
    omega)

theorem encrypt_spec (hE : ∀ x, x.length = 16 → (enc x).length = 16) (iv A : List Byte) (len inp out t : Nat) (m : Mem) (fuel : Nat)
    (h7 : 7 ≤ iv.length) (h13 : iv.length ≤ 13) (h1 : 4 ≤ t) (h2 : t ≤ 16) (h3 : t % 2 = 0) (hl : len ≤ 31) (hf : len ≤ fuel) (hs : Streamable inp out len) :
    encrypt enc iv A len inp out t m fuel = .done (storeAt m out (ccmCipher enc iv (bytesAt m inp len)), ccmTag enc iv A (bytesAt m inp len) t) := by
  unfold encrypt
  have hpow : 2 ^ 16 ≤ 2 ^ ((15 - iv.length) * 8) := Nat.pow_le_pow_right (by omega) (by omega)
  rw [if_neg (by unfold bad; omega), start_eq enc iv A len t h7 h13]
  have hr := loop_run (encStep enc iv.length inp out) len
    (fun k => stAt enc iv (prelude enc iv A len t) (bytesAt m inp k) (xored m inp out (ks enc iv) k))
    (fun k _ => length_bytesAt m inp k) (fun k hk => encStep_eq enc iv h7 h13 _ m inp out len k hl hk hs) len fuel 0 (by omega) hf
  simp only [xored_zero] at hr
  rw [show bytesAt m inp 0 = [] from rfl] at hr
  rw [hr]
  have hfin := finish_eq enc iv A (bytesAt m inp len) t h7 h13 h1 h2 (xored m inp out (ks enc iv) len)
  rw [length_bytesAt] at hfin
  simp only []
  rw [hfin]
  simp only []
  rw [xor_take _ _ (length_ccmMac enc hE _ _ _ _) (hE _ (length_ctr iv h13 0)) t h2]
  have hx := xored_eq_store m inp out len 16 (by omega) (fun i => enc (ccmCtr iv (i + 1))) (fun i => hE _ (length_ctr iv h13 _))
  show Res.done (xored m inp out (fun k => (enc (ccmCtr iv (k / 16 + 1))).getD (k % 16) 0) len, _) = _
  rw [hx]
  rfl

theorem ctrLoop_eq (iv : List Byte) (h7 : 7 ≤ iv.length) (h13 : iv.length ≤ 13) (m : Mem) (inp out n : Nat) (hn : n ≤ 31) (hs : Streamable inp out n) :
    ∀ d k, k + d = n →
    ctrLoop enc iv.length n inp out k (k % 16) (ccmCtr iv (k / 16 + 1)) (enc (ccmCtr iv (k / 16 + 1))) (xored m inp out (ks enc iv) k) =
      xored m inp out (ks enc iv) n := by
  intro d
  induction d with
  | zero =>
    intro k hk
    unfold ctrLoop
    rw [if_neg (by omega), show k = n by omega]
  | succ d ih =>
    intro k hk
    unfold ctrLoop
    rw [if_pos (by omega)]
    simp only []
    rw [show (enc (ccmCtr iv (k / 16 + 1))).getD (k % 16) 0 = ks enc iv k from rfl, xored_step hs m _ k (by omega)]
    have hi := ih (k + 1) (by omega)
    by_cases h : k % 16 + 1 ≥ 16
    · have hk15 : k = 15 := by omega
      subst hk15
      rw [if_pos h]
      simp only [Nat.reduceDiv, Nat.zero_add, Nat.reduceAdd, Nat.reduceMod] at hi ⊢
      rw [bump_eq iv h7 h13]
      exact hi
    · rw [if_neg h]
      rw [show (k + 1) % 16 = k % 16 + 1 by omega, show (k + 1) / 16 = k / 16 by omega] at hi
      exact hi

theorem foldl_or16 (f : Nat → BitVec 16) (l : List Nat) : ∀ b, (l.foldl (fun b i => b ||| f i) b = 0#16 ↔ b = 0#16 ∧ ∀ i ∈ l, f i = 0#16) := by
  induction l with
  | nil => intro b; simp
  | cons x l ih =>
    intro b
    rw [List.foldl_cons, ih]
    rw [BitVec.or_eq_zero_iff]
    simp only [List.mem_cons, forall_eq_or_imp]
    tauto

theorem setWidth16_eq_zero (x : Byte) : x.setWidth 16 = 0#16 ↔ x = 0#8 := by
  constructor
  · intro h
    apply BitVec.eq_of_toNat_eq
    have := congrArg BitVec.toNat h
    rw [BitVec.toNat_setWidth, Nat.mod_eq_of_lt (by have := x.isLt; omega)] at this
    rw [this]; rfl
  · intro h; subst h; rfl

theorem foldl_or16_lt (f : Nat → Byte) (l : List Nat) : ∀ b : BitVec 16, b.toNat < 256 → (l.foldl (fun (b : BitVec 16) i => b ||| (f i).setWidth 16) b).toNat < 256 := by
  induction l with
  | nil => intro b h; exact h
  | cons x l ih =>
    intro b h
    rw [List.foldl_cons]
    apply ih
    rw [BitVec.toNat_or, BitVec.toNat_setWidth]
    exact Nat.or_lt_two_pow (n := 8) h (lt_of_le_of_lt (Nat.mod_le _ _) (f x).isLt)

theorem tcmp_test (v : BitVec 16) (h : v.toNat < 256) : (v.setWidth 32 - 1#32).sshiftRight 15 = 0#32 ↔ v ≠ 0#16 := by
  have : ∀ n : Fin 256, ((BitVec.ofNat 16 n).setWidth 32 - 1#32).sshiftRight 15 = 0#32 ↔ (BitVec.ofNat 16 n) ≠ 0#16 := by decide +kernel
  have h2 := this ⟨v.toNat, h⟩
  simpa using h2

theorem tag_check (T Y S : List Byte) (hY : Y.length = 16) (hS : S.length = 16) (hT : T.length ≤ 16) :
    (((List.range T.length).foldl (fun (t : BitVec 16) j => t ||| (T.getD j 0 ^^^ Y.getD j 0 ^^^ S.getD j 0).setWidth 16) 0#16).setWidth 32 - 1#32).sshiftRight 15 = 0#32 ↔
      T ≠ (xorBytes Y S).take T.length := by
  rw [tcmp_test _ (foldl_or16_lt (fun j => T.getD j 0 ^^^ Y.getD j 0 ^^^ S.getD j 0) _ _ (by decide)), not_iff_not,
    foldl_or16 (fun j => (T.getD j 0 ^^^ Y.getD j 0 ^^^ S.getD j 0).setWidth 16), ← xor_take Y S hY hS _ hT]
  have hg : ∀ i, i < T.length → ((List.range T.length).map fun j => Y.getD j 0 ^^^ S.getD j 0).getD i 0 = Y.getD i 0 ^^^ S.getD i 0 := by
    intro i hi
    rw [List.getD_eq_getElem?_getD, List.getElem?_map, List.getElem?_range hi]
    rfl
  constructor
  · rintro ⟨_, h⟩
    apply list_ext_getD (by simp)
    intro k hk
    have := (setWidth16_eq_zero _).mp (h k (List.mem_range.mpr hk))
    rw [BitVec.xor_assoc, BitVec.xor_eq_zero_iff] at this
    rw [this, hg k hk]
  · intro h
    refine ⟨rfl, fun i hi => (setWidth16_eq_zero _).mpr ?_⟩
    rw [BitVec.xor_assoc, BitVec.xor_eq_zero_iff, ← hg i (List.mem_range.mp hi), ← h]

theorem decrypt_spec (hE : ∀ x, x.length = 16 → (enc x).length = 16) (iv A T : List Byte) (len inp out : Nat) (m : Mem) (fuel : Nat)
    (h7 : 7 ≤ iv.length) (h13 : iv.length ≤ 13) (h1 : 4 ≤ T.length) (h2 : T.length ≤ 16) (h3 : T.length % 2 = 0) (hl : len ≤ 31) (hf : len ≤ fuel)
    (hs : Streamable inp out len) :
    decrypt enc iv A len inp out T m fuel = .done (
      if T = ccmTag enc iv A (ccmCipher enc iv (bytesAt m inp len)) T.length then (true, storeAt m out (ccmCipher enc iv (bytesAt m inp len)))
      else (false, m)) := by
  unfold decrypt
  have hpow : 2 ^ 16 ≤ 2 ^ ((15 - iv.length) * 8) := Nat.pow_le_pow_right (by omega) (by omega)
  have hEi : ∀ i, ((fun i => enc (ccmCtr iv (i + 1))) i).length = 16 := fun i => hE _ (length_ctr iv h13 _)
  rw [if_neg (by unfold bad; omega), start_eq enc iv A len _ h7 h13]
  obtain ⟨P, hP⟩ : ∃ P, P = ccmCipher enc iv (bytesAt m inp len) := ⟨_, rfl⟩
  have hPl : P.length = len := by
    rw [hP]; unfold ccmCipher
    rw [length_streamXor 16 (by omega) _ hEi, length_bytesAt]
  have hx : ∀ i, i < len → P.getD i 0 = m (inp + i) ^^^ ks enc iv i := by
    intro i hi
    rw [hP]; unfold ccmCipher
    rw [getD_streamXor 16 (by omega) _ hEi _ _ (by rw [length_bytesAt]; exact hi), getD_bytesAt _ _ _ _ hi]
    rfl
  have hr := loop_run (decStep enc iv.length inp) len
    (fun k => stAt enc iv (prelude enc iv A len T.length) (P.take k) m)
    (fun k hk => by simp [stAt]; omega) (fun k hk => decStep_eq enc iv h7 h13 _ m inp len k hl hk P hPl hx) len fuel 0 (by omega) hf
  simp only [List.take_zero] at hr
  rw [hr]
  rw [List.take_of_length_le (by omega)]
  have hfin := finish_eq enc iv A P T.length h7 h13 h1 h2 m
  rw [hPl] at hfin
  simp only []
  rw [hfin]
  simp only []
  have htc := tag_check T (ccmMac enc iv A P T.length) (enc (ccmCtr iv 0)) (length_ccmMac enc hE _ _ _ _) (hE _ (length_ctr iv h13 0)) h2
  rw [← hP]
  by_cases hT : T = ccmTag enc iv A P T.length
  · rw [if_neg (fun h => htc.mp h hT), if_pos hT]
    have hc : (stAt enc iv (prelude enc iv A len T.length) P m).Ctr = ccmCtr iv (P.length / 16 + 1) := rfl
    rw [hc, clear_eq iv h7 h13, reset_eq iv h7 h13]
    have hcl := ctrLoop_eq enc iv h7 h13 m inp out len hl hs len 0 (by omega)
    simp only [Nat.zero_div, Nat.zero_add, Nat.zero_mod, xored_zero] at hcl
    rw [show (stAt enc iv (prelude enc iv A len T.length) P m).mem = m from rfl, hcl]
    have hx := xored_eq_store m inp out len 16 (by omega) (fun i => enc (ccmCtr iv (i + 1))) (fun i => hE _ (length_ctr iv h13 _))
    rw [show ks enc iv = (fun k => (enc (ccmCtr iv (k / 16 + 1))).getD (k % 16) 0) from rfl, hx, hP]
    rfl
  · rw [if_pos (htc.mpr hT), if_neg hT]

end Ccm
