import Verif.Lemmas.Aria
import Verif.Lemmas.CamelliaSpec

/-!
# `aria.c` computes the functions of RFC 5794
-/
namespace Aria
open Spec (lane xorBytes)
open Sbox (W widen wsbox word_ext)
open Endian
open Spec.Camellia (hi lo)

theorem SB1_eq (b : Byte) : Spec.Aria.SB1 b = S1 b := by
  have := NatSbox.aria_s1 ⟨b.toNat, b.isLt⟩
  unfold S1
  simpa using this
theorem SB2_eq (b : Byte) : Spec.Aria.SB2 b = S2 b := by
  have := NatSbox.aria_s2 ⟨b.toNat, b.isLt⟩
  unfold S2
  simpa using this

theorem inverse_spec (s : Byte → Byte) (x : Byte) : s (Spec.Aria.inverse s (s x)) = s x := by
  unfold Spec.Aria.inverse
  have hx : x = BitVec.ofNat 8 x.toNat := by simp
  cases h : (List.range 256).find? (fun y => s (BitVec.ofNat 8 y) == s x) with
  | none =>
    have := List.find?_eq_none.mp h x.toNat (List.mem_range.mpr x.isLt)
    simp at this
  | some y =>
    have := List.find?_some h
    simpa using this

theorem SB3_eq (a b : Byte) (h : S1 a = b) : a = Spec.Aria.SB3 b := by
  have e : Spec.Aria.SB1 = S1 := funext SB1_eq
  apply S1_inj
  unfold Spec.Aria.SB3
  rw [e, ← h, inverse_spec S1]
theorem SB4_eq (a b : Byte) (h : S2 a = b) : a = Spec.Aria.SB4 b := by
  have e : Spec.Aria.SB2 = S2 := funext SB2_eq
  apply S2_inj
  unfold Spec.Aria.SB4
  rw [e, ← h, inverse_spec S2]

theorem word1_st (a b c d : Byte) : st32 (wsbox (a ++ b ++ c ++ d : BitVec (8 + 8 + 8 + 8)) table) =
    [Spec.Aria.SB1 a, Spec.Aria.SB2 b, Spec.Aria.SB3 c, Spec.Aria.SB4 d] := by
  obtain ⟨h3, h2, h1, h0⟩ := Sm4.lane_join a b c d
  generalize hw : (a ++ b ++ c ++ d : BitVec (8 + 8 + 8 + 8)) = w at h3 h2 h1 h0
  show [lane 3 (wsbox w table), lane 2 (wsbox w table), lane 1 (wsbox w table), lane 0 (wsbox w table)] = _
  rw [lane3, lane2, SB3_eq _ _ (lane1 w), SB4_eq _ _ (lane0 w), h3, h2, h1, h0, SB1_eq, SB2_eq]

theorem word2_st (a b c d : Byte) : st32 (word2 (a ++ b ++ c ++ d : BitVec (8 + 8 + 8 + 8))) =
    [Spec.Aria.SB3 a, Spec.Aria.SB4 b, Spec.Aria.SB1 c, Spec.Aria.SB2 d] := by
  obtain ⟨h3, h2, h1, h0⟩ := Sm4.lane_join a b c d
  generalize hw : (a ++ b ++ c ++ d : BitVec (8 + 8 + 8 + 8)) = w at h3 h2 h1 h0
  obtain ⟨g3, g2, g1, g0⟩ := word2_lanes w
  show [lane 3 (word2 w), lane 2 (word2 w), lane 1 (word2 w), lane 0 (word2 w)] = _
  rw [SB3_eq _ _ g3, SB4_eq _ _ g2, g1, g0, h3, h2, h1, h0, SB1_eq, SB2_eq]

theorem sl1_spec (x : List Byte) (h : x.length = 16) : sl1 x = Spec.Aria.SL1 x := by
  obtain ⟨a0, a1, a2, a3, a4, a5, a6, a7, a8, a9, a10, a11, a12, a13, a14, a15, rfl⟩ := list16 x h
  show st32 _ ++ (st32 _ ++ (st32 _ ++ (st32 _ ++ []))) = _
  rw [show ∀ l, ld32 (a0 :: a1 :: a2 :: a3 :: l) 0 = (a0 ++ a1 ++ a2 ++ a3 : BitVec (8 + 8 + 8 + 8)) from fun _ => rfl,
    show ∀ l, ld32 (a0 :: a1 :: a2 :: a3 :: a4 :: a5 :: a6 :: a7 :: l) 1 = (a4 ++ a5 ++ a6 ++ a7 : BitVec (8 + 8 + 8 + 8)) from fun _ => rfl,
    show ∀ l, ld32 (a0 :: a1 :: a2 :: a3 :: a4 :: a5 :: a6 :: a7 :: a8 :: a9 :: a10 :: a11 :: l) 2 = (a8 ++ a9 ++ a10 ++ a11 : BitVec (8 + 8 + 8 + 8)) from fun _ => rfl,
    show ld32 [a0, a1, a2, a3, a4, a5, a6, a7, a8, a9, a10, a11, a12, a13, a14, a15] 3 = (a12 ++ a13 ++ a14 ++ a15 : BitVec (8 + 8 + 8 + 8)) from rfl,
    word1_st, word1_st, word1_st, word1_st]
  unfold Spec.Aria.SL1
  simp [List.mapIdx_cons]

theorem sl2_spec (x : List Byte) (h : x.length = 16) : sl2 x = Spec.Aria.SL2 x := by
  obtain ⟨a0, a1, a2, a3, a4, a5, a6, a7, a8, a9, a10, a11, a12, a13, a14, a15, rfl⟩ := list16 x h
  show st32 (word2 _) ++ (st32 (word2 _) ++ (st32 (word2 _) ++ (st32 (word2 _) ++ []))) = _
  rw [show ∀ l, ld32 (a0 :: a1 :: a2 :: a3 :: l) 0 = (a0 ++ a1 ++ a2 ++ a3 : BitVec (8 + 8 + 8 + 8)) from fun _ => rfl,
    show ∀ l, ld32 (a0 :: a1 :: a2 :: a3 :: a4 :: a5 :: a6 :: a7 :: l) 1 = (a4 ++ a5 ++ a6 ++ a7 : BitVec (8 + 8 + 8 + 8)) from fun _ => rfl,
    show ∀ l, ld32 (a0 :: a1 :: a2 :: a3 :: a4 :: a5 :: a6 :: a7 :: a8 :: a9 :: a10 :: a11 :: l) 2 = (a8 ++ a9 ++ a10 ++ a11 : BitVec (8 + 8 + 8 + 8)) from fun _ => rfl,
    show ld32 [a0, a1, a2, a3, a4, a5, a6, a7, a8, a9, a10, a11, a12, a13, a14, a15] 3 = (a12 ++ a13 ++ a14 ++ a15 : BitVec (8 + 8 + 8 + 8)) from rfl,
    word2_st, word2_st, word2_st, word2_st]
  unfold Spec.Aria.SL2
  simp [List.mapIdx_cons]

theorem A_spec (x : List Byte) : A x = Spec.Aria.A x := by
  have z : ∀ y : Byte, (0 : Byte) ^^^ y = y := fun y => BitVec.zero_xor
  unfold A Spec.Aria.A Spec.Aria.rows xsum
  simp only [List.map_cons, List.map_nil, List.foldl_cons, List.foldl_nil, z]

theorem xorBytes_len {a b : List Byte} (ha : a.length = 16) (hb : b.length = 16) : (xorBytes a b).length = 16 := by
  unfold xorBytes; rw [List.length_zipWith, ha, hb]; rfl

theorem addKey_spec (x ek : List Byte) (j : Nat) (h : x.length = 16) : addKey x ek j = xorBytes x (take16 ek j) := by
  obtain ⟨a0, a1, a2, a3, a4, a5, a6, a7, a8, a9, a10, a11, a12, a13, a14, a15, rfl⟩ := list16 x h
  rfl

theorem take16_self (x : List Byte) (h : x.length = 16) : take16 x 0 = x := by
  obtain ⟨a0, a1, a2, a3, a4, a5, a6, a7, a8, a9, a10, a11, a12, a13, a14, a15, rfl⟩ := list16 x h
  rfl

theorem FO_spec (x ek : List Byte) (j : Nat) (h : x.length = 16) : FO x ek j = Spec.Aria.FO x (take16 ek j) := by
  unfold FO Spec.Aria.FO
  rw [addKey_spec _ _ _ h, sl1_spec _ (xorBytes_len h (take16_len _ _)), A_spec]
theorem FE_spec (x ek : List Byte) (j : Nat) (h : x.length = 16) : FE x ek j = Spec.Aria.FE x (take16 ek j) := by
  unfold FE Spec.Aria.FE
  rw [addKey_spec _ _ _ h, sl2_spec _ (xorBytes_len h (take16_len _ _)), A_spec]
theorem FO_len (x k : List Byte) : (Spec.Aria.FO x k).length = 16 := rfl
theorem FE_len (x k : List Byte) : (Spec.Aria.FE x k).length = 16 := rfl

/-! ### Rounds -/

/-- The rounds but the last. -/
def front (k : Nat → List Byte) (n : Nat) (P : List Byte) : List Byte :=
  (List.range n).foldl (fun s i => if i % 2 = 0 then Spec.Aria.FO s (k i) else Spec.Aria.FE s (k i)) P

theorem front_succ (k : Nat → List Byte) (n : Nat) (P : List Byte) :
    front k (n + 1) P = if n % 2 = 0 then Spec.Aria.FO (front k n P) (k n) else Spec.Aria.FE (front k n P) (k n) := by
  unfold front
  rw [List.range_succ, List.foldl_append]; rfl

theorem front_len (k : Nat → List Byte) (n : Nat) (P : List Byte) (h : P.length = 16) : (front k n P).length = 16 := by
  cases n with
  | zero => exact h
  | succ n =>
    rw [front_succ]; split
    · rfl
    · rfl

theorem encLoop_spec (ek : List Byte) (n : Nat) (P : List Byte) (h : P.length = 16) : encLoop ek n P = front (take16 ek) (2 * n) P := by
  induction n with
  | zero => rfl
  | succ n ih =>
    have e : encLoop ek (n + 1) P = FE (FO (encLoop ek n P) ek (n * 2 + 0)) ek (n * 2 + 1) := by
      unfold encLoop; rw [List.range_succ, List.foldl_append]; rfl
    have hl := front_len (take16 ek) (2 * n) P h
    rw [e, ih, FO_spec _ _ _ hl, FE_spec _ _ _ (FO_len _ _), show 2 * (n + 1) = 2 * n + 1 + 1 by omega, front_succ, front_succ,
      if_neg (by omega), if_pos (by omega), show n * 2 + 0 = 2 * n by omega, show n * 2 + 1 = 2 * n + 1 by omega]

theorem enc_generic (m : Nat) (inp ek : List Byte) (h : inp.length = 16) (k : Nat → List Byte) (hk : ∀ i, i ≤ 2 * m + 2 → take16 ek i = k i) :
    encryptGeneric inp ek (2 * m + 2) = Spec.Aria.crypt (2 * m + 2) k inp := by
  have hf : front k (2 * m + 1) inp = front (take16 ek) (2 * m + 1) inp := by
    unfold front
    apply List.foldl_ext
    intro a b hb
    rw [hk b (by have := List.mem_range.mp hb; omega)]
  unfold encryptGeneric Spec.Aria.crypt
  simp only []
  have e0 : (List.range 16).map (fun i => inp.getD i 0) = inp := by
    obtain ⟨a0, a1, a2, a3, a4, a5, a6, a7, a8, a9, a10, a11, a12, a13, a14, a15, rfl⟩ := list16 inp h
    rfl
  have hl := front_len (take16 ek) (2 * m) inp h
  have e1 : Spec.Aria.FO (front (take16 ek) (2 * m) inp) (take16 ek (2 * m)) = front (take16 ek) (2 * m + 1) inp := by
    rw [front_succ, if_pos (by omega)]
  rw [e0, show (2 * m + 2) / 2 - 1 = m by omega, encLoop_spec _ _ _ h, FO_spec _ _ _ hl, show m * 2 + 0 = 2 * m by omega, e1,
    addKey_spec _ _ _ (front_len _ _ _ h), sl2_spec _ (xorBytes_len (front_len _ _ _ h) (take16_len _ _)),
    addKey_spec _ _ _ (by unfold Spec.Aria.SL2; rw [List.length_mapIdx]; exact xorBytes_len (front_len _ _ _ h) (take16_len _ _)),
    show m * 2 + 1 = 2 * m + 1 by omega, show m * 2 + 2 = 2 * m + 2 by omega, show 2 * m + 2 - 1 = 2 * m + 1 by omega, hk _ (by omega), hk _ (by omega)]
  show _ = xorBytes (Spec.Aria.SL2 (xorBytes (front k (2 * m + 1) inp) _)) _
  rw [hf]

/-- The round keys as `ARIA_Decrypt_Generic` derives them. -/
def dkey (ek : List Byte) (c i : Nat) : List Byte := if i = 0 then take16 ek c else if i = c then take16 ek 0 else A (take16 ek (c - i))

theorem dkey_len (ek : List Byte) (c i : Nat) : (dkey ek c i).length = 16 := by
  unfold dkey; split
  · exact take16_len _ _
  · split
    · exact take16_len _ _
    · rfl

theorem decLoop_spec (ek inp : List Byte) (c : Nat) (h : inp.length = 16) (r m : Nat) (hc : c = 2 * m + 2 + 2 * r) :
    decLoop ek (front (dkey ek c) (2 * m) inp) (dkey ek c (2 * m)) (c - 2 * m) = (front (dkey ek c) (c - 2) inp, dkey ek c (c - 2), 2) := by
  induction r generalizing m with
  | zero =>
    rw [decLoop, if_neg (by omega), show c - 2 = 2 * m by omega, show c - 2 * m = 2 by omega]
  | succ r ih =>
    have hl := front_len (dkey ek c) (2 * m) inp h
    rw [decLoop, if_pos (by omega)]
    simp only []
    rw [FO_spec _ _ _ hl, take16_self _ (dkey_len _ _ _), FE_spec _ _ _ (FO_len _ _), take16_self _ (A_len _)]
    have e1 : A (take16 ek (c - 2 * m - 1)) = dkey ek c (2 * m + 1) := by
      unfold dkey; rw [if_neg (by omega), if_neg (by omega), show c - (2 * m + 1) = c - 2 * m - 1 by omega]
    have e2 : A (take16 ek (c - 2 * m - 2)) = dkey ek c (2 * (m + 1)) := by
      unfold dkey; rw [if_neg (by omega), if_neg (by omega), show c - (2 * (m + 1)) = c - 2 * m - 2 by omega]
    have e3 : Spec.Aria.FE (Spec.Aria.FO (front (dkey ek c) (2 * m) inp) (dkey ek c (2 * m))) (dkey ek c (2 * m + 1)) =
        front (dkey ek c) (2 * (m + 1)) inp := by
      rw [show 2 * (m + 1) = 2 * m + 1 + 1 by omega, front_succ, front_succ, if_neg (by omega), if_pos (by omega)]
    rw [e1, e2, e3, show c - 2 * m - 2 = c - 2 * (m + 1) by omega, ih (m + 1) (by omega)]

theorem dec_generic (m : Nat) (inp ek : List Byte) (h : inp.length = 16) :
    decryptGeneric inp ek (2 * m + 2) = Spec.Aria.crypt (2 * m + 2) (dkey ek (2 * m + 2)) inp := by
  unfold decryptGeneric Spec.Aria.crypt
  simp only []
  have e0 : (List.range 16).map (fun i => inp.getD i 0) = inp := by
    obtain ⟨a0, a1, a2, a3, a4, a5, a6, a7, a8, a9, a10, a11, a12, a13, a14, a15, rfl⟩ := list16 inp h
    rfl
  have e := decLoop_spec ek inp (2 * m + 2) h m 0 (by omega)
  have hd0 : dkey ek (2 * m + 2) (2 * 0) = take16 ek (2 * m + 2) := rfl
  have hf0 : front (dkey ek (2 * m + 2)) (2 * 0) inp = inp := rfl
  rw [hd0, hf0, Nat.mul_zero, Nat.sub_zero] at e
  have hl := front_len (dkey ek (2 * m + 2)) (2 * m + 2 - 2) inp h
  rw [e0, e]
  simp only []
  have e1 : Spec.Aria.FO (front (dkey ek (2 * m + 2)) (2 * m + 2 - 2) inp) (dkey ek (2 * m + 2) (2 * m + 2 - 2)) =
      front (dkey ek (2 * m + 2)) (2 * m + 1) inp := by
    rw [front_succ, if_pos (by omega)]; rfl
  have e2 : A (take16 ek 1) = dkey ek (2 * m + 2) (2 * m + 1) := by
    unfold dkey; rw [if_neg (by omega), if_neg (by omega), show 2 * m + 2 - (2 * m + 1) = 1 by omega]
  have e3 : take16 ek 0 = dkey ek (2 * m + 2) (2 * m + 2) := by
    unfold dkey; rw [if_neg (by omega), if_pos rfl]
  have hl2 := front_len (dkey ek (2 * m + 2)) (2 * m + 1) inp h
  rw [FO_spec _ _ _ hl, take16_self _ (dkey_len _ _ _), e1, addKey_spec _ _ _ hl2, take16_self _ (A_len _), e2,
    sl2_spec _ (xorBytes_len hl2 (dkey_len _ _ _)),
    addKey_spec _ _ _ (by unfold Spec.Aria.SL2; rw [List.length_mapIdx]; exact xorBytes_len hl2 (dkey_len _ _ _)), e3]
  rfl

open Camellia (hi_app lo_app app_hi_lo hi_xor lo_xor rot_hi rot_lo rot_hi' rot_lo' num128 hi_num lo_num ld64_take ld64_drop)

/-! ### The key schedule -/

theorem ext_ext (x : BitVec 128) (a b c : Nat) (hb : b + 8 ≤ 32) (ha : a + 32 ≤ 64) :
    ((x.extractLsb' c 64).extractLsb' a 32).extractLsb' b 8 = x.extractLsb' (c + a + b) 8 := by
  apply BitVec.eq_of_getLsbD_eq; intro i hi
  simp only [BitVec.getLsbD_extractLsb', hi, show b + i < 32 by omega, show a + (b + i) < 64 by omega, decide_true, Bool.true_and]
  congr 1; omega

theorem octets_eq (x : BitVec 128) : Spec.Aria.octets x = st64 (hi x) ++ st64 (lo x) := by
  unfold Spec.Aria.octets st64 st32 hi lo
  rw [show (List.range 16) = [0, 1, 2, 3, 4, 5, 6, 7, 8, 9, 10, 11, 12, 13, 14, 15] from rfl]
  simp only [List.map_cons, List.map_nil, List.cons_append, List.nil_append, ext_ext _ _ _ _ (show 24 + 8 ≤ 32 by omega) (show 32 + 32 ≤ 64 by omega),
    ext_ext _ _ _ _ (show 16 + 8 ≤ 32 by omega) (show 32 + 32 ≤ 64 by omega), ext_ext _ _ _ _ (show 8 + 8 ≤ 32 by omega) (show 32 + 32 ≤ 64 by omega),
    ext_ext _ _ _ _ (show 0 + 8 ≤ 32 by omega) (show 32 + 32 ≤ 64 by omega), ext_ext _ _ _ _ (show 24 + 8 ≤ 32 by omega) (show 0 + 32 ≤ 64 by omega),
    ext_ext _ _ _ _ (show 16 + 8 ≤ 32 by omega) (show 0 + 32 ≤ 64 by omega), ext_ext _ _ _ _ (show 8 + 8 ≤ 32 by omega) (show 0 + 32 ≤ 64 by omega),
    ext_ext _ _ _ _ (show 0 + 8 ≤ 32 by omega) (show 0 + 32 ≤ 64 by omega), Nat.reduceAdd, Nat.reduceMul, Nat.reduceSub]

theorem octets_xor (x y : BitVec 128) : Spec.Aria.octets (x ^^^ y) = xorBytes (Spec.Aria.octets x) (Spec.Aria.octets y) := by
  have e : ∀ a, (x ^^^ y).extractLsb' a 8 = x.extractLsb' a 8 ^^^ y.extractLsb' a 8 := fun a => by
    apply BitVec.eq_of_getLsbD_eq; intro i hi; simp [hi]
  unfold Spec.Aria.octets xorBytes
  rw [show (List.range 16) = [0, 1, 2, 3, 4, 5, 6, 7, 8, 9, 10, 11, 12, 13, 14, 15] from rfl]
  simp only [List.map_cons, List.map_nil, e, List.zipWith_cons_cons, List.zipWith_nil_left]

theorem octets_len (x : BitVec 128) : (Spec.Aria.octets x).length = 16 := rfl

theorem pair_eq (x : BitVec 128) (a b : D) (ha : a = hi x) (hb : b = lo x) : pair64 a b = Spec.Aria.octets x := by
  rw [octets_eq, ha, hb]; rfl

theorem rot_r (K : BitVec 128) (n : Nat) (h0 : 0 < n) (h : n < 128) : K.rotateRight n = K.rotateLeft (128 - n) := by
  apply BitVec.eq_of_getLsbD_eq; intro i hi
  rw [BitVec.getLsbD_rotateRight, BitVec.getLsbD_rotateLeft, Nat.mod_eq_of_lt h, Nat.mod_eq_of_lt (show 128 - n < 128 by omega)]
  simp only [hi, decide_true, Bool.true_and]
  by_cases hc : i < 128 - n
  · simp only [hc, decide_true, cond_true]; congr 1; omega
  · simp only [hc, decide_false, cond_false]

theorem rr_hi (K : BitVec 128) (n : Nat) (h0 : 0 < n) (h : n < 64) : hi K >>> n ||| lo K <<< (64 - n) = hi (K.rotateRight n) := by
  rw [rot_r K n h0 (by omega), show 128 - n = (64 - n) + 64 by omega, ← rot_hi' K (64 - n) (by omega) (by omega), show 64 - (64 - n) = n by omega,
    BitVec.or_comm]
theorem rr_lo (K : BitVec 128) (n : Nat) (h0 : 0 < n) (h : n < 64) : lo K >>> n ||| hi K <<< (64 - n) = lo (K.rotateRight n) := by
  rw [rot_r K n h0 (by omega), show 128 - n = (64 - n) + 64 by omega, ← rot_lo' K (64 - n) (by omega) (by omega), show 64 - (64 - n) = n by omega,
    BitVec.or_comm]

theorem st64_len (w : D) : (st64 w).length = 8 := rfl

theorem flat_getD (L : List D) (i r : Nat) (hr : r < 8) : (L.flatMap st64).getD (8 * i + r) 0 = if i < L.length then (st64 (L.getD i 0)).getD r 0 else 0 := by
  induction L generalizing i with
  | nil => simp
  | cons a L ih =>
    rw [List.flatMap_cons]
    cases i with
    | zero =>
      rw [List.getD_append _ _ _ _ (by rw [st64_len]; omega)]; simp
    | succ i =>
      rw [List.getD_append_right _ _ _ _ (by rw [st64_len]; omega), st64_len, show 8 * (i + 1) + r - 8 = 8 * i + r by omega, ih]
      simp

theorem take16_flat (L : List D) (j : Nat) (h : 2 * j + 1 < L.length) : take16 (L.flatMap st64) j = st64 (L.getD (2 * j) 0) ++ st64 (L.getD (2 * j + 1) 0) := by
  unfold take16
  have e : ∀ r, r < 8 → (L.flatMap st64).getD (j * 16 + r) 0 = (st64 (L.getD (2 * j) 0)).getD r 0 := by
    intro r hr; rw [show j * 16 + r = 8 * (2 * j) + r by omega, flat_getD _ _ _ hr, if_pos (by omega)]
  have e' : ∀ r, r < 8 → (L.flatMap st64).getD (j * 16 + (8 + r)) 0 = (st64 (L.getD (2 * j + 1) 0)).getD r 0 := by
    intro r hr; rw [show j * 16 + (8 + r) = 8 * (2 * j + 1) + r by omega, flat_getD _ _ _ hr, if_pos (by omega)]
  rw [show (List.range 16) = [0, 1, 2, 3, 4, 5, 6, 7, 8 + 0, 8 + 1, 8 + 2, 8 + 3, 8 + 4, 8 + 5, 8 + 6, 8 + 7] from rfl]
  simp only [List.map_cons, List.map_nil, e _ (show 0 < 8 by omega), e _ (show 1 < 8 by omega), e _ (show 2 < 8 by omega), e _ (show 3 < 8 by omega),
    e _ (show 4 < 8 by omega), e _ (show 5 < 8 by omega), e _ (show 6 < 8 by omega), e _ (show 7 < 8 by omega),
    e' _ (show 0 < 8 by omega), e' _ (show 1 < 8 by omega), e' _ (show 2 < 8 by omega), e' _ (show 3 < 8 by omega),
    e' _ (show 4 < 8 by omega), e' _ (show 5 < 8 by omega), e' _ (show 6 < 8 by omega), e' _ (show 7 < 8 by omega)]
  rfl

/-- The round keys from `W0 .. W3`. -/
def eks (W0 W1 W2 W3 : BitVec 128) : List (BitVec 128) :=
  [W0 ^^^ W1.rotateRight 19, W1 ^^^ W2.rotateRight 19, W2 ^^^ W3.rotateRight 19, W0.rotateRight 19 ^^^ W3,
   W0 ^^^ W1.rotateRight 31, W1 ^^^ W2.rotateRight 31, W2 ^^^ W3.rotateRight 31, W0.rotateRight 31 ^^^ W3,
   W0 ^^^ W1.rotateLeft 61, W1 ^^^ W2.rotateLeft 61, W2 ^^^ W3.rotateLeft 61, W0.rotateLeft 61 ^^^ W3,
   W0 ^^^ W1.rotateLeft 31, W1 ^^^ W2.rotateLeft 31, W2 ^^^ W3.rotateLeft 31, W0.rotateLeft 31 ^^^ W3,
   W0 ^^^ W1.rotateLeft 19]

theorem kschd_spec (c : Nat) (hc : c = 12 ∨ c = 14 ∨ c = 16) (W0 W1 W2 W3 : BitVec 128) (i : Nat) (hi' : i ≤ c) :
    take16 (kschdGeneric c (hi W0) (lo W0) (hi W1) (lo W1) (hi W2) (lo W2) (hi W3) (lo W3)) i = Spec.Aria.octets ((eks W0 W1 W2 W3).getD i 0) := by
  have a1 := fun K => rr_hi K 19 (by omega) (by omega)
  have a2 := fun K => rr_lo K 19 (by omega) (by omega)
  have a3 := fun K => rr_hi K 31 (by omega) (by omega)
  have a4 := fun K => rr_lo K 31 (by omega) (by omega)
  have a5 := fun K => rot_hi K 61 (by omega) (by omega)
  have a6 := fun K => rot_lo K 61 (by omega) (by omega)
  have a7 := fun K => rot_hi K 31 (by omega) (by omega)
  have a8 := fun K => rot_lo K 31 (by omega) (by omega)
  have a9 := fun K => rot_hi K 19 (by omega) (by omega)
  have a10 := fun K => rot_lo K 19 (by omega) (by omega)
  simp only [Nat.reduceSub] at a1 a2 a3 a4 a5 a6 a7 a8 a9 a10
  unfold kschdGeneric
  simp only [a1, a2, a3, a4, a5, a6, a7, a8, a9, a10, ← hi_xor, ← lo_xor]
  rw [BitVec.xor_comm W3 (W0.rotateRight 19), BitVec.xor_comm W3 (W0.rotateRight 31), BitVec.xor_comm W3 (W0.rotateLeft 61),
    BitVec.xor_comm W3 (W0.rotateLeft 31)]
  rw [octets_eq]
  rcases hc with rfl | rfl | rfl
  all_goals
    rw [take16_flat _ _ (by simp; omega)]
    interval_cases i <;> rfl

theorem numA_hi (x : List Byte) (h : x.length = 16) : hi (Spec.Aria.num x) = ld64 x 0 := hi_num x h
theorem numA_lo (x : List Byte) (h : x.length = 16) : lo (Spec.Aria.num x) = ld64 x 1 := lo_num x h

/-- The key schedule for any constants. -/
theorem with_spec (c : Nat) (key : List Byte) (KL KR CK1 CK2 CK3 : BitVec 128) (hk0 : ld64 key 0 = hi KL) (hk1 : ld64 key 1 = lo KL) :
    let W0 := KL
    let W1 := Spec.Aria.num (Spec.Aria.FO (Spec.Aria.octets W0) (Spec.Aria.octets CK1)) ^^^ KR
    let W2 := Spec.Aria.num (Spec.Aria.FE (Spec.Aria.octets W1) (Spec.Aria.octets CK2)) ^^^ W0
    let W3 := Spec.Aria.num (Spec.Aria.FO (Spec.Aria.octets W2) (Spec.Aria.octets CK3)) ^^^ W1
    keySchedWith c key (hi CK1) (lo CK1) (hi CK2) (lo CK2) (hi CK3) (lo CK3) (hi KR) (lo KR) =
      kschdGeneric c (hi W0) (lo W0) (hi W1) (lo W1) (hi W2) (lo W2) (hi W3) (lo W3) := by
  intro W0 W1 W2 W3
  unfold keySchedWith
  simp only []
  have s1 : ∀ X C : BitVec 128, A (sl1 (pair64 (hi X ^^^ hi C) (lo X ^^^ lo C))) = Spec.Aria.FO (Spec.Aria.octets X) (Spec.Aria.octets C) := by
    intro X C
    rw [pair_eq (X ^^^ C) _ _ (hi_xor _ _).symm (lo_xor _ _).symm, A_spec, sl1_spec _ (octets_len _), octets_xor]; rfl
  have s2 : ∀ X C : BitVec 128, A (sl2 (pair64 (hi X ^^^ hi C) (lo X ^^^ lo C))) = Spec.Aria.FE (Spec.Aria.octets X) (Spec.Aria.octets C) := by
    intro X C
    rw [pair_eq (X ^^^ C) _ _ (hi_xor _ _).symm (lo_xor _ _).symm, A_spec, sl2_spec _ (octets_len _), octets_xor]; rfl
  have h1 : ∀ X C Y : BitVec 128, ld64 (Spec.Aria.FO (Spec.Aria.octets X) (Spec.Aria.octets C)) 0 ^^^ hi Y =
      hi (Spec.Aria.num (Spec.Aria.FO (Spec.Aria.octets X) (Spec.Aria.octets C)) ^^^ Y) := fun X C Y => by rw [hi_xor, numA_hi _ rfl]
  have l1 : ∀ X C Y : BitVec 128, ld64 (Spec.Aria.FO (Spec.Aria.octets X) (Spec.Aria.octets C)) 1 ^^^ lo Y =
      lo (Spec.Aria.num (Spec.Aria.FO (Spec.Aria.octets X) (Spec.Aria.octets C)) ^^^ Y) := fun X C Y => by rw [lo_xor, numA_lo _ rfl]
  have h2 : ∀ X C Y : BitVec 128, ld64 (Spec.Aria.FE (Spec.Aria.octets X) (Spec.Aria.octets C)) 0 ^^^ hi Y =
      hi (Spec.Aria.num (Spec.Aria.FE (Spec.Aria.octets X) (Spec.Aria.octets C)) ^^^ Y) := fun X C Y => by rw [hi_xor, numA_hi _ rfl]
  have l2 : ∀ X C Y : BitVec 128, ld64 (Spec.Aria.FE (Spec.Aria.octets X) (Spec.Aria.octets C)) 1 ^^^ lo Y =
      lo (Spec.Aria.num (Spec.Aria.FE (Spec.Aria.octets X) (Spec.Aria.octets C)) ^^^ Y) := fun X C Y => by rw [lo_xor, numA_lo _ rfl]
  rw [hk0, hk1]
  simp only [s1, s2, h1, l1, h2, l2]
  rfl

theorem ld64_app (a b : List Byte) (t : Nat) (h : 8 * t + 8 ≤ a.length) : ld64 (a ++ b) t = ld64 a t := by
  have e : ∀ i, i < a.length → (a ++ b).getD i 0 = a.getD i 0 := fun i hi => List.getD_append _ _ _ _ hi
  unfold ld64 ld32
  simp only [e _ (show 4 * (2 * t) < a.length by omega), e _ (show 4 * (2 * t) + 1 < a.length by omega), e _ (show 4 * (2 * t) + 2 < a.length by omega),
    e _ (show 4 * (2 * t) + 3 < a.length by omega), e _ (show 4 * (2 * t + 1) < a.length by omega), e _ (show 4 * (2 * t + 1) + 1 < a.length by omega),
    e _ (show 4 * (2 * t + 1) + 2 < a.length by omega), e _ (show 4 * (2 * t + 1) + 3 < a.length by omega)]
theorem ld64_pad (a : List Byte) (n t : Nat) (h : a.length ≤ 8 * t) : ld64 (a ++ List.replicate n 0) t = 0 := by
  have e : ∀ i, a.length ≤ i → (a ++ List.replicate n (0 : Byte)).getD i 0 = 0 := fun i hi => by
    rw [List.getD_append_right _ _ _ _ hi, List.getD_eq_getElem?_getD, List.getElem?_replicate]; split <;> rfl
  unfold ld64 ld32
  simp only [e _ (show a.length ≤ 4 * (2 * t) by omega), e _ (show a.length ≤ 4 * (2 * t) + 1 by omega), e _ (show a.length ≤ 4 * (2 * t) + 2 by omega),
    e _ (show a.length ≤ 4 * (2 * t) + 3 by omega), e _ (show a.length ≤ 4 * (2 * t + 1) by omega), e _ (show a.length ≤ 4 * (2 * t + 1) + 1 by omega),
    e _ (show a.length ≤ 4 * (2 * t + 1) + 2 by omega), e _ (show a.length ≤ 4 * (2 * t + 1) + 3 by omega)]
  rfl

theorem consts : C1h = hi Spec.Aria.C1 ∧ C1l = lo Spec.Aria.C1 ∧ C2h = hi Spec.Aria.C2 ∧ C2l = lo Spec.Aria.C2 ∧ C3h = hi Spec.Aria.C3 ∧
    C3l = lo Spec.Aria.C3 := by decide +kernel

theorem key_halves (key : List Byte) (h : key.length = 16 ∨ key.length = 24 ∨ key.length = 32) :
    let k := key ++ List.replicate (32 - key.length) 0
    ld64 key 0 = hi (Spec.Aria.num (k.take 16)) ∧ ld64 key 1 = lo (Spec.Aria.num (k.take 16)) ∧
    ld64 k 2 = hi (Spec.Aria.num (k.drop 16)) ∧ ld64 k 3 = lo (Spec.Aria.num (k.drop 16)) := by
  intro k
  have hk : k.length = 32 := by simp only [k, List.length_append, List.length_replicate]; omega
  rw [numA_hi _ (by rw [List.length_take]; omega), numA_lo _ (by rw [List.length_take]; omega), numA_hi _ (by rw [List.length_drop]; omega),
    numA_lo _ (by rw [List.length_drop]; omega), ld64_take _ _ (by omega), ld64_take _ _ (by omega), ld64_drop, ld64_drop]
  refine ⟨(ld64_app _ _ _ (by omega)).symm, (ld64_app _ _ _ (by omega)).symm, rfl, rfl⟩

theorem sched128 (key : List Byte) (h : key.length = 16) (i : Nat) (hi' : i ≤ 12) : take16 (keySched128 key) i = Spec.Aria.octets (Spec.Aria.ek key i) := by
  obtain ⟨c1, c2, c3, c4, c5, c6⟩ := consts
  obtain ⟨k0, k1, k2, k3⟩ := key_halves key (Or.inl h)
  rw [ld64_pad _ _ _ (by omega)] at k2 k3
  have e := with_spec 12 key _ (Spec.Aria.num ((key ++ List.replicate (32 - key.length) 0).drop 16)) Spec.Aria.C1 Spec.Aria.C2 Spec.Aria.C3 k0 k1
  simp only [← k2, ← k3] at e
  unfold keySched128
  rw [c1, c2, c3, c4, c5, c6, e, kschd_spec 12 (by simp) _ _ _ _ i hi']
  unfold Spec.Aria.ek Spec.Aria.W Spec.Aria.CK
  rw [h]; rfl
theorem sched192 (key : List Byte) (h : key.length = 24) (i : Nat) (hi' : i ≤ 14) : take16 (keySched192 key) i = Spec.Aria.octets (Spec.Aria.ek key i) := by
  obtain ⟨c1, c2, c3, c4, c5, c6⟩ := consts
  obtain ⟨k0, k1, k2, k3⟩ := key_halves key (Or.inr (Or.inl h))
  rw [ld64_app _ _ _ (by omega)] at k2
  rw [ld64_pad _ _ _ (by omega)] at k3
  unfold keySched192
  rw [c1, c2, c3, c4, c5, c6, k2, k3, with_spec _ _ _ _ _ _ _ k0 k1, kschd_spec 14 (by simp) _ _ _ _ i hi']
  unfold Spec.Aria.ek Spec.Aria.W Spec.Aria.CK
  rw [h]; rfl
theorem sched256 (key : List Byte) (h : key.length = 32) (i : Nat) (hi' : i ≤ 16) : take16 (keySched256 key) i = Spec.Aria.octets (Spec.Aria.ek key i) := by
  obtain ⟨c1, c2, c3, c4, c5, c6⟩ := consts
  obtain ⟨k0, k1, k2, k3⟩ := key_halves key (Or.inr (Or.inr h))
  rw [ld64_app _ _ _ (by omega)] at k2 k3
  unfold keySched256
  rw [c1, c2, c3, c4, c5, c6, k2, k3, with_spec _ _ _ _ _ _ _ k0 k1, kschd_spec 16 (by simp) _ _ _ _ i hi']
  unfold Spec.Aria.ek Spec.Aria.W Spec.Aria.CK
  rw [h]; rfl

theorem crypt_congr (n : Nat) (k k' : Nat → List Byte) (h : ∀ i, i ≤ n → k i = k' i) (P : List Byte) :
    Spec.Aria.crypt n k P = Spec.Aria.crypt n k' P := by
  unfold Spec.Aria.crypt
  simp only []
  rw [h n le_rfl, h (n - 1) (by omega)]
  congr 3
  apply List.foldl_ext
  intro a b hb
  rw [h b (by have := List.mem_range.mp hb; omega)]

theorem dkey_spec (n : Nat) (w key : List Byte) (h : ∀ i, i ≤ n → take16 w i = Spec.Aria.octets (Spec.Aria.ek key i)) (i : Nat) (hi : i ≤ n) :
    dkey w n i = Spec.Aria.dk n key i := by
  unfold dkey Spec.Aria.dk
  rw [h n le_rfl, h 0 (by omega), A_spec, h (n - i) (by omega)]

theorem enc128_spec (key inp : List Byte) (hk : key.length = 16) (h : inp.length = 16) :
    encrypt128 inp (keySched128 key) = Spec.Aria.encrypt key inp := by
  unfold encrypt128; rw [enc_generic 5 inp _ h _ (sched128 key hk)]; unfold Spec.Aria.encrypt Spec.Aria.rounds; rw [hk]; rfl
theorem enc192_spec (key inp : List Byte) (hk : key.length = 24) (h : inp.length = 16) :
    encrypt192 inp (keySched192 key) = Spec.Aria.encrypt key inp := by
  unfold encrypt192; rw [enc_generic 6 inp _ h _ (sched192 key hk)]; unfold Spec.Aria.encrypt Spec.Aria.rounds; rw [hk]; rfl
theorem enc256_spec (key inp : List Byte) (hk : key.length = 32) (h : inp.length = 16) :
    encrypt256 inp (keySched256 key) = Spec.Aria.encrypt key inp := by
  unfold encrypt256; rw [enc_generic 7 inp _ h _ (sched256 key hk)]; unfold Spec.Aria.encrypt Spec.Aria.rounds; rw [hk]; rfl
theorem dec128_spec (key inp : List Byte) (hk : key.length = 16) (h : inp.length = 16) :
    decrypt128 inp (keySched128 key) = Spec.Aria.decrypt key inp := by
  unfold decrypt128; rw [dec_generic 5 inp _ h, crypt_congr _ _ _ (dkey_spec 12 _ key (sched128 key hk))]; unfold Spec.Aria.decrypt Spec.Aria.rounds; rw [hk]; rfl
theorem dec192_spec (key inp : List Byte) (hk : key.length = 24) (h : inp.length = 16) :
    decrypt192 inp (keySched192 key) = Spec.Aria.decrypt key inp := by
  unfold decrypt192; rw [dec_generic 6 inp _ h, crypt_congr _ _ _ (dkey_spec 14 _ key (sched192 key hk))]; unfold Spec.Aria.decrypt Spec.Aria.rounds; rw [hk]; rfl
theorem dec256_spec (key inp : List Byte) (hk : key.length = 32) (h : inp.length = 16) :
    decrypt256 inp (keySched256 key) = Spec.Aria.decrypt key inp := by
  unfold decrypt256; rw [dec_generic 7 inp _ h, crypt_congr _ _ _ (dkey_spec 16 _ key (sched256 key hk))]; unfold Spec.Aria.decrypt Spec.Aria.rounds; rw [hk]; rfl
end Aria
