import Verif.Model.Aria
import Verif.Spec.Lane
import Verif.Lemmas.Sbox
import Verif.Lemmas.Endian

namespace Aria
open Spec Sbox Endian

theorem xlc (a b c : Byte) : a ^^^ (b ^^^ c) = b ^^^ (a ^^^ c) := by ac_rfl
theorem xcancel (a b : Byte) : a ^^^ (a ^^^ b) = b := by rw [← BitVec.xor_assoc, BitVec.xor_self, BitVec.zero_xor]

theorem A_len (x : List Byte) : (A x).length = 16 := rfl

theorem A_A (x : List Byte) (h : x.length = 16) : A (A x) = x := by
  obtain ⟨a0, a1, a2, a3, a4, a5, a6, a7, a8, a9, a10, a11, a12, a13, a14, a15, rfl⟩ := list16 x h
  simp only [A, xsum, List.getD_cons_zero, List.getD_cons_succ]
  simp only [BitVec.xor_assoc]
  simp only [BitVec.xor_comm, xlc, BitVec.xor_self, xcancel, BitVec.xor_zero, BitVec.zero_xor]

/-! ### S-boxes. -/

theorem entry_all : ∀ i : Fin 256,
    lane 3 (entry i).1 = s1Table.getD i 0 ∧ lane 2 (entry i).1 = s2Table.getD i 0 ∧ lane 1 (entry i).1 = BitVec.ofNat 8 i ∧ lane 0 (entry i).1 = BitVec.ofNat 8 i ∧
    lane 3 (entry i).2 = BitVec.ofNat 8 i ∧ lane 2 (entry i).2 = BitVec.ofNat 8 i ∧ lane 1 (entry i).2 = s1Table.getD i 0 ∧ lane 0 (entry i).2 = s2Table.getD i 0 := by
  decide +kernel

/-- Position of a byte in a table. -/
def pos (t : List Byte) (b : Byte) : Nat := t.findIdx (· == b)

theorem s1_pos : ∀ i : Fin 256, pos s1Table (s1Table.getD i 0) = i := by decide +kernel
theorem s2_pos : ∀ i : Fin 256, pos s2Table (s2Table.getD i 0) = i := by decide +kernel
theorem s1_at : ∀ b : Fin 256, pos s1Table (BitVec.ofNat 8 b) < 256 ∧ s1Table.getD (pos s1Table (BitVec.ofNat 8 b)) 0 = BitVec.ofNat 8 b := by decide +kernel
theorem s2_at : ∀ b : Fin 256, pos s2Table (BitVec.ofNat 8 b) < 256 ∧ s2Table.getD (pos s2Table (BitVec.ofNat 8 b)) 0 = BitVec.ofNat 8 b := by decide +kernel

theorem s1_inj (i j : Fin 256) (h : s1Table.getD i 0 = s1Table.getD j 0) : i = j := Fin.ext (by rw [← s1_pos i, h, s1_pos])
theorem s2_inj (i j : Fin 256) (h : s2Table.getD i 0 = s2Table.getD j 0) : i = j := Fin.ext (by rw [← s2_pos i, h, s2_pos])
theorem s1_surj (b : Fin 256) : ∃ i : Fin 256, s1Table.getD i 0 = BitVec.ofNat 8 b := ⟨⟨_, (s1_at b).1⟩, (s1_at b).2⟩
theorem s2_surj (b : Fin 256) : ∃ i : Fin 256, s2Table.getD i 0 = BitVec.ofNat 8 b := ⟨⟨_, (s2_at b).1⟩, (s2_at b).2⟩

def S1 (b : Byte) : Byte := s1Table.getD b.toNat 0
def S2 (b : Byte) : Byte := s2Table.getD b.toNat 0

theorem S1_inj {a b : Byte} (h : S1 a = S1 b) : a = b := by
  have := s1_inj ⟨a.toNat, a.isLt⟩ ⟨b.toNat, b.isLt⟩ h
  exact BitVec.eq_of_toNat_eq (Fin.mk.inj this)
theorem S2_inj {a b : Byte} (h : S2 a = S2 b) : a = b := by
  have := s2_inj ⟨a.toNat, a.isLt⟩ ⟨b.toNat, b.isLt⟩ h
  exact BitVec.eq_of_toNat_eq (Fin.mk.inj this)

theorem idx_iff (b : Byte) (i : Nat) (hi : i < 256) : BitVec.ofNat 8 i = b ↔ i = b.toNat := by
  constructor
  · intro h; rw [← h, BitVec.toNat_ofNat]; omega
  · intro h; rw [h]; simp

theorem lane3 (w : W) : lane 3 (wsbox w table) = S1 (lane 3 w) := by
  unfold table
  rw [wsbox_widen, scan_lane (fun i => (entry i).1) (fun i => (entry i).2) w 3 (by omega) _ (lane 3 w).toNat (List.mem_range.mpr (lane 3 w).isLt)]
  · exact (entry_all ⟨_, (lane 3 w).isLt⟩).1
  · intro i hi
    have hi := List.mem_range.mp hi
    rw [(entry_all ⟨i, hi⟩).2.2.2.2.1]
    exact idx_iff _ i hi

theorem lane2 (w : W) : lane 2 (wsbox w table) = S2 (lane 2 w) := by
  unfold table
  rw [wsbox_widen, scan_lane (fun i => (entry i).1) (fun i => (entry i).2) w 2 (by omega) _ (lane 2 w).toNat (List.mem_range.mpr (lane 2 w).isLt)]
  · exact (entry_all ⟨_, (lane 2 w).isLt⟩).2.1
  · intro i hi
    have hi := List.mem_range.mp hi
    rw [(entry_all ⟨i, hi⟩).2.2.2.2.2.1]
    exact idx_iff _ i hi

theorem lane1 (w : W) : S1 (lane 1 (wsbox w table)) = lane 1 w := by
  obtain ⟨j, hj⟩ := s1_surj ⟨(lane 1 w).toNat, (lane 1 w).isLt⟩
  have hj : s1Table.getD j 0 = lane 1 w := by simpa using hj
  unfold table
  rw [wsbox_widen, scan_lane (fun i => (entry i).1) (fun i => (entry i).2) w 1 (by omega) _ j (List.mem_range.mpr j.isLt)]
  · rw [(entry_all j).2.2.1]
    unfold S1
    rw [BitVec.toNat_ofNat, Nat.mod_eq_of_lt j.isLt]
    exact hj
  · intro i hi
    have hi := List.mem_range.mp hi
    rw [(entry_all ⟨i, hi⟩).2.2.2.2.2.2.1, ← hj]
    constructor
    · intro h; exact Fin.mk.inj (s1_inj ⟨i, hi⟩ j h)
    · intro h; subst h; rfl

theorem lane0 (w : W) : S2 (lane 0 (wsbox w table)) = lane 0 w := by
  obtain ⟨j, hj⟩ := s2_surj ⟨(lane 0 w).toNat, (lane 0 w).isLt⟩
  have hj : s2Table.getD j 0 = lane 0 w := by simpa using hj
  unfold table
  rw [wsbox_widen, scan_lane (fun i => (entry i).1) (fun i => (entry i).2) w 0 (by omega) _ j (List.mem_range.mpr j.isLt)]
  · rw [(entry_all j).2.2.2.1]
    unfold S2
    rw [BitVec.toNat_ofNat, Nat.mod_eq_of_lt j.isLt]
    exact hj
  · intro i hi
    have hi := List.mem_range.mp hi
    rw [(entry_all ⟨i, hi⟩).2.2.2.2.2.2.2, ← hj]
    constructor
    · intro h; exact Fin.mk.inj (s2_inj ⟨i, hi⟩ j h)
    · intro h; subst h; rfl

theorem lane_swap (w : W) : lane 3 (swap16 w) = lane 1 w ∧ lane 2 (swap16 w) = lane 0 w ∧ lane 1 (swap16 w) = lane 3 w ∧ lane 0 (swap16 w) = lane 2 w := by
  refine ⟨?_, ?_, ?_, ?_⟩ <;> (apply BitVec.eq_of_getLsbD_eq; intro i hi; unfold lane swap16; interval_cases i <;> simp [BitVec.getLsbD_extractLsb'])

def word1 (w : W) : W := wsbox w table
def word2 (w : W) : W := swap16 (wsbox (swap16 w) table)

theorem word2_lanes (w : W) : S1 (lane 3 (word2 w)) = lane 3 w ∧ S2 (lane 2 (word2 w)) = lane 2 w ∧ lane 1 (word2 w) = S1 (lane 1 w) ∧ lane 0 (word2 w) = S2 (lane 0 w) := by
  unfold word2
  have h := lane_swap (wsbox (swap16 w) table)
  have g := lane_swap w
  rw [h.1, h.2.1, h.2.2.1, h.2.2.2, lane1, lane0, lane3, lane2, g.1, g.2.1, g.2.2.1, g.2.2.2]
  exact ⟨rfl, rfl, rfl, rfl⟩

theorem word21 (w : W) : word2 (word1 w) = w := by
  have h := word2_lanes (word1 w)
  unfold word1 at h ⊢
  apply word_ext
  intro k hk
  interval_cases k
  · rw [h.2.2.2, lane0]
  · rw [h.2.2.1, lane1]
  · exact S2_inj (by rw [h.2.1, lane2])
  · exact S1_inj (by rw [h.1, lane3])

theorem word12 (w : W) : word1 (word2 w) = w := by
  have h := word2_lanes w
  unfold word1
  apply word_ext
  intro k hk
  interval_cases k
  · exact S2_inj (by rw [lane0, h.2.2.2])
  · exact S1_inj (by rw [lane1, h.2.2.1])
  · rw [lane2, h.2.1]
  · rw [lane3, h.1]

theorem sl_words (f : W → W) (x : List Byte) : (List.range 4).flatMap (fun i => st32 (f (ld32 x i))) =
    st32 (f (ld32 x 0)) ++ st32 (f (ld32 x 1)) ++ st32 (f (ld32 x 2)) ++ st32 (f (ld32 x 3)) := rfl

theorem sl21 (x : List Byte) (h : x.length = 16) : sl2 (sl1 x) = x := by
  show (List.range 4).flatMap (fun i => st32 (word2 (ld32 ((List.range 4).flatMap fun i => st32 (word1 (ld32 x i))) i))) = x
  rw [sl_words word2, sl_words word1, (ld32_st32 _ _ _ _).1, (ld32_st32 _ _ _ _).2.1, (ld32_st32 _ _ _ _).2.2.1, (ld32_st32 _ _ _ _).2.2.2,
    word21, word21, word21, word21]
  exact st32_ld32 x h

theorem sl12 (x : List Byte) (h : x.length = 16) : sl1 (sl2 x) = x := by
  show (List.range 4).flatMap (fun i => st32 (word1 (ld32 ((List.range 4).flatMap fun i => st32 (word2 (ld32 x i))) i))) = x
  rw [sl_words word1, sl_words word2, (ld32_st32 _ _ _ _).1, (ld32_st32 _ _ _ _).2.1, (ld32_st32 _ _ _ _).2.2.1, (ld32_st32 _ _ _ _).2.2.2,
    word12, word12, word12, word12]
  exact st32_ld32 x h

theorem sl1_len (x : List Byte) : (sl1 x).length = 16 := rfl
theorem sl2_len (x : List Byte) : (sl2 x).length = 16 := rfl
theorem addKey_len (x ek : List Byte) (j : Nat) : (addKey x ek j).length = 16 := by simp [addKey]
theorem take16_len (ek : List Byte) (j : Nat) : (take16 ek j).length = 16 := by simp [take16]

theorem r16 : List.range 16 = [0, 1, 2, 3, 4, 5, 6, 7, 8, 9, 10, 11, 12, 13, 14, 15] := rfl

theorem addKey_twice (x ek : List Byte) (j : Nat) (h : x.length = 16) : addKey (addKey x ek j) ek j = x := by
  obtain ⟨a0, a1, a2, a3, a4, a5, a6, a7, a8, a9, a10, a11, a12, a13, a14, a15, rfl⟩ := list16 x h
  simp only [addKey, r16, List.map_cons, List.map_nil, List.getD_cons_zero, List.getD_cons_succ, BitVec.xor_assoc, BitVec.xor_self, BitVec.xor_zero]

theorem copy16 (x : List Byte) (h : x.length = 16) : ((List.range 16).map fun i => x.getD i 0) = x := by
  obtain ⟨a0, a1, a2, a3, a4, a5, a6, a7, a8, a9, a10, a11, a12, a13, a14, a15, rfl⟩ := list16 x h
  rfl

theorem addKey_take (x ek : List Byte) (j : Nat) : addKey x (take16 ek j) 0 = addKey x ek j := by
  unfold addKey take16
  simp only [r16, List.map_cons, List.map_nil, List.getD_cons_zero, List.getD_cons_succ, Nat.zero_mul, Nat.zero_add]

theorem x7 (a b c d e f g a' b' c' d' e' f' g' : Byte) :
    (a ^^^ a') ^^^ (b ^^^ b') ^^^ (c ^^^ c') ^^^ (d ^^^ d') ^^^ (e ^^^ e') ^^^ (f ^^^ f') ^^^ (g ^^^ g') ^^^
      (a' ^^^ b' ^^^ c' ^^^ d' ^^^ e' ^^^ f' ^^^ g') = a ^^^ b ^^^ c ^^^ d ^^^ e ^^^ f ^^^ g := by
  have : (a ^^^ a') ^^^ (b ^^^ b') ^^^ (c ^^^ c') ^^^ (d ^^^ d') ^^^ (e ^^^ e') ^^^ (f ^^^ f') ^^^ (g ^^^ g') =
      (a ^^^ b ^^^ c ^^^ d ^^^ e ^^^ f ^^^ g) ^^^ (a' ^^^ b' ^^^ c' ^^^ d' ^^^ e' ^^^ f' ^^^ g') := by ac_rfl
  rw [this, BitVec.xor_assoc, BitVec.xor_self, BitVec.xor_zero]

theorem A_key (x ek : List Byte) (j : Nat) (h : x.length = 16) : addKey (A (addKey x ek j)) (A (take16 ek j)) 0 = A x := by
  obtain ⟨a0, a1, a2, a3, a4, a5, a6, a7, a8, a9, a10, a11, a12, a13, a14, a15, rfl⟩ := list16 x h
  simp only [A, xsum, addKey, take16, r16, List.map_cons, List.map_nil, List.getD_cons_zero, List.getD_cons_succ, Nat.zero_mul, Nat.zero_add, x7]

/-- The state before round `j` (0-based). -/
def st (ek inp : List Byte) : Nat → List Byte
  | 0 => inp
  | j + 1 => A ((if j % 2 = 0 then sl1 else sl2) (addKey (st ek inp j) ek j))

theorem st_len (ek inp : List Byte) (h : inp.length = 16) (j : Nat) : (st ek inp j).length = 16 := by
  cases j with
  | zero => exact h
  | succ j => rfl

theorem st_even (ek inp : List Byte) (j : Nat) (h : j % 2 = 0) : st ek inp (j + 1) = FO (st ek inp j) ek j := by
  show A ((if j % 2 = 0 then sl1 else sl2) _) = _
  rw [if_pos h]; rfl
theorem st_odd (ek inp : List Byte) (j : Nat) (h : j % 2 = 1) : st ek inp (j + 1) = FE (st ek inp j) ek j := by
  show A ((if j % 2 = 0 then sl1 else sl2) _) = _
  rw [if_neg (by omega)]; rfl

theorem encLoop_st (ek inp : List Byte) (n : Nat) : encLoop ek n inp = st ek inp (2 * n) := by
  induction n with
  | zero => rfl
  | succ n ih =>
    unfold encLoop at ih ⊢
    rw [List.range_succ, List.foldl_append, ih, List.foldl_cons, List.foldl_nil, show 2 * (n + 1) = (2 * n + 1) + 1 by omega, st_odd _ _ _ (by omega),
      st_even _ _ _ (by omega), Nat.mul_comm n 2]
    rfl

/-- The decryption invariant. -/
theorem decLoop_inv (ek inp : List Byte) (h : inp.length = 16) (m : Nat) : ∀ out dk,
    sl1 (addKey out dk 0) = addKey (st ek inp (2 * m + 1)) ek (2 * m + 1) →
    ∃ out' dk', decLoop ek out dk (2 * m + 2) = (out', dk', 2) ∧ sl1 (addKey out' dk' 0) = addKey (st ek inp 1) ek 1 := by
  induction m with
  | zero =>
    intro out dk hi
    refine ⟨out, dk, ?_, hi⟩
    rw [decLoop, if_neg (by omega)]
  | succ m ih =>
    intro out dk hi
    rw [decLoop, if_pos (by omega)]
    simp only []
    rw [show 2 * (m + 1) + 2 - 1 = 2 * m + 3 by omega, show 2 * (m + 1) + 2 - 2 = 2 * m + 2 by omega]
    apply ih
    have h1 : FO out dk 0 = A (addKey (st ek inp (2 * m + 3)) ek (2 * m + 3)) := by
      unfold FO; rw [hi]; rfl
    have h2 : addKey (FO out dk 0) (A (take16 ek (2 * m + 3))) 0 = sl1 (addKey (st ek inp (2 * m + 2)) ek (2 * m + 2)) := by
      rw [h1, A_key _ _ _ (st_len ek inp h _), st_even _ _ (2 * m + 2) (by omega)]
      exact A_A _ (sl1_len _)
    have h3 : FE (FO out dk 0) (A (take16 ek (2 * m + 3))) 0 = A (addKey (st ek inp (2 * m + 2)) ek (2 * m + 2)) := by
      unfold FE
      rw [h2, sl21 _ (addKey_len _ _ _)]
    rw [h3, A_key _ _ _ (st_len ek inp h _), st_odd _ _ (2 * m + 1) (by omega)]
    unfold FE
    rw [A_A _ (sl2_len _), sl12 _ (addKey_len _ _ _)]

theorem dec_enc (inp ek : List Byte) (m : Nat) (h : inp.length = 16) : decryptGeneric (encryptGeneric inp ek (2 * m + 2)) ek (2 * m + 2) = inp := by
  unfold encryptGeneric
  simp only []
  rw [show (2 * m + 2) / 2 - 1 = m by omega, copy16 inp h, encLoop_st, Nat.mul_comm m 2, Nat.add_zero, ← st_even _ _ _ (show (2 * m) % 2 = 0 by omega)]
  obtain ⟨y, hy⟩ : ∃ y, y = addKey (sl2 (addKey (st ek inp (2 * m + 1)) ek (2 * m + 1))) ek (2 * m + 2) := ⟨_, rfl⟩
  rw [← hy]
  have hyl : y.length = 16 := by rw [hy]; exact addKey_len _ _ _
  unfold decryptGeneric
  simp only []
  rw [copy16 y hyl]
  have h0 : sl1 (addKey y (take16 ek (2 * m + 2)) 0) = addKey (st ek inp (2 * m + 1)) ek (2 * m + 1) := by
    rw [addKey_take, hy, addKey_twice _ _ _ (sl2_len _), sl12 _ (addKey_len _ _ _)]
  obtain ⟨out, dk, he, hi⟩ := decLoop_inv ek inp h m _ _ h0
  rw [he]
  simp only []
  have h1 : FO out dk 0 = A (addKey (st ek inp 1) ek 1) := by unfold FO; rw [hi]
  rw [h1, A_key _ _ _ (st_len ek inp h _), st_even _ _ 0 rfl]
  unfold FO
  rw [A_A _ (sl1_len _), sl21 _ (addKey_len _ _ _)]
  exact addKey_twice _ _ _ h

end Aria
