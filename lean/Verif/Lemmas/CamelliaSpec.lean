import Verif.Lemmas.Camellia
import Verif.Lemmas.Sm4
import Verif.Lemmas.NatSbox
import Verif.Lemmas.Sha
import Mathlib.Data.Fin.VecNotation

/-!
# `camellia.c` computes the functions of RFC 3713
-/
namespace Camellia
open Sbox (W widen wsbox wsbox_widen scan_lane word_ext lane_or lane_and lane_xor)
open Endian
open Spec (lane)

theorem s1_tab (x : BitVec 8) : Spec.Camellia.s1 x = sboxTable.getD x.toNat 0 := by
  have := NatSbox.cam_s1 ⟨x.toNat, x.isLt⟩
  simpa using this

theorem entry_all : ∀ i : Fin 256,
    lane 3 (entry i).1 = sboxTable.getD i 0 ∧ lane 2 (entry i).1 = (sboxTable.getD i 0).rotateLeft 1 ∧
    lane 1 (entry i).1 = (sboxTable.getD i 0).rotateLeft 7 ∧ lane 0 (entry i).1 = sboxTable.getD i 0 ∧
    lane 3 (entry i).2 = BitVec.ofNat 8 i ∧ lane 2 (entry i).2 = BitVec.ofNat 8 i ∧ lane 1 (entry i).2 = BitVec.ofNat 8 i ∧
    (lane 0 (entry i).2).rotateLeft 1 = BitVec.ofNat 8 i := by
  decide +kernel

theorem idx_iff (b : Byte) (i : Nat) (hi : i < 256) : BitVec.ofNat 8 i = b ↔ i = b.toNat := by
  constructor
  · intro h; rw [← h, BitVec.toNat_ofNat]; omega
  · intro h; rw [h]; simp

theorem rotl8_inj : ∀ a b : BitVec 8, a.rotateLeft 1 = b.rotateLeft 1 → a = b := by
  intro a b h
  have e : ∀ i : Fin 256, ((BitVec.ofNat 8 i).rotateLeft 1).rotateLeft 7 = BitVec.ofNat 8 i := by decide +kernel
  have ea := e ⟨a.toNat, a.isLt⟩
  have eb := e ⟨b.toNat, b.isLt⟩
  simp only [BitVec.ofNat_toNat, BitVec.setWidth_eq] at ea eb
  rw [← ea, ← eb, h]

theorem lane3 (w : W) : lane 3 (wsbox w table) = Spec.Camellia.s1 (lane 3 w) := by
  unfold table
  rw [wsbox_widen, scan_lane (fun i => (entry i).1) (fun i => (entry i).2) w 3 (by omega) _ (lane 3 w).toNat (List.mem_range.mpr (lane 3 w).isLt)]
  · rw [(entry_all ⟨_, (lane 3 w).isLt⟩).1, s1_tab]
  · intro i hi
    have hi := List.mem_range.mp hi
    rw [(entry_all ⟨i, hi⟩).2.2.2.2.1]
    exact idx_iff _ i hi

theorem lane2 (w : W) : lane 2 (wsbox w table) = Spec.Camellia.s2 (lane 2 w) := by
  unfold table Spec.Camellia.s2
  rw [wsbox_widen, scan_lane (fun i => (entry i).1) (fun i => (entry i).2) w 2 (by omega) _ (lane 2 w).toNat (List.mem_range.mpr (lane 2 w).isLt)]
  · rw [(entry_all ⟨_, (lane 2 w).isLt⟩).2.1, s1_tab]
  · intro i hi
    have hi := List.mem_range.mp hi
    rw [(entry_all ⟨i, hi⟩).2.2.2.2.2.1]
    exact idx_iff _ i hi

theorem lane1 (w : W) : lane 1 (wsbox w table) = Spec.Camellia.s3 (lane 1 w) := by
  unfold table Spec.Camellia.s3
  rw [wsbox_widen, scan_lane (fun i => (entry i).1) (fun i => (entry i).2) w 1 (by omega) _ (lane 1 w).toNat (List.mem_range.mpr (lane 1 w).isLt)]
  · rw [(entry_all ⟨_, (lane 1 w).isLt⟩).2.2.1, s1_tab]
  · intro i hi
    have hi := List.mem_range.mp hi
    rw [(entry_all ⟨i, hi⟩).2.2.2.2.2.2.1]
    exact idx_iff _ i hi

theorem lane0 (w : W) : lane 0 (wsbox w table) = Spec.Camellia.s4 (lane 0 w) := by
  unfold table Spec.Camellia.s4
  have hj := ((lane 0 w).rotateLeft 1).isLt
  rw [wsbox_widen, scan_lane (fun i => (entry i).1) (fun i => (entry i).2) w 0 (by omega) _ ((lane 0 w).rotateLeft 1).toNat (List.mem_range.mpr hj)]
  · rw [(entry_all ⟨_, hj⟩).2.2.2.1, s1_tab]
  · intro i hi
    have hi := List.mem_range.mp hi
    rw [← idx_iff _ i hi, ← (entry_all ⟨i, hi⟩).2.2.2.2.2.2.2]
    exact ⟨fun h => by rw [h], fun h => rotl8_inj _ _ h⟩

/-! ### Octets of 64-bit words -/

/-- Octet `j` of a word, counted from the least significant. -/
def by8 (j : Nat) (x : D) : BitVec 8 := x.extractLsb' (8 * j) 8

theorem by8_bit (j : Nat) (x : D) (i : Nat) (hi : i < 8) : (by8 j x).getLsbD i = x.getLsbD (8 * j + i) := by
  unfold by8; simp [hi]

theorem by8_ext {x y : D} (h : ∀ j, j < 8 → by8 j x = by8 j y) : x = y := by
  apply BitVec.eq_of_getLsbD_eq
  intro i hi
  have := congrArg (fun v => v.getLsbD (i % 8)) (h (i / 8) (by omega))
  simp only [by8_bit _ _ _ (Nat.mod_lt i (by decide : 0 < 8))] at this
  rwa [Nat.div_add_mod] at this

theorem by8_xor (j : Nat) (x y : D) : by8 j (x ^^^ y) = by8 j x ^^^ by8 j y := by
  apply BitVec.eq_of_getLsbD_eq; intro i hi; rw [by8_bit _ _ _ hi, BitVec.getLsbD_xor, BitVec.getLsbD_xor, by8_bit _ _ _ hi, by8_bit _ _ _ hi]
theorem by8_and (j : Nat) (x y : D) : by8 j (x &&& y) = by8 j x &&& by8 j y := by
  apply BitVec.eq_of_getLsbD_eq; intro i hi; rw [by8_bit _ _ _ hi, BitVec.getLsbD_and, BitVec.getLsbD_and, by8_bit _ _ _ hi, by8_bit _ _ _ hi]
theorem by8_or (j : Nat) (x y : D) : by8 j (x ||| y) = by8 j x ||| by8 j y := by
  apply BitVec.eq_of_getLsbD_eq; intro i hi; rw [by8_bit _ _ _ hi, BitVec.getLsbD_or, BitVec.getLsbD_or, by8_bit _ _ _ hi, by8_bit _ _ _ hi]
theorem by8_shr (j k : Nat) (x : D) : by8 j (x >>> (8 * k)) = by8 (j + k) x := by
  apply BitVec.eq_of_getLsbD_eq; intro i hi; rw [by8_bit _ _ _ hi, by8_bit _ _ _ hi, BitVec.getLsbD_ushiftRight]; congr 1; omega
theorem by8_shl (j k : Nat) (hj : j < 8) (x : D) : by8 j (x <<< (8 * k)) = if j < k then 0 else by8 (j - k) x := by
  apply BitVec.eq_of_getLsbD_eq; intro i hi
  rw [by8_bit _ _ _ hi, BitVec.getLsbD_shiftLeft]
  by_cases h : j < k
  · rw [if_pos h]; simp; omega
  · rw [if_neg h, by8_bit _ _ _ hi]
    simp only [show 8 * j + i < 64 by omega, show ¬ 8 * j + i < 8 * k by omega, decide_true, decide_false, Bool.not_false, Bool.true_and]
    congr 1; omega
theorem by8_big (j : Nat) (hj : 8 ≤ j) (x : D) : by8 j x = 0 := by
  apply BitVec.eq_of_getLsbD_eq; intro i hi
  rw [by8_bit _ _ _ hi, BitVec.getLsbD_of_ge _ _ (by omega)]; simp

/-- Two halves. -/
theorem by8_app (a b : BitVec 32) (j : Nat) (hj : j < 8) : by8 j (a ++ b : BitVec (32 + 32)) = if j < 4 then lane j b else lane (j - 4) a := by
  apply BitVec.eq_of_getLsbD_eq; intro i hi
  rw [by8_bit _ _ _ hi, BitVec.getLsbD_append]
  by_cases h : j < 4
  · rw [if_pos h]; unfold lane; simp [hi, show 8 * j + i < 32 by omega]
  · rw [if_neg h]; unfold lane
    simp only [show ¬ 8 * j + i < 32 by omega, decide_false, Bool.false_eq_true, if_false, BitVec.getLsbD_extractLsb', hi, decide_true, Bool.true_and, cond_false]
    congr 1; omega

theorem lane_hi (x : D) (j : Nat) (hj : j < 4) : lane j ((x >>> 32).setWidth 32) = by8 (j + 4) x := by
  apply BitVec.eq_of_getLsbD_eq; intro i hi
  rw [by8_bit _ _ _ hi]; unfold lane
  simp only [BitVec.getLsbD_extractLsb', hi, decide_true, Bool.true_and, BitVec.getLsbD_setWidth, BitVec.getLsbD_ushiftRight, show 8 * j + i < 32 by omega]
  congr 1; omega
theorem lane_lo (x : D) (j : Nat) (hj : j < 4) : lane j (x.setWidth 32) = by8 j x := by
  apply BitVec.eq_of_getLsbD_eq; intro i hi
  rw [by8_bit _ _ _ hi]; unfold lane
  simp only [BitVec.getLsbD_extractLsb', hi, decide_true, Bool.true_and, BitVec.getLsbD_setWidth, show 8 * j + i < 32 by omega]

/-- `(uint64_t)a << 32 | b`. -/
theorem mk_app (a b : BitVec 32) : (a.setWidth 64 <<< 32) ||| b.setWidth 64 = (a ++ b : BitVec (32 + 32)) := by
  apply BitVec.eq_of_getLsbD_eq; intro i hi
  rw [BitVec.getLsbD_append]
  by_cases h : i < 32
  · simp [h, show i < 64 by omega]
  · have : b.getLsbD i = false := BitVec.getLsbD_of_ge b i (by omega)
    rw [BitVec.getLsbD_or, BitVec.getLsbD_shiftLeft, BitVec.getLsbD_setWidth, BitVec.getLsbD_setWidth, this]
    simp [h, show i < 64 by omega, show i - 32 < 64 by omega]

theorem lane_rotl24 (w : W) : ∀ j, j < 4 → lane j (w <<< 24 ||| w >>> 8) = lane ((j + 1) % 4) w := by
  intro j hj
  apply BitVec.eq_of_getLsbD_eq; intro i hi; unfold lane
  interval_cases j <;> interval_cases i <;> simp [BitVec.getLsbD_extractLsb']
theorem lane_rotl8 (w : W) : ∀ j, j < 4 → lane j (w >>> 24 ||| w <<< 8) = lane ((j + 3) % 4) w := by
  intro j hj
  apply BitVec.eq_of_getLsbD_eq; intro i hi; unfold lane
  interval_cases j <;> interval_cases i <;> simp [BitVec.getLsbD_extractLsb']

theorem S_bytes (x : D) :
    by8 7 (func_S x) = Spec.Camellia.s1 (by8 7 x) ∧ by8 6 (func_S x) = Spec.Camellia.s2 (by8 6 x) ∧
    by8 5 (func_S x) = Spec.Camellia.s3 (by8 5 x) ∧ by8 4 (func_S x) = Spec.Camellia.s4 (by8 4 x) ∧
    by8 3 (func_S x) = Spec.Camellia.s2 (by8 3 x) ∧ by8 2 (func_S x) = Spec.Camellia.s3 (by8 2 x) ∧
    by8 1 (func_S x) = Spec.Camellia.s4 (by8 1 x) ∧ by8 0 (func_S x) = Spec.Camellia.s1 (by8 0 x) := by
  unfold func_S
  simp only []
  rw [mk_app]
  refine ⟨?_, ?_, ?_, ?_, ?_, ?_, ?_, ?_⟩
  all_goals rw [by8_app _ _ _ (by decide)]
  · exact (lane3 _).trans (by rw [lane_hi x 3 (by decide)])
  · exact (lane2 _).trans (by rw [lane_hi x 2 (by decide)])
  · exact (lane1 _).trans (by rw [lane_hi x 1 (by decide)])
  · exact (lane0 _).trans (by rw [lane_hi x 0 (by decide)])
  · exact (lane_rotl8 _ 3 (by decide)).trans ((lane2 _).trans (by rw [lane_rotl24 _ 2 (by decide)]; exact congrArg _ (lane_lo x 3 (by decide))))
  · exact (lane_rotl8 _ 2 (by decide)).trans ((lane1 _).trans (by rw [lane_rotl24 _ 1 (by decide)]; exact congrArg _ (lane_lo x 2 (by decide))))
  · exact (lane_rotl8 _ 1 (by decide)).trans ((lane0 _).trans (by rw [lane_rotl24 _ 0 (by decide)]; exact congrArg _ (lane_lo x 1 (by decide))))
  · exact (lane_rotl8 _ 0 (by decide)).trans ((lane3 _).trans (by rw [lane_rotl24 _ 3 (by decide)]; exact congrArg _ (lane_lo x 0 (by decide))))

/-- The masked sum of the octets of a word. -/
theorem xmask_bytes (x m : D) : by8 0 (xmask x m) = (by8 7 (x &&& m) ^^^ by8 6 (x &&& m) ^^^ by8 5 (x &&& m) ^^^ by8 4 (x &&& m) ^^^
    by8 3 (x &&& m) ^^^ by8 2 (x &&& m) ^^^ by8 1 (x &&& m) ^^^ by8 0 (x &&& m)) ∧ ∀ j, 0 < j → j < 8 → by8 j (xmask x m) = 0 := by
  unfold xmask
  simp only []
  generalize x &&& m = y
  have e32 : ∀ y : D, y >>> 32 = y >>> (8 * 4) := fun _ => rfl
  have e16 : ∀ y : D, y >>> 16 = y >>> (8 * 2) := fun _ => rfl
  have e8 : ∀ y : D, y >>> 8 = y >>> (8 * 1) := fun _ => rfl
  constructor
  · rw [by8_and, show by8 0 0xFF#64 = BitVec.allOnes 8 from by decide, BitVec.and_allOnes]
    rw [e8, e16, e32]
    simp only [by8_xor, by8_shr, Nat.zero_add, Nat.reduceAdd]
    ac_rfl
  · intro j h0 hj
    rw [by8_and]
    have : by8 j 0xFF#64 = 0 := by interval_cases j <;> decide
    rw [this]; simp

theorem P_bytes (x : D) : func_P x =
    let t1 := by8 7 x; let t2 := by8 6 x; let t3 := by8 5 x; let t4 := by8 4 x; let t5 := by8 3 x; let t6 := by8 2 x; let t7 := by8 1 x; let t8 := by8 0 x
    let y1 := t1 ^^^ t3 ^^^ t4 ^^^ t6 ^^^ t7 ^^^ t8
    let y2 := t1 ^^^ t2 ^^^ t4 ^^^ t5 ^^^ t7 ^^^ t8
    let y3 := t1 ^^^ t2 ^^^ t3 ^^^ t5 ^^^ t6 ^^^ t8
    let y4 := t2 ^^^ t3 ^^^ t4 ^^^ t5 ^^^ t6 ^^^ t7
    let y5 := t1 ^^^ t2 ^^^ t6 ^^^ t7 ^^^ t8
    let y6 := t2 ^^^ t3 ^^^ t5 ^^^ t7 ^^^ t8
    let y7 := t3 ^^^ t4 ^^^ t5 ^^^ t6 ^^^ t8
    let y8 := t1 ^^^ t4 ^^^ t5 ^^^ t6 ^^^ t7
    (y1 ++ y2 ++ y3 ++ y4 ++ (y5 ++ y6 ++ y7 ++ y8) : BitVec (8 + 8 + 8 + 8 + (8 + 8 + 8 + 8))) := by
  apply by8_ext
  intro j hj
  simp only []
  refine Eq.trans ?_ (by8_app _ _ j hj).symm
  obtain ⟨l3, l2, l1, l0⟩ := Sm4.lane_join (by8 7 x ^^^ by8 5 x ^^^ by8 4 x ^^^ by8 2 x ^^^ by8 1 x ^^^ by8 0 x)
    (by8 7 x ^^^ by8 6 x ^^^ by8 4 x ^^^ by8 3 x ^^^ by8 1 x ^^^ by8 0 x)
    (by8 7 x ^^^ by8 6 x ^^^ by8 5 x ^^^ by8 3 x ^^^ by8 2 x ^^^ by8 0 x)
    (by8 6 x ^^^ by8 5 x ^^^ by8 4 x ^^^ by8 3 x ^^^ by8 2 x ^^^ by8 1 x)
  obtain ⟨m3, m2, m1, m0⟩ := Sm4.lane_join (by8 7 x ^^^ by8 6 x ^^^ by8 2 x ^^^ by8 1 x ^^^ by8 0 x)
    (by8 6 x ^^^ by8 5 x ^^^ by8 3 x ^^^ by8 1 x ^^^ by8 0 x)
    (by8 5 x ^^^ by8 4 x ^^^ by8 3 x ^^^ by8 2 x ^^^ by8 0 x)
    (by8 7 x ^^^ by8 4 x ^^^ by8 3 x ^^^ by8 2 x ^^^ by8 1 x)
  have hz : ∀ m j, 0 < j → j < 8 → by8 j (xmask x m) = 0 := fun m => (xmask_bytes x m).2
  have e56 : ∀ y : D, y <<< 56 = y <<< (8 * 7) := fun _ => rfl
  have e48 : ∀ y : D, y <<< 48 = y <<< (8 * 6) := fun _ => rfl
  have e40 : ∀ y : D, y <<< 40 = y <<< (8 * 5) := fun _ => rfl
  have e32 : ∀ y : D, y <<< 32 = y <<< (8 * 4) := fun _ => rfl
  have e24 : ∀ y : D, y <<< 24 = y <<< (8 * 3) := fun _ => rfl
  have e16 : ∀ y : D, y <<< 16 = y <<< (8 * 2) := fun _ => rfl
  have e8 : ∀ y : D, y <<< 8 = y <<< (8 * 1) := fun _ => rfl
  have top : ∀ (a b c d e f g h : D), by8 j (a <<< 56 ||| b <<< 48 ||| c <<< 40 ||| d <<< 32 ||| e <<< 24 ||| f <<< 16 ||| g <<< 8 ||| h) =
      (if j < 7 then 0 else by8 (j - 7) a) ||| (if j < 6 then 0 else by8 (j - 6) b) ||| (if j < 5 then 0 else by8 (j - 5) c) |||
      (if j < 4 then 0 else by8 (j - 4) d) ||| (if j < 3 then 0 else by8 (j - 3) e) ||| (if j < 2 then 0 else by8 (j - 2) f) |||
      (if j < 1 then 0 else by8 (j - 1) g) ||| by8 j h := by
    intro a b c d e f g h
    rw [e56, e48, e40, e32, e24, e16, e8]
    simp only [by8_or, by8_shl _ _ hj]
  have and0 : ∀ (y : BitVec 8), y &&& 0#8 = 0#8 := fun y => BitVec.and_zero
  have and1 : ∀ (y : BitVec 8), y &&& BitVec.allOnes 8 = y := fun y => BitVec.and_allOnes
  have or0 : ∀ (y : BitVec 8), y ||| 0 = y := fun y => BitVec.or_zero
  have zor : ∀ (y : BitVec 8), 0 ||| y = y := fun y => BitVec.zero_or
  have mm : ∀ (m : D) (k : Nat) (c : BitVec 8), by8 k m = c → by8 k (x &&& m) = by8 k x &&& c := fun m k c h => by rw [by8_and, h]
  unfold func_P
  rw [top]
  interval_cases j
  · refine Eq.trans ?_ m0.symm
    simp only [hz _ _ (by decide : 0 < 1) (by decide), hz _ _ (by decide : 0 < 2) (by decide), hz _ _ (by decide : 0 < 3) (by decide), hz _ _ (by decide : 0 < 4) (by decide), hz _ _ (by decide : 0 < 5) (by decide), hz _ _ (by decide : 0 < 6) (by decide), hz _ _ (by decide : 0 < 7) (by decide),
      Nat.reduceSub, Nat.reduceLT, if_true, if_false, or0, zor, (xmask_bytes x _).1]
    rw [mm _ 7 (BitVec.allOnes 8) (by decide), mm _ 6 (0#8) (by decide), mm _ 5 (0#8) (by decide), mm _ 4 (BitVec.allOnes 8) (by decide), mm _ 3 (BitVec.allOnes 8) (by decide), mm _ 2 (BitVec.allOnes 8) (by decide), mm _ 1 (BitVec.allOnes 8) (by decide), mm _ 0 (0#8) (by decide)]
    simp only [and0, and1, BitVec.xor_zero, BitVec.zero_xor]
  · refine Eq.trans ?_ m1.symm
    simp only [hz _ _ (by decide : 0 < 1) (by decide), hz _ _ (by decide : 0 < 2) (by decide), hz _ _ (by decide : 0 < 3) (by decide), hz _ _ (by decide : 0 < 4) (by decide), hz _ _ (by decide : 0 < 5) (by decide), hz _ _ (by decide : 0 < 6) (by decide), hz _ _ (by decide : 0 < 7) (by decide),
      Nat.reduceSub, Nat.reduceLT, if_true, if_false, or0, zor, (xmask_bytes x _).1]
    rw [mm _ 7 (0#8) (by decide), mm _ 6 (0#8) (by decide), mm _ 5 (BitVec.allOnes 8) (by decide), mm _ 4 (BitVec.allOnes 8) (by decide), mm _ 3 (BitVec.allOnes 8) (by decide), mm _ 2 (BitVec.allOnes 8) (by decide), mm _ 1 (0#8) (by decide), mm _ 0 (BitVec.allOnes 8) (by decide)]
    simp only [and0, and1, BitVec.xor_zero, BitVec.zero_xor]
  · refine Eq.trans ?_ m2.symm
    simp only [hz _ _ (by decide : 0 < 1) (by decide), hz _ _ (by decide : 0 < 2) (by decide), hz _ _ (by decide : 0 < 3) (by decide), hz _ _ (by decide : 0 < 4) (by decide), hz _ _ (by decide : 0 < 5) (by decide), hz _ _ (by decide : 0 < 6) (by decide), hz _ _ (by decide : 0 < 7) (by decide),
      Nat.reduceSub, Nat.reduceLT, if_true, if_false, or0, zor, (xmask_bytes x _).1]
    rw [mm _ 7 (0#8) (by decide), mm _ 6 (BitVec.allOnes 8) (by decide), mm _ 5 (BitVec.allOnes 8) (by decide), mm _ 4 (0#8) (by decide), mm _ 3 (BitVec.allOnes 8) (by decide), mm _ 2 (0#8) (by decide), mm _ 1 (BitVec.allOnes 8) (by decide), mm _ 0 (BitVec.allOnes 8) (by decide)]
    simp only [and0, and1, BitVec.xor_zero, BitVec.zero_xor]
  · refine Eq.trans ?_ m3.symm
    simp only [hz _ _ (by decide : 0 < 1) (by decide), hz _ _ (by decide : 0 < 2) (by decide), hz _ _ (by decide : 0 < 3) (by decide), hz _ _ (by decide : 0 < 4) (by decide), hz _ _ (by decide : 0 < 5) (by decide), hz _ _ (by decide : 0 < 6) (by decide), hz _ _ (by decide : 0 < 7) (by decide),
      Nat.reduceSub, Nat.reduceLT, if_true, if_false, or0, zor, (xmask_bytes x _).1]
    rw [mm _ 7 (BitVec.allOnes 8) (by decide), mm _ 6 (BitVec.allOnes 8) (by decide), mm _ 5 (0#8) (by decide), mm _ 4 (0#8) (by decide), mm _ 3 (0#8) (by decide), mm _ 2 (BitVec.allOnes 8) (by decide), mm _ 1 (BitVec.allOnes 8) (by decide), mm _ 0 (BitVec.allOnes 8) (by decide)]
    simp only [and0, and1, BitVec.xor_zero, BitVec.zero_xor]
  · refine Eq.trans ?_ l0.symm
    simp only [hz _ _ (by decide : 0 < 1) (by decide), hz _ _ (by decide : 0 < 2) (by decide), hz _ _ (by decide : 0 < 3) (by decide), hz _ _ (by decide : 0 < 4) (by decide), hz _ _ (by decide : 0 < 5) (by decide), hz _ _ (by decide : 0 < 6) (by decide), hz _ _ (by decide : 0 < 7) (by decide),
      Nat.reduceSub, Nat.reduceLT, if_true, if_false, or0, zor, (xmask_bytes x _).1]
    rw [mm _ 7 (0#8) (by decide), mm _ 6 (BitVec.allOnes 8) (by decide), mm _ 5 (BitVec.allOnes 8) (by decide), mm _ 4 (BitVec.allOnes 8) (by decide), mm _ 3 (BitVec.allOnes 8) (by decide), mm _ 2 (BitVec.allOnes 8) (by decide), mm _ 1 (BitVec.allOnes 8) (by decide), mm _ 0 (0#8) (by decide)]
    simp only [and0, and1, BitVec.xor_zero, BitVec.zero_xor]
  · refine Eq.trans ?_ l1.symm
    simp only [hz _ _ (by decide : 0 < 1) (by decide), hz _ _ (by decide : 0 < 2) (by decide), hz _ _ (by decide : 0 < 3) (by decide), hz _ _ (by decide : 0 < 4) (by decide), hz _ _ (by decide : 0 < 5) (by decide), hz _ _ (by decide : 0 < 6) (by decide), hz _ _ (by decide : 0 < 7) (by decide),
      Nat.reduceSub, Nat.reduceLT, if_true, if_false, or0, zor, (xmask_bytes x _).1]
    rw [mm _ 7 (BitVec.allOnes 8) (by decide), mm _ 6 (BitVec.allOnes 8) (by decide), mm _ 5 (BitVec.allOnes 8) (by decide), mm _ 4 (0#8) (by decide), mm _ 3 (BitVec.allOnes 8) (by decide), mm _ 2 (BitVec.allOnes 8) (by decide), mm _ 1 (0#8) (by decide), mm _ 0 (BitVec.allOnes 8) (by decide)]
    simp only [and0, and1, BitVec.xor_zero, BitVec.zero_xor]
  · refine Eq.trans ?_ l2.symm
    simp only [hz _ _ (by decide : 0 < 1) (by decide), hz _ _ (by decide : 0 < 2) (by decide), hz _ _ (by decide : 0 < 3) (by decide), hz _ _ (by decide : 0 < 4) (by decide), hz _ _ (by decide : 0 < 5) (by decide), hz _ _ (by decide : 0 < 6) (by decide), hz _ _ (by decide : 0 < 7) (by decide),
      Nat.reduceSub, Nat.reduceLT, if_true, if_false, or0, zor, (xmask_bytes x _).1]
    rw [mm _ 7 (BitVec.allOnes 8) (by decide), mm _ 6 (BitVec.allOnes 8) (by decide), mm _ 5 (0#8) (by decide), mm _ 4 (BitVec.allOnes 8) (by decide), mm _ 3 (BitVec.allOnes 8) (by decide), mm _ 2 (0#8) (by decide), mm _ 1 (BitVec.allOnes 8) (by decide), mm _ 0 (BitVec.allOnes 8) (by decide)]
    simp only [and0, and1, BitVec.xor_zero, BitVec.zero_xor]
  · refine Eq.trans ?_ l3.symm
    simp only [hz _ _ (by decide : 0 < 1) (by decide), hz _ _ (by decide : 0 < 2) (by decide), hz _ _ (by decide : 0 < 3) (by decide), hz _ _ (by decide : 0 < 4) (by decide), hz _ _ (by decide : 0 < 5) (by decide), hz _ _ (by decide : 0 < 6) (by decide), hz _ _ (by decide : 0 < 7) (by decide),
      Nat.reduceSub, Nat.reduceLT, if_true, if_false, or0, zor, (xmask_bytes x _).1]
    rw [mm _ 7 (BitVec.allOnes 8) (by decide), mm _ 6 (0#8) (by decide), mm _ 5 (BitVec.allOnes 8) (by decide), mm _ 4 (BitVec.allOnes 8) (by decide), mm _ 3 (0#8) (by decide), mm _ 2 (BitVec.allOnes 8) (by decide), mm _ 1 (BitVec.allOnes 8) (by decide), mm _ 0 (BitVec.allOnes 8) (by decide)]
    simp only [and0, and1, BitVec.xor_zero, BitVec.zero_xor]

theorem F_spec : func_F = Spec.Camellia.F := by
  funext x k
  unfold func_F Spec.Camellia.F
  rw [P_bytes]
  obtain ⟨h7, h6, h5, h4, h3, h2, h1, h0⟩ := S_bytes (x ^^^ k)
  rw [h7, h6, h5, h4, h3, h2, h1, h0]
  rfl

theorem hi32 (x : D) : (x >>> 32).setWidth 32 = x.extractLsb' 32 32 := by
  apply BitVec.eq_of_getLsbD_eq; intro i hi
  simp [hi]
theorem lo32 (x : D) : x.setWidth 32 = x.extractLsb' 0 32 := by
  apply BitVec.eq_of_getLsbD_eq; intro i hi
  simp [hi]

theorem FL_spec : func_FL = Spec.Camellia.FL := by
  funext x k
  unfold func_FL Spec.Camellia.FL
  simp only [hi32]
  simp only [lo32]
  rw [mk_app, Sm4.rotl _ 1 (by decide) (by decide), BitVec.xor_comm (BitVec.rotateLeft _ _), BitVec.xor_comm (_ ||| _)]

theorem FLINV_spec : invf_FL = Spec.Camellia.FLINV := by
  funext x k
  unfold invf_FL Spec.Camellia.FLINV
  simp only [hi32]
  simp only [lo32]
  rw [mk_app, Sm4.rotl _ 1 (by decide) (by decide), BitVec.xor_comm (BitVec.rotateLeft _ _), BitVec.xor_comm (_ ||| _)]

theorem sigmas : sigma1 = Spec.Camellia.sigma 2 ∧ sigma2 = Spec.Camellia.sigma 3 ∧ sigma3 = Spec.Camellia.sigma 5 ∧
    sigma4 = Spec.Camellia.sigma 7 ∧ sigma5 = Spec.Camellia.sigma 11 ∧ sigma6 = Spec.Camellia.sigma 13 := by
  decide +kernel

open Spec.Camellia (hi lo)

theorem hi_app (a b : D) : hi (a ++ b : BitVec (64 + 64)) = a := by
  unfold hi
  apply BitVec.eq_of_getLsbD_eq; intro i hi
  rw [BitVec.getLsbD_extractLsb', BitVec.getLsbD_append]
  simp [hi]
theorem lo_app (a b : D) : lo (a ++ b : BitVec (64 + 64)) = b := by
  unfold lo
  apply BitVec.eq_of_getLsbD_eq; intro i hi
  rw [BitVec.getLsbD_extractLsb', BitVec.getLsbD_append]
  simp [hi]
theorem app_hi_lo (K : BitVec 128) : (hi K ++ lo K : BitVec (64 + 64)) = K := by
  unfold hi lo
  apply BitVec.eq_of_getLsbD_eq; intro i hi
  rw [BitVec.getLsbD_append]
  by_cases h : i < 64
  · simp [h]
  · simp [h, show i - 64 < 64 by omega, show 64 + (i - 64) = i by omega]

theorem hi_xor (a b : BitVec 128) : hi (a ^^^ b) = hi a ^^^ hi b := by
  unfold hi; apply BitVec.eq_of_getLsbD_eq; intro i hi; simp [hi]
theorem lo_xor (a b : BitVec 128) : lo (a ^^^ b) = lo a ^^^ lo b := by
  unfold lo; apply BitVec.eq_of_getLsbD_eq; intro i hi; simp [hi]

theorem rot_hi (K : BitVec 128) (n : Nat) (h0 : 0 < n) (h : n < 64) : hi K <<< n ||| lo K >>> (64 - n) = hi (K.rotateLeft n) := by
  unfold hi lo
  apply BitVec.eq_of_getLsbD_eq; intro i hi
  rw [BitVec.getLsbD_or, BitVec.getLsbD_shiftLeft, BitVec.getLsbD_ushiftRight, BitVec.getLsbD_extractLsb', BitVec.getLsbD_extractLsb',
    BitVec.getLsbD_extractLsb', BitVec.getLsbD_rotateLeft, Nat.mod_eq_of_lt (show n < 128 by omega)]
  simp only [hi, decide_true, Bool.true_and, show ¬ 64 + i < n by omega, decide_false, cond_false, show 64 + i < 128 by omega]
  by_cases hc : i < n
  · simp only [hc, decide_true, Bool.not_true, Bool.false_and, Bool.false_or, show 64 - n + i < 64 by omega, Bool.true_and]
    congr 1; omega
  · simp only [hc, decide_false, Bool.not_false, Bool.true_and, show ¬ 64 - n + i < 64 by omega, Bool.false_and, Bool.or_false,
      show i - n < 64 by omega, decide_true]
    congr 1; omega
theorem rot_lo (K : BitVec 128) (n : Nat) (h0 : 0 < n) (h : n < 64) : lo K <<< n ||| hi K >>> (64 - n) = lo (K.rotateLeft n) := by
  unfold hi lo
  apply BitVec.eq_of_getLsbD_eq; intro i hi
  rw [BitVec.getLsbD_or, BitVec.getLsbD_shiftLeft, BitVec.getLsbD_ushiftRight, BitVec.getLsbD_extractLsb', BitVec.getLsbD_extractLsb',
    BitVec.getLsbD_extractLsb', BitVec.getLsbD_rotateLeft, Nat.mod_eq_of_lt (show n < 128 by omega)]
  simp only [hi, decide_true, Bool.true_and, Nat.zero_add, show i < 128 by omega]
  by_cases hc : i < n
  · simp only [hc, decide_true, Bool.not_true, Bool.false_and, Bool.false_or, show 64 - n + i < 64 by omega, Bool.true_and, cond_true]
    congr 1; omega
  · simp only [hc, decide_false, Bool.not_false, Bool.true_and, show ¬ 64 - n + i < 64 by omega, Bool.false_and, Bool.or_false,
      show i - n < 64 by omega, decide_true, cond_false]
theorem rot_swap (K : BitVec 128) (n : Nat) (h : n < 64) : K.rotateLeft (n + 64) = (lo K ++ hi K : BitVec (64 + 64)).rotateLeft n := by
  unfold hi lo
  apply BitVec.eq_of_getLsbD_eq; intro i hi
  rw [BitVec.getLsbD_rotateLeft, BitVec.getLsbD_rotateLeft, Nat.mod_eq_of_lt (show n + 64 < 128 by omega), Nat.mod_eq_of_lt (show n < 64 + 64 by omega),
    BitVec.getLsbD_append, BitVec.getLsbD_append]
  simp only [show i < 64 + 64 from hi, show i < 128 from hi, decide_true, Bool.true_and, BitVec.getLsbD_extractLsb']
  by_cases hc : i < n
  · simp only [hc, show i < n + 64 by omega, decide_true, cond_true, show ¬ 64 + 64 - n + i < 64 by omega, decide_false, cond_false,
      show 64 + 64 - n + i - 64 < 64 by omega, Bool.true_and]
    congr 1; omega
  · by_cases hd : i < n + 64
    · simp only [hc, hd, decide_true, cond_true, decide_false, cond_false, show i - n < 64 by omega, Bool.true_and]
      congr 1; omega
    · simp only [hc, hd, decide_true, cond_true, decide_false, cond_false, show ¬ i - n < 64 by omega, show i - n - 64 < 64 by omega, Bool.true_and]
      congr 1; omega
theorem rot_hi' (K : BitVec 128) (n : Nat) (h0 : 0 < n) (h : n < 64) : lo K <<< n ||| hi K >>> (64 - n) = hi (K.rotateLeft (n + 64)) := by
  rw [rot_swap K n h, ← rot_hi _ n h0 h, hi_app, lo_app]
theorem rot_lo' (K : BitVec 128) (n : Nat) (h0 : 0 < n) (h : n < 64) : hi K <<< n ||| lo K >>> (64 - n) = lo (K.rotateLeft (n + 64)) := by
  rw [rot_swap K n h, ← rot_lo _ n h0 h, hi_app, lo_app]
theorem rot_zero (K : BitVec 128) : K.rotateLeft 0 = K := by
  apply BitVec.eq_of_getLsbD_eq; intro i hi
  rw [BitVec.getLsbD_rotateLeft]; simp [hi]

/-! ### Key schedules -/

theorem ks128_spec (KL KR : BitVec 128) : ks128 (hi (KL ^^^ KR)) (lo (KL ^^^ KR)) (hi KL) (lo KL) =
    { LL := hi KL, LR := lo KL, AL := hi (Spec.Camellia.KA KL KR), AR := lo (Spec.Camellia.KA KL KR) } := by
  obtain ⟨h1, h2, h3, h4, -, -⟩ := sigmas
  unfold ks128 Spec.Camellia.KA
  simp only []
  rw [hi_app, lo_app, F_spec, h1, h2, h3, h4]

theorem ks256_spec (KL KR : BitVec 128) : ks256 (hi KR) (lo KR) (ks128 (hi (KL ^^^ KR)) (lo (KL ^^^ KR)) (hi KL) (lo KL)) =
    { LL := hi KL, LR := lo KL, AL := hi (Spec.Camellia.KA KL KR), AR := lo (Spec.Camellia.KA KL KR), RL := hi KR, RR := lo KR,
      BL := hi (Spec.Camellia.KB KL KR), BR := lo (Spec.Camellia.KB KL KR) } := by
  obtain ⟨-, -, -, -, h5, h6⟩ := sigmas
  rw [ks128_spec]
  unfold ks256 Spec.Camellia.KB
  simp only []
  rw [hi_app, lo_app, F_spec, h5, h6, hi_xor, lo_xor, BitVec.xor_comm (hi KR), BitVec.xor_comm (lo KR)]

/-! ### The rounds -/

theorem run_append (p q : List Op) (s : D × D) : run (p ++ q) s = run q (run p s) := by
  unfold run; rw [List.foldl_append]

theorem run_six (a b c d e f : D) (s : D × D) :
    run [.rF a, .lF b, .rF c, .lF d, .rF e, .lF f] s = Spec.Camellia.six [a, b, c, d, e, f] s := by
  rw [show run [.rF a, .lF b, .rF c, .lF d, .rF e, .lF f] s =
    Op.exec (.lF f) (Op.exec (.rF e) (Op.exec (.lF d) (Op.exec (.rF c) (Op.exec (.lF b) (Op.exec (.rF a) s))))) from rfl]
  unfold Spec.Camellia.six Op.exec
  rw [F_spec]
  rfl

theorem run_in (a b : D) (s : D × D) : run [.lX a, .rX b] s = (s.1 ^^^ a, s.2 ^^^ b) := rfl
theorem run_out (a b : D) (s : D × D) : run [.rX a, .lX b] s = (s.1 ^^^ b, s.2 ^^^ a) := rfl
theorem run_fl (a b : D) (s : D × D) : run [.lFL a, .rInv b] s = (func_FL s.1 a, invf_FL s.2 b) := rfl

/-- The rounds on the two halves, before the halves are joined. -/
theorem run_128 (kw : Fin 4 → D) (k : Fin 18 → D) (ke : Fin 4 → D) (l r : D) :
    let s := run [.lX (kw 0), .rX (kw 1), .rF (k 0), .lF (k 1), .rF (k 2), .lF (k 3), .rF (k 4), .lF (k 5), .lFL (ke 0), .rInv (ke 1),
      .rF (k 6), .lF (k 7), .rF (k 8), .lF (k 9), .rF (k 10), .lF (k 11), .lFL (ke 2), .rInv (ke 3),
      .rF (k 12), .lF (k 13), .rF (k 14), .lF (k 15), .rF (k 16), .lF (k 17), .rX (kw 2), .lX (kw 3)] (l, r)
    (s.2 ++ s.1 : BitVec (64 + 64)) = Spec.Camellia.crypt { kw := List.ofFn kw, k := List.ofFn k, ke := List.ofFn ke } (l ++ r : BitVec (64 + 64)) := by
  intro s
  have e : s = run ([.lX (kw 0), .rX (kw 1)] ++ [.rF (k 0), .lF (k 1), .rF (k 2), .lF (k 3), .rF (k 4), .lF (k 5)] ++ [.lFL (ke 0), .rInv (ke 1)] ++
      [.rF (k 6), .lF (k 7), .rF (k 8), .lF (k 9), .rF (k 10), .lF (k 11)] ++ [.lFL (ke 2), .rInv (ke 3)] ++
      [.rF (k 12), .lF (k 13), .rF (k 14), .lF (k 15), .rF (k 16), .lF (k 17)] ++ [.rX (kw 2), .lX (kw 3)]) (l, r) := rfl
  rw [e]
  simp only [run_append, run_six]
  unfold Spec.Camellia.crypt
  rw [hi_app, lo_app, ← FL_spec, ← FLINV_spec]
  simp only []
  rw [show (List.ofFn k).length / 6 - 1 = 2 by simp, show List.range 2 = [0, 1] from rfl]
  have t0 : (List.ofFn k).take 6 = [k 0, k 1, k 2, k 3, k 4, k 5] := rfl
  have t1 : ((List.ofFn k).drop (6 * 1)).take 6 = [k 6, k 7, k 8, k 9, k 10, k 11] := rfl
  have t2 : ((List.ofFn k).drop (6 * 2)).take 6 = [k 12, k 13, k 14, k 15, k 16, k 17] := rfl
  simp only [List.foldl_cons, List.foldl_nil, Nat.zero_add, Nat.reduceAdd]
  rw [t0, t1, t2]
  simp only [run_in, run_out, run_fl]
  rw [show (List.ofFn kw).getD 0 0 = kw 0 from rfl]
  rw [show (List.ofFn kw).getD 1 0 = kw 1 from rfl]
  rw [show (List.ofFn kw).getD 2 0 = kw 2 from rfl]
  rw [show (List.ofFn kw).getD 3 0 = kw 3 from rfl]
  rw [show (List.ofFn ke).getD (2 * 0) 0 = ke 0 from rfl]
  rw [show (List.ofFn ke).getD (2 * 0 + 1) 0 = ke 1 from rfl]
  rw [show (List.ofFn ke).getD (2 * 1) 0 = ke 2 from rfl]
  rw [show (List.ofFn ke).getD (2 * 1 + 1) 0 = ke 3 from rfl]

theorem run_256 (kw : Fin 4 → D) (k : Fin 24 → D) (ke : Fin 6 → D) (l r : D) :
    let s := run [.lX (kw 0), .rX (kw 1), .rF (k 0), .lF (k 1), .rF (k 2), .lF (k 3), .rF (k 4), .lF (k 5), .lFL (ke 0), .rInv (ke 1),
      .rF (k 6), .lF (k 7), .rF (k 8), .lF (k 9), .rF (k 10), .lF (k 11), .lFL (ke 2), .rInv (ke 3),
      .rF (k 12), .lF (k 13), .rF (k 14), .lF (k 15), .rF (k 16), .lF (k 17), .lFL (ke 4), .rInv (ke 5),
      .rF (k 18), .lF (k 19), .rF (k 20), .lF (k 21), .rF (k 22), .lF (k 23), .rX (kw 2), .lX (kw 3)] (l, r)
    (s.2 ++ s.1 : BitVec (64 + 64)) = Spec.Camellia.crypt { kw := List.ofFn kw, k := List.ofFn k, ke := List.ofFn ke } (l ++ r : BitVec (64 + 64)) := by
  intro s
  have e : s = run ([.lX (kw 0), .rX (kw 1)] ++ [.rF (k 0), .lF (k 1), .rF (k 2), .lF (k 3), .rF (k 4), .lF (k 5)] ++ [.lFL (ke 0), .rInv (ke 1)] ++
      [.rF (k 6), .lF (k 7), .rF (k 8), .lF (k 9), .rF (k 10), .lF (k 11)] ++ [.lFL (ke 2), .rInv (ke 3)] ++
      [.rF (k 12), .lF (k 13), .rF (k 14), .lF (k 15), .rF (k 16), .lF (k 17)] ++ [.lFL (ke 4), .rInv (ke 5)] ++
      [.rF (k 18), .lF (k 19), .rF (k 20), .lF (k 21), .rF (k 22), .lF (k 23)] ++ [.rX (kw 2), .lX (kw 3)]) (l, r) := rfl
  rw [e]
  simp only [run_append, run_six]
  unfold Spec.Camellia.crypt
  rw [hi_app, lo_app, ← FL_spec, ← FLINV_spec]
  simp only []
  rw [show (List.ofFn k).length / 6 - 1 = 3 by simp, show List.range 3 = [0, 1, 2] from rfl]
  have t0 : (List.ofFn k).take 6 = [k 0, k 1, k 2, k 3, k 4, k 5] := rfl
  have t1 : ((List.ofFn k).drop (6 * 1)).take 6 = [k 6, k 7, k 8, k 9, k 10, k 11] := rfl
  have t2 : ((List.ofFn k).drop (6 * 2)).take 6 = [k 12, k 13, k 14, k 15, k 16, k 17] := rfl
  have t3 : ((List.ofFn k).drop (6 * 3)).take 6 = [k 18, k 19, k 20, k 21, k 22, k 23] := rfl
  simp only [List.foldl_cons, List.foldl_nil, Nat.zero_add, Nat.reduceAdd]
  rw [t0, t1, t2, t3]
  simp only [run_in, run_out, run_fl]
  rw [show (List.ofFn kw).getD 0 0 = kw 0 from rfl]
  rw [show (List.ofFn kw).getD 1 0 = kw 1 from rfl]
  rw [show (List.ofFn kw).getD 2 0 = kw 2 from rfl]
  rw [show (List.ofFn kw).getD 3 0 = kw 3 from rfl]
  rw [show (List.ofFn ke).getD (2 * 0) 0 = ke 0 from rfl]
  rw [show (List.ofFn ke).getD (2 * 0 + 1) 0 = ke 1 from rfl]
  rw [show (List.ofFn ke).getD (2 * 1) 0 = ke 2 from rfl]
  rw [show (List.ofFn ke).getD (2 * 1 + 1) 0 = ke 3 from rfl]
  rw [show (List.ofFn ke).getD (2 * 2) 0 = ke 4 from rfl]
  rw [show (List.ofFn ke).getD (2 * 2 + 1) 0 = ke 5 from rfl]

/-- Exchanging the roles of the two variables. -/
def Op.swap : Op → Op
  | .lX k => .rX k
  | .rX k => .lX k
  | .lF k => .rF k
  | .rF k => .lF k
  | .lFL k => .rFL k
  | .rFL k => .lFL k
  | .lInv k => .rInv k
  | .rInv k => .lInv k

theorem run_swap (p : List Op) (s : D × D) : run (p.map Op.swap) s.swap = (run p s).swap := by
  induction p generalizing s with
  | nil => rfl
  | cons o p ih =>
    have h : o.swap.exec s.swap = (o.exec s).swap := by cases o <;> rfl
    show run (p.map Op.swap) (o.swap.exec s.swap) = _
    rw [h, ih]; rfl

/-! ### Octets -/

theorem ld64_toNat (b : List Byte) (t : Nat) : (ld64 b t).toNat =
    ((((((((b.getD (8 * t) 0).toNat * 256 + (b.getD (8 * t + 1) 0).toNat) * 256 + (b.getD (8 * t + 2) 0).toNat) * 256 +
      (b.getD (8 * t + 3) 0).toNat) * 256 + (b.getD (8 * t + 4) 0).toNat) * 256 + (b.getD (8 * t + 5) 0).toNat) * 256 +
      (b.getD (8 * t + 6) 0).toNat) * 256 + (b.getD (8 * t + 7) 0).toNat) := by
  unfold Endian.ld64 Endian.ld32
  simp only [Fips180.toNat_app]
  rw [show 4 * (2 * t) = 8 * t by omega, show 4 * (2 * t + 1) = 8 * t + 4 by omega]
  simp only [Nat.add_assoc, Nat.reduceAdd]
  omega

theorem num64 (b : List Byte) (h : b.length = 8) : Spec.Camellia.num 64 b = ld64 b 0 := by
  apply BitVec.eq_of_toNat_eq
  rw [ld64_toNat]
  unfold Spec.Camellia.num
  match b, h with
  | [a0, a1, a2, a3, a4, a5, a6, a7], _ =>
    have := a0.isLt; have := a1.isLt; have := a2.isLt; have := a3.isLt; have := a4.isLt; have := a5.isLt; have := a6.isLt; have := a7.isLt
    simp only [Spec.beNat, List.reverse_cons, List.reverse_nil, List.nil_append, List.cons_append, Spec.leNat, BitVec.toNat_ofNat]
    simp only [List.getD_cons_zero, List.getD_cons_succ, Nat.mul_zero, Nat.zero_add]
    omega

theorem num128 (b : List Byte) (h : b.length = 16) : Spec.Camellia.num 128 b = (ld64 b 0 ++ ld64 b 1 : BitVec (64 + 64)) := by
  apply BitVec.eq_of_toNat_eq
  rw [Fips180.toNat_app, ld64_toNat, ld64_toNat]
  unfold Spec.Camellia.num
  obtain ⟨a0, a1, a2, a3, a4, a5, a6, a7, a8, a9, a10, a11, a12, a13, a14, a15, rfl⟩ := list16 b h
  have := a0.isLt; have := a1.isLt; have := a2.isLt; have := a3.isLt; have := a4.isLt; have := a5.isLt; have := a6.isLt; have := a7.isLt
  have := a8.isLt; have := a9.isLt; have := a10.isLt; have := a11.isLt; have := a12.isLt; have := a13.isLt; have := a14.isLt; have := a15.isLt
  simp only [Spec.beNat, List.reverse_cons, List.reverse_nil, List.nil_append, List.cons_append, Spec.leNat, BitVec.toNat_ofNat]
  simp only [List.getD_cons_zero, List.getD_cons_succ, Nat.mul_zero, Nat.zero_add, Nat.mul_one, Nat.reduceAdd]
  omega

theorem hi_num (b : List Byte) (h : b.length = 16) : hi (Spec.Camellia.num 128 b) = ld64 b 0 := by rw [num128 b h, hi_app]
theorem lo_num (b : List Byte) (h : b.length = 16) : lo (Spec.Camellia.num 128 b) = ld64 b 1 := by rw [num128 b h, lo_app]

theorem ld64_drop (b : List Byte) (t : Nat) : ld64 (b.drop 16) t = ld64 b (t + 2) := by
  unfold ld64 ld32
  have e : ∀ i, (b.drop 16).getD i 0 = b.getD (16 + i) 0 := fun i => by simp [List.getD_eq_getElem?_getD, List.getElem?_drop]
  simp only [e]
  rw [show 16 + 4 * (2 * t) = 4 * (2 * (t + 2)) by omega, show 16 + 4 * (2 * t + 1) = 4 * (2 * (t + 2) + 1) by omega]
  simp only [← Nat.add_assoc]
  rw [show 16 + 4 * (2 * t) = 4 * (2 * (t + 2)) by omega, show 16 + 4 * (2 * t + 1) = 4 * (2 * (t + 2) + 1) by omega]
theorem ld64_take (b : List Byte) (t : Nat) (h : t < 2) : ld64 (b.take 16) t = ld64 b t := by
  unfold ld64 ld32
  have e : ∀ i, i < 16 → (b.take 16).getD i 0 = b.getD i 0 := fun i hi => by
    rw [List.getD_eq_getElem?_getD, List.getD_eq_getElem?_getD, List.getElem?_take_of_lt hi]
  simp only [e _ (show 4 * (2 * t) < 16 by omega), e _ (show 4 * (2 * t) + 1 < 16 by omega), e _ (show 4 * (2 * t) + 2 < 16 by omega),
    e _ (show 4 * (2 * t) + 3 < 16 by omega), e _ (show 4 * (2 * t + 1) < 16 by omega), e _ (show 4 * (2 * t + 1) + 1 < 16 by omega),
    e _ (show 4 * (2 * t + 1) + 2 < 16 by omega), e _ (show 4 * (2 * t + 1) + 3 < 16 by omega)]

/-! ### The ciphers -/

theorem rh15 (K : BitVec 128) : hi (K.rotateLeft 15) = hi K <<< 15 ||| lo K >>> 49 := (rot_hi K 15 (by decide) (by decide)).symm
theorem rl15 (K : BitVec 128) : lo (K.rotateLeft 15) = lo K <<< 15 ||| hi K >>> 49 := (rot_lo K 15 (by decide) (by decide)).symm
theorem rh30 (K : BitVec 128) : hi (K.rotateLeft 30) = hi K <<< 30 ||| lo K >>> 34 := (rot_hi K 30 (by decide) (by decide)).symm
theorem rl30 (K : BitVec 128) : lo (K.rotateLeft 30) = lo K <<< 30 ||| hi K >>> 34 := (rot_lo K 30 (by decide) (by decide)).symm
theorem rh45 (K : BitVec 128) : hi (K.rotateLeft 45) = hi K <<< 45 ||| lo K >>> 19 := (rot_hi K 45 (by decide) (by decide)).symm
theorem rl45 (K : BitVec 128) : lo (K.rotateLeft 45) = lo K <<< 45 ||| hi K >>> 19 := (rot_lo K 45 (by decide) (by decide)).symm
theorem rh60 (K : BitVec 128) : hi (K.rotateLeft 60) = hi K <<< 60 ||| lo K >>> 4 := (rot_hi K 60 (by decide) (by decide)).symm
theorem rl60 (K : BitVec 128) : lo (K.rotateLeft 60) = lo K <<< 60 ||| hi K >>> 4 := (rot_lo K 60 (by decide) (by decide)).symm
theorem rh77 (K : BitVec 128) : hi (K.rotateLeft 77) = lo K <<< 13 ||| hi K >>> 51 := (rot_hi' K 13 (by decide) (by decide)).symm
theorem rl77 (K : BitVec 128) : lo (K.rotateLeft 77) = hi K <<< 13 ||| lo K >>> 51 := (rot_lo' K 13 (by decide) (by decide)).symm
theorem rh94 (K : BitVec 128) : hi (K.rotateLeft 94) = lo K <<< 30 ||| hi K >>> 34 := (rot_hi' K 30 (by decide) (by decide)).symm
theorem rl94 (K : BitVec 128) : lo (K.rotateLeft 94) = hi K <<< 30 ||| lo K >>> 34 := (rot_lo' K 30 (by decide) (by decide)).symm
theorem rh111 (K : BitVec 128) : hi (K.rotateLeft 111) = lo K <<< 47 ||| hi K >>> 17 := (rot_hi' K 47 (by decide) (by decide)).symm
theorem rl111 (K : BitVec 128) : lo (K.rotateLeft 111) = hi K <<< 47 ||| lo K >>> 17 := (rot_lo' K 47 (by decide) (by decide)).symm

theorem enc128_ops (KL KA : BitVec 128) : enc128 { LL := hi KL, LR := lo KL, AL := hi KA, AR := lo KA } =
    [.lX (hi (KL.rotateLeft 0)), .rX (lo (KL.rotateLeft 0)), .rF (hi (KA.rotateLeft 0)), .lF (lo (KA.rotateLeft 0)), .rF (hi (KL.rotateLeft 15)), .lF (lo (KL.rotateLeft 15)), .rF (hi (KA.rotateLeft 15)), .lF (lo (KA.rotateLeft 15)), .lFL (hi (KA.rotateLeft 30)), .rInv (lo (KA.rotateLeft 30)), .rF (hi (KL.rotateLeft 45)), .lF (lo (KL.rotateLeft 45)), .rF (hi (KA.rotateLeft 45)), .lF (lo (KL.rotateLeft 60)), .rF (hi (KA.rotateLeft 60)), .lF (lo (KA.rotateLeft 60)), .lFL (hi (KL.rotateLeft 77)), .rInv (lo (KL.rotateLeft 77)), .rF (hi (KL.rotateLeft 94)), .lF (lo (KL.rotateLeft 94)), .rF (hi (KA.rotateLeft 94)), .lF (lo (KA.rotateLeft 94)), .rF (hi (KL.rotateLeft 111)), .lF (lo (KL.rotateLeft 111)), .rX (hi (KA.rotateLeft 111)), .lX (lo (KA.rotateLeft 111))] := by
  unfold enc128
  simp only [rot_zero, rh15, rl15, rh30, rl30, rh45, rl45, rh60, rl60, rh77, rl77, rh94, rl94, rh111, rl111]

theorem enc256_ops (KL KR KA KB : BitVec 128) : enc256 { LL := hi KL, LR := lo KL, AL := hi KA, AR := lo KA, RL := hi KR, RR := lo KR, BL := hi KB, BR := lo KB } =
    [.lX (hi (KL.rotateLeft 0)), .rX (lo (KL.rotateLeft 0)), .rF (hi (KB.rotateLeft 0)), .lF (lo (KB.rotateLeft 0)), .rF (hi (KR.rotateLeft 15)), .lF (lo (KR.rotateLeft 15)), .rF (hi (KA.rotateLeft 15)), .lF (lo (KA.rotateLeft 15)), .lFL (hi (KR.rotateLeft 30)), .rInv (lo (KR.rotateLeft 30)), .rF (hi (KB.rotateLeft 30)), .lF (lo (KB.rotateLeft 30)), .rF (hi (KL.rotateLeft 45)), .lF (lo (KL.rotateLeft 45)), .rF (hi (KA.rotateLeft 45)), .lF (lo (KA.rotateLeft 45)), .lFL (hi (KL.rotateLeft 60)), .rInv (lo (KL.rotateLeft 60)), .rF (hi (KR.rotateLeft 60)), .lF (lo (KR.rotateLeft 60)), .rF (hi (KB.rotateLeft 60)), .lF (lo (KB.rotateLeft 60)), .rF (hi (KL.rotateLeft 77)), .lF (lo (KL.rotateLeft 77)), .lFL (hi (KA.rotateLeft 77)), .rInv (lo (KA.rotateLeft 77)), .rF (hi (KR.rotateLeft 94)), .lF (lo (KR.rotateLeft 94)), .rF (hi (KA.rotateLeft 94)), .lF (lo (KA.rotateLeft 94)), .rF (hi (KL.rotateLeft 111)), .lF (lo (KL.rotateLeft 111)), .rX (hi (KB.rotateLeft 111)), .lX (lo (KB.rotateLeft 111))] := by
  unfold enc256
  simp only [rot_zero, rh15, rl15, rh30, rl30, rh45, rl45, rh60, rl60, rh77, rl77, rh94, rl94, rh111, rl111]

theorem dec128_ops (KL KA : BitVec 128) : dec128 { LL := hi KL, LR := lo KL, AL := hi KA, AR := lo KA } =
    List.map Op.swap [.rX (lo (KA.rotateLeft 111)), .lX (hi (KA.rotateLeft 111)), .rF (lo (KL.rotateLeft 111)), .lF (hi (KL.rotateLeft 111)), .rF (lo (KA.rotateLeft 94)), .lF (hi (KA.rotateLeft 94)), .rF (lo (KL.rotateLeft 94)), .lF (hi (KL.rotateLeft 94)), .lFL (lo (KL.rotateLeft 77)), .rInv (hi (KL.rotateLeft 77)), .rF (lo (KA.rotateLeft 60)), .lF (hi (KA.rotateLeft 60)), .rF (lo (KL.rotateLeft 60)), .lF (hi (KA.rotateLeft 45)), .rF (lo (KL.rotateLeft 45)), .lF (hi (KL.rotateLeft 45)), .lFL (lo (KA.rotateLeft 30)), .rInv (hi (KA.rotateLeft 30)), .rF (lo (KA.rotateLeft 15)), .lF (hi (KA.rotateLeft 15)), .rF (lo (KL.rotateLeft 15)), .lF (hi (KL.rotateLeft 15)), .rF (lo (KA.rotateLeft 0)), .lF (hi (KA.rotateLeft 0)), .lX (lo (KL.rotateLeft 0)), .rX (hi (KL.rotateLeft 0))] := by
  unfold dec128
  simp only [List.map_cons, List.map_nil, Op.swap, rot_zero, rh15, rl15, rh30, rl30, rh45, rl45, rh60, rl60, rh77, rl77, rh94, rl94, rh111, rl111]

theorem dec256_ops (KL KR KA KB : BitVec 128) : dec256 { LL := hi KL, LR := lo KL, AL := hi KA, AR := lo KA, RL := hi KR, RR := lo KR, BL := hi KB, BR := lo KB } =
    List.map Op.swap [.rX (lo (KB.rotateLeft 111)), .lX (hi (KB.rotateLeft 111)), .rF (lo (KL.rotateLeft 111)), .lF (hi (KL.rotateLeft 111)), .rF (lo (KA.rotateLeft 94)), .lF (hi (KA.rotateLeft 94)), .rF (lo (KR.rotateLeft 94)), .lF (hi (KR.rotateLeft 94)), .lFL (lo (KA.rotateLeft 77)), .rInv (hi (KA.rotateLeft 77)), .rF (lo (KL.rotateLeft 77)), .lF (hi (KL.rotateLeft 77)), .rF (lo (KB.rotateLeft 60)), .lF (hi (KB.rotateLeft 60)), .rF (lo (KR.rotateLeft 60)), .lF (hi (KR.rotateLeft 60)), .lFL (lo (KL.rotateLeft 60)), .rInv (hi (KL.rotateLeft 60)), .rF (lo (KA.rotateLeft 45)), .lF (hi (KA.rotateLeft 45)), .rF (lo (KL.rotateLeft 45)), .lF (hi (KL.rotateLeft 45)), .rF (lo (KB.rotateLeft 30)), .lF (hi (KB.rotateLeft 30)), .lFL (lo (KR.rotateLeft 30)), .rInv (hi (KR.rotateLeft 30)), .rF (lo (KA.rotateLeft 15)), .lF (hi (KA.rotateLeft 15)), .rF (lo (KR.rotateLeft 15)), .lF (hi (KR.rotateLeft 15)), .rF (lo (KB.rotateLeft 0)), .lF (hi (KB.rotateLeft 0)), .lX (lo (KL.rotateLeft 0)), .rX (hi (KL.rotateLeft 0))] := by
  unfold dec256
  simp only [List.map_cons, List.map_nil, Op.swap, rot_zero, rh15, rl15, rh30, rl30, rh45, rl45, rh60, rl60, rh77, rl77, rh94, rl94, rh111, rl111]

theorem run_128' (w0 w1 w2 w3 k0 k1 k2 k3 k4 k5 k6 k7 k8 k9 k10 k11 k12 k13 k14 k15 k16 k17 e0 e1 e2 e3 l r : D) :
    ((run [.lX w0, .rX w1, .rF k0, .lF k1, .rF k2, .lF k3, .rF k4, .lF k5, .lFL e0, .rInv e1, .rF k6, .lF k7, .rF k8, .lF k9, .rF k10, .lF k11, .lFL e2, .rInv e3, .rF k12, .lF k13, .rF k14, .lF k15, .rF k16, .lF k17, .rX w2, .lX w3] (l, r)).2 ++
     (run [.lX w0, .rX w1, .rF k0, .lF k1, .rF k2, .lF k3, .rF k4, .lF k5, .lFL e0, .rInv e1, .rF k6, .lF k7, .rF k8, .lF k9, .rF k10, .lF k11, .lFL e2, .rInv e3, .rF k12, .lF k13, .rF k14, .lF k15, .rF k16, .lF k17, .rX w2, .lX w3] (l, r)).1 : BitVec (64 + 64)) =
    Spec.Camellia.crypt { kw := [w0, w1, w2, w3], k := [k0, k1, k2, k3, k4, k5, k6, k7, k8, k9, k10, k11, k12, k13, k14, k15, k16, k17], ke := [e0, e1, e2, e3] } (l ++ r : BitVec (64 + 64)) :=
  run_128 ![w0, w1, w2, w3] ![k0, k1, k2, k3, k4, k5, k6, k7, k8, k9, k10, k11, k12, k13, k14, k15, k16, k17] ![e0, e1, e2, e3] l r

theorem run_256' (w0 w1 w2 w3 k0 k1 k2 k3 k4 k5 k6 k7 k8 k9 k10 k11 k12 k13 k14 k15 k16 k17 k18 k19 k20 k21 k22 k23 e0 e1 e2 e3 e4 e5 l r : D) :
    ((run [.lX w0, .rX w1, .rF k0, .lF k1, .rF k2, .lF k3, .rF k4, .lF k5, .lFL e0, .rInv e1, .rF k6, .lF k7, .rF k8, .lF k9, .rF k10, .lF k11, .lFL e2, .rInv e3, .rF k12, .lF k13, .rF k14, .lF k15, .rF k16, .lF k17, .lFL e4, .rInv e5, .rF k18, .lF k19, .rF k20, .lF k21, .rF k22, .lF k23, .rX w2, .lX w3] (l, r)).2 ++
     (run [.lX w0, .rX w1, .rF k0, .lF k1, .rF k2, .lF k3, .rF k4, .lF k5, .lFL e0, .rInv e1, .rF k6, .lF k7, .rF k8, .lF k9, .rF k10, .lF k11, .lFL e2, .rInv e3, .rF k12, .lF k13, .rF k14, .lF k15, .rF k16, .lF k17, .lFL e4, .rInv e5, .rF k18, .lF k19, .rF k20, .lF k21, .rF k22, .lF k23, .rX w2, .lX w3] (l, r)).1 : BitVec (64 + 64)) =
    Spec.Camellia.crypt { kw := [w0, w1, w2, w3], k := [k0, k1, k2, k3, k4, k5, k6, k7, k8, k9, k10, k11, k12, k13, k14, k15, k16, k17, k18, k19, k20, k21, k22, k23], ke := [e0, e1, e2, e3, e4, e5] } (l ++ r : BitVec (64 + 64)) :=
  run_256 ![w0, w1, w2, w3] ![k0, k1, k2, k3, k4, k5, k6, k7, k8, k9, k10, k11, k12, k13, k14, k15, k16, k17, k18, k19, k20, k21, k22, k23] ![e0, e1, e2, e3, e4, e5] l r

/-- Two octet-reversed exclusive-ors commute. -/
theorem run_comm (a b c d : D) (p : List Op) (s : D × D) :
    run ([.rX b, .lX a] ++ p ++ [.lX d, .rX c]) s = run ([.lX a, .rX b] ++ p ++ [.rX c, .lX d]) s := by
  rw [run_append, run_append, run_append, run_append]
  rfl

theorem enc_out (p : List Op) (inp : List Byte) (h : inp.length = 16) (S : Spec.Camellia.Sub)
    (hp : ∀ l r, ((run p (l, r)).2 ++ (run p (l, r)).1 : BitVec (64 + 64)) = Spec.Camellia.crypt S (l ++ r : BitVec (64 + 64))) :
    Spec.Camellia.num 128 (encBlock p inp) = Spec.Camellia.crypt S (Spec.Camellia.num 128 inp) := by
  unfold encBlock
  simp only []
  rw [num128 _ (by rw [List.length_append, st64_len, st64_len]), (ld64_st64 _ _).1, (ld64_st64 _ _).2, hp, num128 _ h]

theorem dec_out (p : List Op) (inp : List Byte) (h : inp.length = 16) (S : Spec.Camellia.Sub)
    (hp : ∀ l r, ((run p (l, r)).2 ++ (run p (l, r)).1 : BitVec (64 + 64)) = Spec.Camellia.crypt S (l ++ r : BitVec (64 + 64))) :
    Spec.Camellia.num 128 (decBlock (p.map Op.swap) inp) = Spec.Camellia.crypt S (Spec.Camellia.num 128 inp) := by
  unfold decBlock
  simp only []
  have e : run (p.map Op.swap) (ld64 inp 1, ld64 inp 0) = (run p (ld64 inp 0, ld64 inp 1)).swap := run_swap p (ld64 inp 0, ld64 inp 1)
  rw [e, num128 _ (by rw [List.length_append, st64_len, st64_len]), (ld64_st64 _ _).1, (ld64_st64 _ _).2, Prod.fst_swap, Prod.snd_swap, hp, num128 _ h]

theorem enc128_spec (KL KA : BitVec 128) (inp : List Byte) (h : inp.length = 16) :
    Spec.Camellia.num 128 (encBlock (enc128 { LL := hi KL, LR := lo KL, AL := hi KA, AR := lo KA }) inp) = Spec.Camellia.crypt (Spec.Camellia.sub128 KL KA) (Spec.Camellia.num 128 inp) := by
  apply enc_out _ _ h
  intro l r
  rw [enc128_ops, show (Spec.Camellia.sub128 KL KA) = { kw := [hi (KL.rotateLeft 0), lo (KL.rotateLeft 0), hi (KA.rotateLeft 111), lo (KA.rotateLeft 111)], k := [hi (KA.rotateLeft 0), lo (KA.rotateLeft 0), hi (KL.rotateLeft 15), lo (KL.rotateLeft 15), hi (KA.rotateLeft 15), lo (KA.rotateLeft 15), hi (KL.rotateLeft 45), lo (KL.rotateLeft 45), hi (KA.rotateLeft 45), lo (KL.rotateLeft 60), hi (KA.rotateLeft 60), lo (KA.rotateLeft 60), hi (KL.rotateLeft 94), lo (KL.rotateLeft 94), hi (KA.rotateLeft 94), lo (KA.rotateLeft 94), hi (KL.rotateLeft 111), lo (KL.rotateLeft 111)], ke := [hi (KA.rotateLeft 30), lo (KA.rotateLeft 30), hi (KL.rotateLeft 77), lo (KL.rotateLeft 77)] } from rfl]
  apply run_128'

theorem enc256_spec (KL KR KA KB : BitVec 128) (inp : List Byte) (h : inp.length = 16) :
    Spec.Camellia.num 128 (encBlock (enc256 { LL := hi KL, LR := lo KL, AL := hi KA, AR := lo KA, RL := hi KR, RR := lo KR, BL := hi KB, BR := lo KB }) inp) = Spec.Camellia.crypt (Spec.Camellia.sub256 KL KR KA KB) (Spec.Camellia.num 128 inp) := by
  apply enc_out _ _ h
  intro l r
  rw [enc256_ops, show (Spec.Camellia.sub256 KL KR KA KB) = { kw := [hi (KL.rotateLeft 0), lo (KL.rotateLeft 0), hi (KB.rotateLeft 111), lo (KB.rotateLeft 111)], k := [hi (KB.rotateLeft 0), lo (KB.rotateLeft 0), hi (KR.rotateLeft 15), lo (KR.rotateLeft 15), hi (KA.rotateLeft 15), lo (KA.rotateLeft 15), hi (KB.rotateLeft 30), lo (KB.rotateLeft 30), hi (KL.rotateLeft 45), lo (KL.rotateLeft 45), hi (KA.rotateLeft 45), lo (KA.rotateLeft 45), hi (KR.rotateLeft 60), lo (KR.rotateLeft 60), hi (KB.rotateLeft 60), lo (KB.rotateLeft 60), hi (KL.rotateLeft 77), lo (KL.rotateLeft 77), hi (KR.rotateLeft 94), lo (KR.rotateLeft 94), hi (KA.rotateLeft 94), lo (KA.rotateLeft 94), hi (KL.rotateLeft 111), lo (KL.rotateLeft 111)], ke := [hi (KR.rotateLeft 30), lo (KR.rotateLeft 30), hi (KL.rotateLeft 60), lo (KL.rotateLeft 60), hi (KA.rotateLeft 77), lo (KA.rotateLeft 77)] } from rfl]
  apply run_256'

theorem dec128_spec (KL KA : BitVec 128) (inp : List Byte) (h : inp.length = 16) :
    Spec.Camellia.num 128 (decBlock (dec128 { LL := hi KL, LR := lo KL, AL := hi KA, AR := lo KA }) inp) = Spec.Camellia.crypt (Spec.Camellia.sub128 KL KA).rev (Spec.Camellia.num 128 inp) := by
  rw [dec128_ops]
  apply dec_out _ _ h
  intro l r
  have e := run_comm (hi (KA.rotateLeft 111)) (lo (KA.rotateLeft 111)) (hi (KL.rotateLeft 0)) (lo (KL.rotateLeft 0))
    [.rF (lo (KL.rotateLeft 111)), .lF (hi (KL.rotateLeft 111)), .rF (lo (KA.rotateLeft 94)), .lF (hi (KA.rotateLeft 94)), .rF (lo (KL.rotateLeft 94)), .lF (hi (KL.rotateLeft 94)), .lFL (lo (KL.rotateLeft 77)), .rInv (hi (KL.rotateLeft 77)), .rF (lo (KA.rotateLeft 60)), .lF (hi (KA.rotateLeft 60)), .rF (lo (KL.rotateLeft 60)), .lF (hi (KA.rotateLeft 45)), .rF (lo (KL.rotateLeft 45)), .lF (hi (KL.rotateLeft 45)), .lFL (lo (KA.rotateLeft 30)), .rInv (hi (KA.rotateLeft 30)), .rF (lo (KA.rotateLeft 15)), .lF (hi (KA.rotateLeft 15)), .rF (lo (KL.rotateLeft 15)), .lF (hi (KL.rotateLeft 15)), .rF (lo (KA.rotateLeft 0)), .lF (hi (KA.rotateLeft 0))] (l, r)
  simp only [List.cons_append, List.nil_append] at e
  rw [e, show (Spec.Camellia.sub128 KL KA).rev = { kw := [hi (KA.rotateLeft 111), lo (KA.rotateLeft 111), hi (KL.rotateLeft 0), lo (KL.rotateLeft 0)], k := [lo (KL.rotateLeft 111), hi (KL.rotateLeft 111), lo (KA.rotateLeft 94), hi (KA.rotateLeft 94), lo (KL.rotateLeft 94), hi (KL.rotateLeft 94), lo (KA.rotateLeft 60), hi (KA.rotateLeft 60), lo (KL.rotateLeft 60), hi (KA.rotateLeft 45), lo (KL.rotateLeft 45), hi (KL.rotateLeft 45), lo (KA.rotateLeft 15), hi (KA.rotateLeft 15), lo (KL.rotateLeft 15), hi (KL.rotateLeft 15), lo (KA.rotateLeft 0), hi (KA.rotateLeft 0)], ke := [lo (KL.rotateLeft 77), hi (KL.rotateLeft 77), lo (KA.rotateLeft 30), hi (KA.rotateLeft 30)] } from rfl]
  apply run_128'

theorem dec256_spec (KL KR KA KB : BitVec 128) (inp : List Byte) (h : inp.length = 16) :
    Spec.Camellia.num 128 (decBlock (dec256 { LL := hi KL, LR := lo KL, AL := hi KA, AR := lo KA, RL := hi KR, RR := lo KR, BL := hi KB, BR := lo KB }) inp) = Spec.Camellia.crypt (Spec.Camellia.sub256 KL KR KA KB).rev (Spec.Camellia.num 128 inp) := by
  rw [dec256_ops]
  apply dec_out _ _ h
  intro l r
  have e := run_comm (hi (KB.rotateLeft 111)) (lo (KB.rotateLeft 111)) (hi (KL.rotateLeft 0)) (lo (KL.rotateLeft 0))
    [.rF (lo (KL.rotateLeft 111)), .lF (hi (KL.rotateLeft 111)), .rF (lo (KA.rotateLeft 94)), .lF (hi (KA.rotateLeft 94)), .rF (lo (KR.rotateLeft 94)), .lF (hi (KR.rotateLeft 94)), .lFL (lo (KA.rotateLeft 77)), .rInv (hi (KA.rotateLeft 77)), .rF (lo (KL.rotateLeft 77)), .lF (hi (KL.rotateLeft 77)), .rF (lo (KB.rotateLeft 60)), .lF (hi (KB.rotateLeft 60)), .rF (lo (KR.rotateLeft 60)), .lF (hi (KR.rotateLeft 60)), .lFL (lo (KL.rotateLeft 60)), .rInv (hi (KL.rotateLeft 60)), .rF (lo (KA.rotateLeft 45)), .lF (hi (KA.rotateLeft 45)), .rF (lo (KL.rotateLeft 45)), .lF (hi (KL.rotateLeft 45)), .rF (lo (KB.rotateLeft 30)), .lF (hi (KB.rotateLeft 30)), .lFL (lo (KR.rotateLeft 30)), .rInv (hi (KR.rotateLeft 30)), .rF (lo (KA.rotateLeft 15)), .lF (hi (KA.rotateLeft 15)), .rF (lo (KR.rotateLeft 15)), .lF (hi (KR.rotateLeft 15)), .rF (lo (KB.rotateLeft 0)), .lF (hi (KB.rotateLeft 0))] (l, r)
  simp only [List.cons_append, List.nil_append] at e
  rw [e, show (Spec.Camellia.sub256 KL KR KA KB).rev = { kw := [hi (KB.rotateLeft 111), lo (KB.rotateLeft 111), hi (KL.rotateLeft 0), lo (KL.rotateLeft 0)], k := [lo (KL.rotateLeft 111), hi (KL.rotateLeft 111), lo (KA.rotateLeft 94), hi (KA.rotateLeft 94), lo (KR.rotateLeft 94), hi (KR.rotateLeft 94), lo (KL.rotateLeft 77), hi (KL.rotateLeft 77), lo (KB.rotateLeft 60), hi (KB.rotateLeft 60), lo (KR.rotateLeft 60), hi (KR.rotateLeft 60), lo (KA.rotateLeft 45), hi (KA.rotateLeft 45), lo (KL.rotateLeft 45), hi (KL.rotateLeft 45), lo (KB.rotateLeft 30), hi (KB.rotateLeft 30), lo (KA.rotateLeft 15), hi (KA.rotateLeft 15), lo (KR.rotateLeft 15), hi (KR.rotateLeft 15), lo (KB.rotateLeft 0), hi (KB.rotateLeft 0)], ke := [lo (KA.rotateLeft 77), hi (KA.rotateLeft 77), lo (KL.rotateLeft 60), hi (KL.rotateLeft 60), lo (KR.rotateLeft 30), hi (KR.rotateLeft 30)] } from rfl]
  apply run_256'

theorem key128 (key : List Byte) (h : key.length = 16) : keySched128 key =
    { LL := hi (Spec.Camellia.num 128 key), LR := lo (Spec.Camellia.num 128 key),
      AL := hi (Spec.Camellia.KA (Spec.Camellia.num 128 key) 0), AR := lo (Spec.Camellia.KA (Spec.Camellia.num 128 key) 0) } := by
  rw [← ks128_spec]
  unfold keySched128
  have z : Spec.Camellia.num 128 key ^^^ 0 = Spec.Camellia.num 128 key := BitVec.xor_zero
  rw [z, hi_num key h, lo_num key h]

/-- `KR` for 192-bit and 256-bit keys. -/
theorem key192 (key : List Byte) (h : key.length = 24) (KL KR : BitVec 128) (hL : KL = Spec.Camellia.num 128 (key.take 16))
    (hR : KR = (Spec.Camellia.num 64 (key.drop 16) ++ ~~~ Spec.Camellia.num 64 (key.drop 16) : BitVec (64 + 64))) : keySched192 key =
    { LL := hi KL, LR := lo KL, AL := hi (Spec.Camellia.KA KL KR), AR := lo (Spec.Camellia.KA KL KR), RL := hi KR, RR := lo KR,
      BL := hi (Spec.Camellia.KB KL KR), BR := lo (Spec.Camellia.KB KL KR) } := by
  rw [← ks256_spec]
  have e1 : hi KL = ld64 key 0 := by rw [hL, hi_num _ (by simp; omega), ld64_take _ _ (by decide)]
  have e2 : lo KL = ld64 key 1 := by rw [hL, lo_num _ (by simp; omega), ld64_take _ _ (by decide)]
  have e3 : hi KR = ld64 key 2 := by rw [hR, hi_app, num64 _ (by simp; omega), ld64_drop]
  have e4 : lo KR = ~~~ ld64 key 2 := by rw [hR, lo_app, num64 _ (by simp; omega), ld64_drop]
  rw [hi_xor, lo_xor, e1, e2, e3, e4]
  rfl
theorem key256 (key : List Byte) (h : key.length = 32) (KL KR : BitVec 128) (hL : KL = Spec.Camellia.num 128 (key.take 16))
    (hR : KR = Spec.Camellia.num 128 (key.drop 16)) : keySched256 key =
    { LL := hi KL, LR := lo KL, AL := hi (Spec.Camellia.KA KL KR), AR := lo (Spec.Camellia.KA KL KR), RL := hi KR, RR := lo KR,
      BL := hi (Spec.Camellia.KB KL KR), BR := lo (Spec.Camellia.KB KL KR) } := by
  rw [← ks256_spec]
  have e1 : hi KL = ld64 key 0 := by rw [hL, hi_num _ (by simp; omega), ld64_take _ _ (by decide)]
  have e2 : lo KL = ld64 key 1 := by rw [hL, lo_num _ (by simp; omega), ld64_take _ _ (by decide)]
  have e3 : hi KR = ld64 key 2 := by rw [hR, hi_num _ (by simp; omega), ld64_drop]
  have e4 : lo KR = ld64 key 3 := by rw [hR, lo_num _ (by simp; omega), ld64_drop]
  rw [hi_xor, lo_xor, e1, e2, e3, e4]
  rfl

end Camellia
