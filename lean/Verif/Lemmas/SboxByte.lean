import Verif.Lemmas.Sbox

namespace Sbox
open Spec

theorem mask_val (a b : Byte) : (((a.setWidth 16 ^^^ b.setWidth 16 : BitVec 16).setWidth 32 - 1#32).sshiftRight 8).setWidth 16 = if a = b then 0xFFFF#16 else 0#16 := by
  have hx : (a.setWidth 16 ^^^ b.setWidth 16 : BitVec 16) = (a ^^^ b).setWidth 16 := by
    apply BitVec.eq_of_getLsbD_eq; intro i hi
    simp [BitVec.getLsbD_setWidth, hi]
  rw [hx]
  have : ∀ n : Fin 256, (((((BitVec.ofNat 8 n : Byte).setWidth 16 : BitVec 16).setWidth 32 - 1#32).sshiftRight 8).setWidth 16 : BitVec 16) = if n.val = 0 then 0xFFFF#16 else 0#16 := by
    decide +kernel
  have h := this ⟨(a ^^^ b).toNat, (a ^^^ b).isLt⟩
  simp only [BitVec.ofNat_toNat, BitVec.setWidth_eq] at h
  rw [h]
  by_cases hab : a = b
  · subst hab; simp
  · rw [if_neg hab, if_neg]
    intro h0
    apply hab
    have : a ^^^ b = 0 := BitVec.eq_of_toNat_eq h0
    exact BitVec.xor_eq_zero_iff.mp this

/-- An accumulating scan in which exactly one index contributes. -/
theorem scan_one (f : Nat → Byte) (j n : Nat) (hz : ∀ i, i < n → i ≠ j → f i = 0) :
    (List.range n).foldl (fun ret i => ret ||| f i) 0 = if j < n then f j else 0 := by
  induction n with
  | zero => rfl
  | succ n ih =>
    rw [List.range_succ, List.foldl_append, ih (fun i hi => hz i (by omega))]
    simp only [List.foldl_cons, List.foldl_nil]
    by_cases hj : j < n
    · rw [if_pos hj, if_pos (by omega), hz n (by omega) (by omega)]; simp
    · by_cases hn : j = n
      · subst hn; rw [if_neg hj, if_pos (by omega)]; simp
      · rw [if_neg hj, if_neg (by omega), hz n (by omega) (by omega)]; simp

theorem sbox_lookup (x : Byte) (t : List Byte) : sbox x t = t.getD x.toNat 0 := by
  unfold sbox
  have h := scan_one (fun i => ((t.getD i 0).setWidth 16 &&& (if BitVec.ofNat 8 i = x then 0xFFFF#16 else 0#16)).setWidth 8) x.toNat 256 (by
    intro i hi hne
    rw [if_neg]
    · simp
    · intro h; apply hne; rw [← h, BitVec.toNat_ofNat]; omega)
  rw [if_pos x.isLt, if_pos (by simp)] at h
  have e : ((t.getD x.toNat 0).setWidth 16 &&& 0xFFFF#16).setWidth 8 = t.getD x.toNat 0 := by
    apply BitVec.eq_of_getLsbD_eq; intro i hi
    have : (0xFFFF#16).getLsbD i = true := by interval_cases i <;> rfl
    simp only [BitVec.getLsbD_setWidth, BitVec.getLsbD_and, this, hi, show i < 16 by omega]
    simp
  rw [e] at h
  rw [← h]
  apply foldl_congr
  intro s i hi
  have hi := List.mem_range.mp hi
  have hc : (BitVec.ofNat 16 i ^^^ x.setWidth 16) = ((BitVec.ofNat 8 i : Byte).setWidth 16 ^^^ x.setWidth 16 : BitVec 16) := by
    congr 1
    apply BitVec.eq_of_toNat_eq
    simp; omega
  simp only []
  rw [hc, mask_val]

theorem invsbox_lookup (x : Byte) (t : List Byte) (j : Nat) (hj : j < 256) (ht : ∀ i, i < 256 → (t.getD i 0 = x ↔ i = j)) : invsbox x t = BitVec.ofNat 8 j := by
  unfold invsbox
  have h := scan_one (fun i => (BitVec.ofNat 16 i &&& (if t.getD i 0 = x then 0xFFFF#16 else 0#16)).setWidth 8) j 256 (by
    intro i hi hne
    rw [if_neg (fun h => hne ((ht i hi).mp h))]
    simp)
  rw [if_pos hj, if_pos ((ht j hj).mpr rfl)] at h
  have e : (BitVec.ofNat 16 j &&& 0xFFFF#16).setWidth 8 = BitVec.ofNat 8 j := by
    apply BitVec.eq_of_getLsbD_eq; intro i hi
    have : (0xFFFF#16).getLsbD i = true := by interval_cases i <;> rfl
    simp only [BitVec.getLsbD_setWidth, BitVec.getLsbD_and, this, hi, BitVec.getLsbD_ofNat, show i < 16 by omega]
    simp
  rw [e] at h
  rw [← h]
  apply foldl_congr
  intro s i hi
  simp only []
  rw [mask_val]

theorem wsbox_raw (w : W) (T : List W) : wsbox w T = (List.range 256).foldl (fun ret i => ret ||| (T.getD (2 * i) 0 &&& spread (T.getD (2 * i + 1) 0 ^^^ w))) 0 := by
  unfold wsbox
  apply foldl_congr
  intro s i hi
  simp only []
  rw [xor_one_even]

theorem invwsbox_raw (w : W) (T : List W) : invwsbox w T = (List.range 256).foldl (fun ret i => ret ||| (T.getD (2 * i + 1) 0 &&& spread (T.getD (2 * i) 0 ^^^ w))) 0 := by
  unfold invwsbox
  apply foldl_congr
  intro s i hi
  simp only []
  rw [xor_one_even]

end Sbox
