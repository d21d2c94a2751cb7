import Verif.Model.Endian
import Mathlib.Tactic.IntervalCases

namespace Endian

theorem st32_len (w : BitVec 32) : (st32 w).length = 4 := rfl
theorem st64_len (w : BitVec 64) : (st64 w).length = 8 := rfl

theorem split32 (w : BitVec 32) : (w.extractLsb' 24 8 ++ w.extractLsb' 16 8 ++ w.extractLsb' 8 8 ++ w.extractLsb' 0 8 : BitVec (8 + 8 + 8 + 8)) = w := by
  apply BitVec.eq_of_getLsbD_eq
  intro i hi
  simp only [BitVec.getLsbD_extractLsb', BitVec.getLsbD_append]
  interval_cases i <;> simp

theorem split64 (w : BitVec 64) : (w.extractLsb' 32 32 ++ w.extractLsb' 0 32 : BitVec (32 + 32)) = w := by
  apply BitVec.eq_of_getLsbD_eq
  intro i hi
  simp only [BitVec.getLsbD_extractLsb', BitVec.getLsbD_append]
  by_cases h : i < 32
  · simp [h]
  · simp [h]
    rw [show 32 + (i - 32) = i by omega]; simp; omega

theorem join32 (a b c d : Byte) : st32 (a ++ b ++ c ++ d : BitVec (8 + 8 + 8 + 8)) = [a, b, c, d] := by
  unfold st32
  have h1 : (a ++ b ++ c ++ d : BitVec (8 + 8 + 8 + 8)).extractLsb' 24 8 = a := by
    apply BitVec.eq_of_getLsbD_eq; intro i hi; simp only [BitVec.getLsbD_extractLsb', BitVec.getLsbD_append]; interval_cases i <;> simp
  have h2 : (a ++ b ++ c ++ d : BitVec (8 + 8 + 8 + 8)).extractLsb' 16 8 = b := by
    apply BitVec.eq_of_getLsbD_eq; intro i hi; simp only [BitVec.getLsbD_extractLsb', BitVec.getLsbD_append]; interval_cases i <;> simp
  have h3 : (a ++ b ++ c ++ d : BitVec (8 + 8 + 8 + 8)).extractLsb' 8 8 = c := by
    apply BitVec.eq_of_getLsbD_eq; intro i hi; simp only [BitVec.getLsbD_extractLsb', BitVec.getLsbD_append]; interval_cases i <;> simp
  have h4 : (a ++ b ++ c ++ d : BitVec (8 + 8 + 8 + 8)).extractLsb' 0 8 = d := by
    apply BitVec.eq_of_getLsbD_eq; intro i hi; simp only [BitVec.getLsbD_extractLsb', BitVec.getLsbD_append]; interval_cases i <;> simp
  rw [h1, h2, h3, h4]

theorem list16 (s : List Byte) (h : s.length = 16) : ∃ a0 a1 a2 a3 a4 a5 a6 a7 a8 a9 a10 a11 a12 a13 a14 a15,
    s = [a0, a1, a2, a3, a4, a5, a6, a7, a8, a9, a10, a11, a12, a13, a14, a15] := by
  match s, h with
  | [a0, a1, a2, a3, a4, a5, a6, a7, a8, a9, a10, a11, a12, a13, a14, a15], _ => exact ⟨a0, a1, a2, a3, a4, a5, a6, a7, a8, a9, a10, a11, a12, a13, a14, a15, rfl⟩

/-- Loading what was stored. -/
theorem ld32_st32 (a b c d : BitVec 32) :
    ld32 (st32 a ++ st32 b ++ st32 c ++ st32 d) 0 = a ∧ ld32 (st32 a ++ st32 b ++ st32 c ++ st32 d) 1 = b ∧
    ld32 (st32 a ++ st32 b ++ st32 c ++ st32 d) 2 = c ∧ ld32 (st32 a ++ st32 b ++ st32 c ++ st32 d) 3 = d :=
  ⟨split32 a, split32 b, split32 c, split32 d⟩

/-- Storing what was loaded. -/
theorem st32_ld32 (s : List Byte) (h : s.length = 16) : st32 (ld32 s 0) ++ st32 (ld32 s 1) ++ st32 (ld32 s 2) ++ st32 (ld32 s 3) = s := by
  obtain ⟨a0, a1, a2, a3, a4, a5, a6, a7, a8, a9, a10, a11, a12, a13, a14, a15, rfl⟩ := list16 s h
  have e0 := join32 a0 a1 a2 a3
  have e1 := join32 a4 a5 a6 a7
  have e2 := join32 a8 a9 a10 a11
  have e3 := join32 a12 a13 a14 a15
  show st32 (a0 ++ a1 ++ a2 ++ a3 : BitVec (8 + 8 + 8 + 8)) ++ st32 (a4 ++ a5 ++ a6 ++ a7 : BitVec (8 + 8 + 8 + 8)) ++
    st32 (a8 ++ a9 ++ a10 ++ a11 : BitVec (8 + 8 + 8 + 8)) ++ st32 (a12 ++ a13 ++ a14 ++ a15 : BitVec (8 + 8 + 8 + 8)) = _
  rw [e0, e1, e2, e3]; rfl

theorem hi64 (a b : BitVec 32) : (a ++ b : BitVec (32 + 32)).extractLsb' 32 32 = a := by
  apply BitVec.eq_of_getLsbD_eq; intro i hi
  simp only [BitVec.getLsbD_extractLsb', BitVec.getLsbD_append, hi, decide_true, Bool.true_and, show ¬ 32 + i < 32 by omega, decide_false, cond_false, Bool.cond_false]
  simp
theorem lo64 (a b : BitVec 32) : (a ++ b : BitVec (32 + 32)).extractLsb' 0 32 = b := by
  apply BitVec.eq_of_getLsbD_eq; intro i hi
  rw [BitVec.getLsbD_extractLsb', BitVec.getLsbD_append]
  simp [hi]

theorem ld64_st64 (a b : BitVec 64) : ld64 (st64 a ++ st64 b) 0 = a ∧ ld64 (st64 a ++ st64 b) 1 = b := by
  have h := ld32_st32 (a.extractLsb' 32 32) (a.extractLsb' 0 32) (b.extractLsb' 32 32) (b.extractLsb' 0 32)
  unfold ld64 st64
  rw [← List.append_assoc, h.1, h.2.1, h.2.2.1, h.2.2.2]
  exact ⟨split64 a, split64 b⟩

theorem st64_ld64 (s : List Byte) (h : s.length = 16) : st64 (ld64 s 0) ++ st64 (ld64 s 1) = s := by
  unfold st64 ld64
  rw [hi64, lo64, hi64, lo64, ← List.append_assoc]
  exact st32_ld32 s h

end Endian
