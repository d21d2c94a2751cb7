import Verif.Model.LargeInt
import Mathlib.Tactic.Ring
import Mathlib.Tactic.Linarith
import Mathlib.Algebra.BigOperators.Group.Finset.Basic
import Mathlib.Data.Nat.Bitwise

/-! # Lemmas on `largeint.c` -/
namespace LargeInt

/-- Sum of 32-bit digits. -/
def wsum (f : Nat → Nat) : Nat → Nat
  | 0 => 0
  | n + 1 => wsum f n + f n * 2 ^ (32 * n)

theorem wsum_congr {f g : Nat → Nat} {n : Nat} (h : ∀ i < n, f i = g i) : wsum f n = wsum g n := by
  induction n with
  | zero => rfl
  | succ n ih => rw [wsum, wsum, ih fun i hi => h i (by omega), h n (by omega)]

theorem wsum_lt {f : Nat → Nat} (h : ∀ i, f i < 2 ^ 32) (n : Nat) : wsum f n < 2 ^ (32 * n) := by
  induction n with
  | zero => simp [wsum]
  | succ n ih =>
    have := Nat.mul_le_mul_right (2 ^ (32 * n)) (Nat.succ_le_of_lt (h n))
    rw [wsum, show 32 * (n + 1) = 32 * n + 32 from by ring, pow_add]
    rw [Nat.succ_mul] at this
    nlinarith

theorem wsum_ge {f : Nat → Nat} {n m : Nat} (h : ∀ i, n ≤ i → f i = 0) (hm : n ≤ m) : wsum f m = wsum f n := by
  induction m with
  | zero => rw [show n = 0 from by omega]
  | succ m ih =>
    rcases Nat.eq_or_lt_of_le hm with e | e
    · rw [e]
    · rw [wsum, ih (by omega), h m (by omega)]; simp

/-- The digits of a digit sum. -/
theorem wsum_digit {f : Nat → Nat} (h : ∀ i, f i < 2 ^ 32) (n i : Nat) (hi : i < n) : wsum f n / 2 ^ (32 * i) % 2 ^ 32 = f i := by
  induction n with
  | zero => omega
  | succ n ih =>
    rw [wsum]
    rcases Nat.lt_succ_iff_lt_or_eq.mp hi with hi | rfl
    · rw [show f n * 2 ^ (32 * n) = 2 ^ (32 * i) * (2 ^ 32 * (f n * 2 ^ (32 * (n - i - 1)))) from by
        rw [show 32 * n = 32 * i + (32 + 32 * (n - i - 1)) from by omega, pow_add, pow_add]; ring]
      rw [Nat.add_mul_div_left _ _ (by positivity), Nat.add_mul_mod_self_left]
      exact ih hi
    · rw [Nat.mul_comm, Nat.add_mul_div_left _ _ (by positivity), Nat.div_eq_of_lt (wsum_lt h i), Nat.zero_add, Nat.mod_eq_of_lt (h i)]

theorem wsum_digit0 {f : Nat → Nat} (h : ∀ i, f i < 2 ^ 32) (n i : Nat) (hi : n ≤ i) : wsum f n / 2 ^ (32 * i) = 0 :=
  Nat.div_eq_of_lt (lt_of_lt_of_le (wsum_lt h n) (Nat.pow_le_pow_right (by decide) (by omega)))

/-- Digits of a number sum to its low part. -/
theorem wsum_digits (V n : Nat) : wsum (fun i => V / 2 ^ (32 * i) % 2 ^ 32) n = V % 2 ^ (32 * n) := by
  induction n with
  | zero => simp [wsum, Nat.mod_one]
  | succ n ih =>
    rw [wsum, ih, show 32 * (n + 1) = 32 * n + 32 from by ring, pow_add, Nat.mod_mul]
    ring

theorem swap_swap (x : W) : swap32 (swap32 x) = x := by
  unfold swap32
  ext i hi
  simp only [BitVec.getElem_append, BitVec.getElem_extractLsb', BitVec.getLsbD_append, BitVec.getLsbD_extractLsb']
  have h4 : i < 8 ∨ (8 ≤ i ∧ i < 16) ∨ (16 ≤ i ∧ i < 24) ∨ 24 ≤ i := by omega
  rcases h4 with h | ⟨h, h'⟩ | ⟨h, h'⟩ | h
  · simp [h, show ¬ 24 + i < 8 by omega, show ¬ 24 + i - 8 < 8 by omega, show ¬ 24 + i - 8 - 8 < 8 by omega, show 24 + i - 8 - 8 - 8 = i by omega,
      BitVec.getLsbD_eq_getElem (show i < 32 by omega)]
  · obtain ⟨j, rfl⟩ := Nat.exists_eq_add_of_le h
    simp only [show ¬ 8 + j < 8 by omega, show 8 + j - 8 < 8 by omega]
    simp [show ¬ 16 + j < 8 by omega, show ¬ 16 + j - 8 < 8 by omega, show 16 + j - 8 - 8 = j by omega, show j < 8 by omega,
      BitVec.getLsbD_eq_getElem (show 8 + j < 32 by omega)]
  · obtain ⟨j, rfl⟩ := Nat.exists_eq_add_of_le h
    simp [show j < 8 by omega, show ¬ 16 + j < 8 by omega, show ¬ 16 + j - 8 < 8 by omega, show 16 + j - 8 - 8 = j by omega, BitVec.getLsbD_eq_getElem (show 16 + j < 32 by omega)]
  · obtain ⟨j, rfl⟩ := Nat.exists_eq_add_of_le h
    simp [show j < 8 by omega, show ¬ 24 + j < 8 by omega, show ¬ 24 + j - 8 < 8 by omega, show ¬ 24 + j - 8 - 8 < 8 by omega, show 24 + j - 8 - 8 - 8 = j by omega, BitVec.getLsbD_eq_getElem (show 24 + j < 32 by omega)]

theorem w32_w32 (x : W) (b : Bool) : w32 (w32 x b) b = x := by
  cases b
  · rfl
  · exact swap_swap x

/-- Address of word `i`. -/
def addr (d : Desc) (i : Nat) : Nat := d.p.getD 0 + (if d.msw then d.len - i - 1 else i)

theorem get_eq (s : Store) (d : Desc) (i : Nat) (h : i < d.len) : get s d i = w32 (s (addr d i)) d.msb := by
  unfold get addr
  rw [if_neg (by omega)]
  cases d.msw <;> rfl

theorem set_eq (s : Store) (d : Desc) (i : Nat) (x : W) (h : i < d.len) : set s d i x = wr s (addr d i) (w32 x d.msb) := by
  unfold set addr
  rw [if_neg (by omega)]
  cases d.msw <;> rfl

theorem addr_inj {d : Desc} {i j : Nat} (hi : i < d.len) (hj : j < d.len) (h : addr d i = addr d j) : i = j := by
  unfold addr at h
  cases hm : d.msw <;> rw [hm] at h <;> simp only [if_true, if_false, Bool.false_eq_true] at h <;> omega

/-- The memory of the first does not meet that of the second. -/
def Apart (d e : Desc) : Prop := d.p.getD 0 + d.len ≤ e.p.getD 0 ∨ e.p.getD 0 + e.len ≤ d.p.getD 0

theorem Apart.symm {d e : Desc} (h : Apart d e) : Apart e d := Or.symm h

theorem addr_lt {d : Desc} {i : Nat} (h : i < d.len) : d.p.getD 0 ≤ addr d i ∧ addr d i < d.p.getD 0 + d.len := by
  unfold addr
  cases d.msw <;> simp <;> omega

theorem Apart.ne {d e : Desc} (h : Apart d e) {i j : Nat} (hi : i < d.len) (hj : j < e.len) : addr d i ≠ addr e j := by
  have := addr_lt hi
  have := addr_lt hj
  rcases h with h | h <;> omega

theorem vset_at (s : Store) (v : View) (hv : v.base + v.len ≤ v.intd.len) (i : Nat) (x : W) (h : i < v.len) : vget (vset s v i x) v i = x := by
  unfold vget vset
  rw [if_neg (by omega), if_neg (by omega), get_eq _ _ _ (by omega), set_eq _ _ _ _ (by omega)]
  unfold wr
  rw [if_pos rfl, w32_w32]

/-- Writing changes no other word of the same integer. -/
theorem vset_ne (s : Store) (v w : View) (hd : v.intd = w.intd) (i j : Nat) (x : W) (h : i + v.base ≠ j + w.base) :
    vget (vset s v i x) w j = vget s w j := by
  unfold vget vset
  by_cases hi : i ≥ v.len
  · rw [if_pos hi]
  rw [if_neg hi]
  by_cases hj : j ≥ w.len
  · rw [if_pos hj, if_pos hj]
  rw [if_neg hj, if_neg hj]
  by_cases hi2 : i + v.base ≥ v.intd.len
  · unfold set; rw [if_pos hi2]
  by_cases hj2 : j + w.base ≥ w.intd.len
  · unfold get; rw [if_pos hj2, if_pos hj2]
  rw [get_eq _ _ _ (by omega), get_eq _ _ _ (by omega), set_eq _ _ _ _ (by omega)]
  unfold wr
  rw [if_neg]
  intro e
  rw [hd] at e
  exact h ((addr_inj (by omega) (by rw [← hd]; omega) e).symm)

theorem vset_apart (s : Store) (v w : View) (hd : Apart v.intd w.intd) (i j : Nat) (x : W) : vget (vset s v i x) w j = vget s w j := by
  unfold vget vset
  by_cases hi : i ≥ v.len
  · rw [if_pos hi]
  rw [if_neg hi]
  by_cases hj : j ≥ w.len
  · rw [if_pos hj, if_pos hj]
  rw [if_neg hj, if_neg hj]
  by_cases hi2 : i + v.base ≥ v.intd.len
  · unfold set; rw [if_pos hi2]
  by_cases hj2 : j + w.base ≥ w.intd.len
  · unfold get; rw [if_pos hj2, if_pos hj2]
  rw [get_eq _ _ _ (by omega), get_eq _ _ _ (by omega), set_eq _ _ _ _ (by omega)]
  unfold wr
  rw [if_neg (Ne.symm (hd.ne (by omega) (by omega)))]

/-- Memory outside the integer is not written. -/
theorem vset_out (s : Store) (v : View) (i : Nat) (x : W) (k : Nat) (hk : k < v.intd.p.getD 0 ∨ v.intd.p.getD 0 + v.intd.len ≤ k) :
    vset s v i x k = s k := by
  unfold vset
  by_cases hi : i ≥ v.len
  · rw [if_pos hi]
  rw [if_neg hi]
  by_cases hi2 : i + v.base ≥ v.intd.len
  · unfold set; rw [if_pos hi2]
  rw [set_eq _ _ _ _ (by omega)]
  unfold wr
  have := addr_lt (d := v.intd) (i := i + v.base) (by omega)
  rw [if_neg (by omega)]

/-- The whole of an integer as a view. -/
def full (d : Desc) : View := ⟨0, d.len, d⟩

theorem get_full (s : Store) (d : Desc) (i : Nat) : get s d i = vget s (full d) i := by
  unfold vget full
  by_cases h : i ≥ d.len
  · unfold get; rw [if_pos h, if_pos h]
  · rw [if_neg h]; rfl

theorem set_full (s : Store) (d : Desc) (i : Nat) (x : W) : set s d i x = vset s (full d) i x := by
  unfold vset full
  by_cases h : i ≥ d.len
  · unfold set; rw [if_pos h, if_pos h]
  · rw [if_neg h]; rfl

/-- The number in a view. -/
def vval (s : Store) (v : View) : Nat := wsum (fun i => (vget s v i).toNat) v.len

theorem vval_lt (s : Store) (v : View) : vval s v < 2 ^ (32 * v.len) := wsum_lt (fun _ => BitVec.isLt _) _

theorem vget_ge (s : Store) (v : View) (i : Nat) (h : v.len ≤ i) : vget s v i = 0 := if_pos h

theorem vval_ext (s : Store) (v : View) (n : Nat) (h : v.len ≤ n) : wsum (fun i => (vget s v i).toNat) n = vval s v :=
  wsum_ge (fun i hi => by rw [vget_ge s v i hi]; rfl) h

theorem vget_digit (s : Store) (v : View) (i : Nat) : (vget s v i).toNat = vval s v / 2 ^ (32 * i) % 2 ^ 32 := by
  unfold vval
  by_cases h : i < v.len
  · exact (wsum_digit (fun _ => BitVec.isLt _) _ _ h).symm
  · rw [wsum_digit0 (fun _ => BitVec.isLt _) _ _ (by omega), vget_ge s v i (by omega)]; rfl

theorem vval_eq (s : Store) (v : View) (V : Nat) (h : ∀ i < v.len, (vget s v i).toNat = V / 2 ^ (32 * i) % 2 ^ 32) :
    vval s v = V % 2 ^ (32 * v.len) := by
  rw [← wsum_digits]
  exact wsum_congr h

end LargeInt
