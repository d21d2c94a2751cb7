import Verif.Model.NumTheory
import Verif.Lemmas.VlongMul
import Mathlib.Data.Int.ModEq
import Mathlib.Data.Int.GCD
import Mathlib.Tactic.Ring
import Mathlib.Tactic.Linarith
import Mathlib.Tactic.LinearCombination

/-! # Extended Euclid: lemmas -/

namespace NumTheory
open Vlong Spec

theorem val_eq_zero_iff (l : List W) : val l = 0 ↔ ∀ w ∈ l, w = 0 := by
  induction l with
  | nil => simp [val]
  | cons w l ih =>
    simp only [val, List.mem_cons, forall_eq_or_imp]
    constructor
    · intro h
      refine ⟨BitVec.eq_of_toNat_eq (by simp; omega), ih.mp (by omega)⟩
    · rintro ⟨h, h2⟩
      rw [ih.mpr h2, h]; rfl

theorem allZero_iff (j : List W) : allZero j = true ↔ val j = 0 := by
  rw [val_eq_zero_iff]; simp [allZero]

theorem val_one_iff (i : List W) :
    val i = 1 ↔ ¬ ((i.drop 1).any (· != 0) = true) ∧ rd i 0 = 1 := by
  cases i with
  | nil => simp [val, rd]
  | cons w l =>
    have h : val l = 0 ↔ ¬ (l.any (· != 0) = true) := by
      rw [val_eq_zero_iff]; simp
    simp only [val, List.drop_succ_cons, List.drop_zero, ← h]
    have hr : rd (w :: l) 0 = w := rfl
    rw [hr]
    have hw := w.isLt
    constructor
    · intro e
      exact ⟨by omega, BitVec.eq_of_toNat_eq (by simp; omega)⟩
    · rintro ⟨h1, h2⟩
      rw [h1, h2]; rfl

/-- The arithmetic state invariant: Bezout congruences, opposite signs, and the continuant
identity that bounds the coefficients. -/
def Inv (x p i j : Nat) (Y1 Y2 : Int) : Prop :=
  (i : Int) ≡ Y2 * x [ZMOD p] ∧ (j : Int) ≡ Y1 * x [ZMOD p] ∧
  ((0 ≤ Y1 ∧ Y2 ≤ 0) ∨ (Y1 ≤ 0 ∧ 0 ≤ Y2)) ∧ |Y1| * i + |Y2| * j = p

theorem Inv_step {x p i j : Nat} {Y1 Y2 : Int} (h : Inv x p i j Y1 Y2) (q : Nat) (r : Nat)
    (hr : i = q * j + r) : Inv x p j r (Y2 - Y1 * q) Y1 := by
  obtain ⟨h1, h2, h3, h4⟩ := h
  have hri : (i : Int) = q * j + r := by exact_mod_cast hr
  refine ⟨h2, ?_, ?_, ?_⟩
  · have : (r : Int) = i - q * j := by linarith
    rw [this]
    have h5 := h1.sub (h2.mul_left (q : Int))
    refine h5.trans (modEq_of_eq ?_)
    ring
  · have hq : (0 : Int) ≤ q := Int.natCast_nonneg q
    rcases h3 with ⟨a, b⟩ | ⟨a, b⟩
    · right
      exact ⟨by nlinarith, a⟩
    · left
      exact ⟨by nlinarith, a⟩
  · have hq : (0 : Int) ≤ q := Int.natCast_nonneg q
    have habs : |Y2 - Y1 * q| = |Y2| + |Y1| * q := by
      rcases h3 with ⟨a, b⟩ | ⟨a, b⟩
      · rw [abs_of_nonneg a, abs_of_nonpos b, abs_of_nonpos (by nlinarith)]; ring
      · rw [abs_of_nonpos a, abs_of_nonneg b, abs_of_nonneg (by nlinarith)]; ring
    rw [habs, ← h4, hri]; ring

theorem sval_of_modEq (l : List W) (Y : Int) (h : (val l : Int) ≡ Y [ZMOD 2 ^ (32 * l.length)])
    (hb : 2 * |Y| < 2 ^ (32 * l.length)) : sval l = Y := by
  have hl : (val l : Int) < 2 ^ (32 * l.length) := by exact_mod_cast val_lt l
  have hl0 : (0 : Int) ≤ val l := Int.natCast_nonneg _
  have hdvd := h.dvd
  obtain ⟨N, hN⟩ : ∃ N : Int, N = 2 ^ (32 * l.length) := ⟨_, rfl⟩
  rw [← hN] at hl hb hdvd
  obtain ⟨k, hk⟩ := hdvd
  have ha := abs_lt.mp (show |Y| < N by have := abs_nonneg Y; linarith)
  have hY1 : 2 * Y < N := lt_of_le_of_lt (by have := le_abs_self Y; linarith) hb
  have hY2 : -N < 2 * Y := by have := neg_abs_le Y; linarith
  have hNpos : 0 < N := by linarith
  -- Y - val = N k with -N/2 < Y < N/2, 0 ≤ val < N, so k ∈ {0, -1}
  have k1 : k < 1 := by
    by_contra hh
    have : N * 1 ≤ N * k := Int.mul_le_mul_of_nonneg_left (by omega) hNpos.le
    linarith
  have k2 : -2 < k := by
    by_contra hh
    have : N * k ≤ N * (-2) := Int.mul_le_mul_of_nonneg_left (by omega) hNpos.le
    linarith
  unfold sval
  have hcond : (2 * val l < 2 ^ (32 * l.length)) ↔ 2 * (val l : Int) < N := by
    rw [hN]; constructor <;> intro h' <;> exact_mod_cast h'
  have hk' : k = 0 ∨ k = -1 := by omega
  rcases hk' with rfl | rfl
  · rw [if_pos (hcond.mpr (by linarith))]; linarith
  · rw [if_neg (fun h' => by have := hcond.mp h'; linarith), ← hN]; linarith

/-- The loop, from a state with `j ≠ 0` and `0 < i`. -/
theorem egcdLoop_val (n : Nat) (x p : Nat) (fuel : Nat) (i j y1 y2 : List W) (Y1 Y2 : Int)
    (hn : 0 < n)
    (li : i.length = n) (lj : j.length = n) (l1 : y1.length = n) (l2 : y2.length = n)
    (hf : val j < fuel) (hj : val j ≠ 0)
    (hI : Inv x p (val i) (val j) Y1 Y2)
    (hi : 1 < val i ∨ |Y1| ≤ 1)
    (e1 : (val y1 : Int) ≡ Y1 [ZMOD 2 ^ (32 * n)]) (e2 : (val y2 : Int) ≡ Y2 [ZMOD 2 ^ (32 * n)]) :
    ∃ i' y1' y2', egcdLoop fuel n n i j y1 y2 = some (i', y1', y2') ∧ i'.length = n ∧ y2'.length = n ∧
      val i' = Nat.gcd (val i) (val j) ∧
      ∃ Y : Int, (val y2' : Int) ≡ Y [ZMOD 2 ^ (32 * n)] ∧ (val i' : Int) ≡ Y * x [ZMOD p] ∧
        (2 * |Y| ≤ p ∨ |Y| ≤ 1) := by
  induction fuel generalizing i j y1 y2 Y1 Y2 with
  | zero => omega
  | succ fuel ih =>
    obtain ⟨r, q, hd, lr, lq, vr, vq⟩ := divv_val n n i j (by omega) (by omega) hj
      (Or.inr (by rw [← li]; exact val_lt i))
    have hqne : q ≠ [] := by rintro rfl; simp at lq; omega
    obtain ⟨t, ht, lt, vt⟩ := mulvMasked_none i.length y1 q 1 (Or.inr rfl) hqne
    have hy2 := subv_modEq y2.length y2 t
    have l2' : (subv y2.length y2 t).length = n := by
      unfold subv; rw [length_addKernel]; exact l2
    have hstep := Inv_step hI (val q) (val r)
      (by rw [vq, vr, Nat.mul_comm]; exact (Nat.div_add_mod _ _).symm)
    have e1' : (val (subv y2.length y2 t) : Int) ≡ Y2 - Y1 * val q [ZMOD 2 ^ (32 * n)] := by
      rw [l2] at hy2
      rw [l2]
      refine hy2.trans (e2.sub ?_)
      rw [vt, li]
      simp only [factor]
      push_cast
      refine (Int.mod_modEq _ _).trans (e1.mul_right _)
    have hbound : 2 * |Y1| ≤ p ∨ |Y1| ≤ 1 := by
      rcases hi with h | h
      · left
        have h4 := hI.2.2.2
        have a1 := abs_nonneg Y1
        have a2 : 0 ≤ |Y2| * (val j : Int) := mul_nonneg (abs_nonneg _) (Int.natCast_nonneg _)
        have : |Y1| * 2 ≤ |Y1| * (val i : Int) := Int.mul_le_mul_of_nonneg_left (by exact_mod_cast h) a1
        linarith
      · exact Or.inr h
    unfold egcdLoop
    rw [hd]
    simp only [ht]
    by_cases hz : val r = 0
    · rw [if_pos ((allZero_iff r).mpr hz)]
      refine ⟨j, _, y1, rfl, lj, l1, ?_, Y1, e1, hI.2.1, hbound⟩
      rw [hz] at vr
      exact (Nat.gcd_eq_right (Nat.dvd_of_mod_eq_zero vr.symm)).symm
    · rw [if_neg (fun h => hz ((allZero_iff r).mp h))]
      have hlt : val r < val j := by rw [vr]; exact Nat.mod_lt _ (by omega)
      rw [lt, li]
      obtain ⟨i', y1', y2', g1, g2, g3, g4, g5⟩ := ih j r (subv y2.length y2 t) y1 _ _ lj lr l2' l1
        (by omega) hz hstep (Or.inl (by omega)) e1' e1
      refine ⟨i', y1', y2', g1, g2, g3, ?_, g5⟩
      rw [g4, vr, Nat.gcd_comm (val j), ← Nat.gcd_rec (val j) (val i), Nat.gcd_comm]

theorem val_set_zero_one (n : Nat) (hn : 0 < n) : val ((List.replicate n (0 : W)).set 0 1) = 1 := by
  cases n with
  | zero => omega
  | succ n => rw [List.replicate_succ, List.set_cons_zero, val, val_replicate_zero]; rfl

/-- The last lines of `EGCD`. -/
theorem egcd_of_loop {fuel quoc remc y1c y2c : Nat} {x p i y1' y2' : List W}
    (h : egcdLoop fuel quoc remc p x ((List.replicate y1c (0 : W)).set 0 1) (List.replicate y2c (0 : W))
      = some (i, y1', y2')) :
    egcd fuel quoc remc y1c y2c x p = if val i = 1 then some (some y2') else some none := by
  unfold egcd
  simp only [h]
  by_cases h1 : val i = 1
  · obtain ⟨a, b⟩ := (val_one_iff i).mp h1
    rw [if_pos h1, if_neg a, if_neg (by simpa using b)]
  · rw [if_neg h1]
    by_cases a : ((i.drop 1).any (· != 0) = true)
    · rw [if_pos a]
    · rw [if_neg a, if_pos]
      intro b
      exact h1 ((val_one_iff i).mpr ⟨a, b⟩)

theorem egcd_zero (n fuel : Nat) (x p : List W) (hn : 0 < n) (lx : x.length = n) (lp : p.length = n)
    (hf : 2 ≤ fuel) (hx : val x = 0) :
    ∃ i y1' y2', egcdLoop fuel n n p x ((List.replicate n (0 : W)).set 0 1) (List.replicate n (0 : W))
      = some (i, y1', y2') ∧ val i = val p ∧ y2'.length = n := by
  obtain ⟨fuel, rfl⟩ : ∃ f, fuel = f + 1 + 1 := ⟨fuel - 2, by omega⟩
  obtain ⟨r, q, hd, lr, lq, vr⟩ := divv_zero n n p x (by omega) (by omega) hx
      (by rw [← lp]; exact val_lt p)
  have hqne : q ≠ [] := by rintro rfl; simp at lq; omega
  obtain ⟨t, ht, lt, vt⟩ := mulvMasked_none p.length ((List.replicate n (0 : W)).set 0 1) q 1 (Or.inr rfl) hqne
  rw [egcdLoop, hd]
  simp only [ht]
  by_cases hz : val r = 0
  · rw [if_pos ((allZero_iff r).mpr hz)]
    exact ⟨x, _, _, rfl, by omega, by simp⟩
  · rw [if_neg (fun h => hz ((allZero_iff r).mp h)), egcdLoop]
    rw [lt, lp]
    obtain ⟨r2, q2, hd2, lr2, lq2, vr2, vq2⟩ := divv_val n n x r (by omega) (by omega) hz
      (Or.inr (by rw [← lx]; exact val_lt x))
    rw [hd2]
    have hqne2 : q2 ≠ [] := by rintro rfl; simp at lq2; omega
    obtain ⟨t2, ht2, lt2, vt2⟩ := mulvMasked_none x.length
      (subv (List.replicate n (0 : W)).length (List.replicate n (0 : W)) t) q2 1 (Or.inr rfl) hqne2
    simp only [ht2]
    rw [if_pos ((allZero_iff r2).mpr (by rw [vr2, hx, Nat.zero_mod]))]
    exact ⟨r, _, _, rfl, vr, by unfold subv; rw [length_addKernel]; simp⟩

theorem egcd_val (n fuel : Nat) (x p : List W) (hn : 0 < n) (lx : x.length = n) (lp : p.length = n)
    (hf : val x + 2 ≤ fuel) :
    (Nat.gcd (val x) (val p) = 1 → ∃ y, egcd fuel n n n n x p = some (some y) ∧ y.length = n ∧
      sval y * val x ≡ 1 [ZMOD val p]) ∧
    (Nat.gcd (val x) (val p) ≠ 1 → egcd fuel n n n n x p = some none) := by
  by_cases hx : val x = 0
  · obtain ⟨i, y1', y2', h, vi, l2⟩ := egcd_zero n fuel x p hn lx lp (by omega) hx
    rw [egcd_of_loop h, hx, Nat.gcd_zero_left, vi]
    constructor
    · intro h1
      refine ⟨y2', by rw [if_pos h1], l2, ?_⟩
      rw [h1]
      exact Int.modEq_one
    · intro h1
      rw [if_neg h1]
  · obtain ⟨i', y1', y2', g1, g2, g3, g4, Y, y1, y2, y3⟩ := egcdLoop_val n (val x) (val p) fuel p x
      ((List.replicate n (0 : W)).set 0 1) (List.replicate n (0 : W)) 1 0 hn lp lx (by simp) (by simp)
      (by omega) hx
      ⟨by simp [Int.ModEq], by simp [Int.ModEq], Or.inl ⟨by decide, by decide⟩, by
        rw [abs_of_nonneg (by decide : (0 : Int) ≤ 1), abs_of_nonneg (le_refl (0 : Int))]; simp⟩
      (Or.inr (by rw [abs_of_nonneg (by decide : (0 : Int) ≤ 1)]))
      (by rw [val_set_zero_one n hn]; rfl) (by rw [val_replicate_zero]; rfl)
    rw [egcd_of_loop g1, Nat.gcd_comm, ← g4]
    constructor
    · intro h1
      refine ⟨y2', by rw [if_pos h1], g3, ?_⟩
      have hs : sval y2' = Y := by
        apply sval_of_modEq
        · rw [g3]; exact y1
        · rw [g3]
          have hp : (val p : Int) < 2 ^ (32 * n) := by rw [← lp]; exact_mod_cast val_lt p
          rcases y3 with h | h
          · linarith
          · have : (2 : Int) ^ 2 ≤ 2 ^ (32 * n) := by
              exact_mod_cast Nat.pow_le_pow_right (by decide) (by omega)
            norm_num at this
            linarith
      rw [hs]
      rw [h1] at y2
      exact_mod_cast y2.symm
    · intro h1
      rw [if_neg h1]

end NumTheory
