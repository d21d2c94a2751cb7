import Verif.Spec.Mont
import Mathlib.Tactic.LinearCombination
import Mathlib.Tactic.FieldSimp

/-! `u`-coordinate formulas of Montgomery curves against Mathlib's group law. -/

namespace Spec
open WeierstrassCurve

variable {F : Type*} [Field F] [DecidableEq F] {A B : F}

omit [DecidableEq F] in
theorem mont_eqn (x y : F) : (montW A B).Equation x y ↔ y ^ 2 = x ^ 3 + A * B * x ^ 2 + B ^ 2 * x := by
  rw [Affine.equation_iff]; simp [montW]

/-- Doubling. -/
theorem mont_dbl (h2 : (2 : F) ≠ 0) (hB : B ≠ 0) (hA : A ^ 2 ≠ 4) {X Z : F} {Q : (montW A B).Point} (h : UCoords X Z Q) :
    UCoords ((X ^ 2 - Z ^ 2) ^ 2) (4 * X * Z * (X ^ 2 + A * X * Z + Z ^ 2)) (Q + Q) := by
  rcases Q with _ | ⟨x, y, hq⟩
  · obtain ⟨hX, rfl⟩ := h
    show UCoords _ _ ((0 : (montW A B).Point) + 0)
    rw [add_zero]
    refine ⟨?_, by ring⟩
    have : (X ^ 2 - 0 ^ 2) ^ 2 = X ^ 4 := by ring
    rw [this]; exact pow_ne_zero _ hX
  · obtain ⟨hZ, hX⟩ := h
    have q := (mont_eqn x y).mp hq.1
    have eX : X = x / B * Z := by field_simp; linear_combination hX
    have four : (4 : F) ≠ 0 := by
      have := mul_ne_zero h2 h2
      intro e; exact this (by linear_combination e)
    have eZ : 4 * X * Z * (X ^ 2 + A * X * Z + Z ^ 2) * B ^ 3 = 4 * y ^ 2 * Z ^ 4 := by
      rw [eX, q]; field_simp
    have eX2 : (X ^ 2 - Z ^ 2) ^ 2 * B ^ 4 = (x ^ 2 - B ^ 2) ^ 2 * Z ^ 4 := by
      rw [eX]; field_simp
    by_cases hy : y = 0
    · have e0 : (Affine.Point.some x y hq) + (Affine.Point.some x y hq) = 0 := by
        apply Affine.Point.add_self_of_Y_eq
        simp [Affine.negY, montW, hy]
      rw [e0]
      refine ⟨?_, ?_⟩
      · intro e
        rw [e, zero_mul] at eX2
        have h3 : x ^ 2 - B ^ 2 = 0 := by
          rcases mul_eq_zero.mp eX2.symm with h | h
          · exact pow_eq_zero_iff two_ne_zero |>.mp h
          · exact absurd (pow_eq_zero_iff (by norm_num) |>.mp h) hZ
        rw [hy] at q
        -- x² = B², x³ + A B x² + B² x = 0, hence 2 x + A B = 0
        have hB2 : B ^ 2 ≠ 0 := pow_ne_zero _ hB
        have h4 : B ^ 2 * (2 * x + A * B) = 0 := by linear_combination -q - (x + A * B) * h3
        have h5 := (mul_eq_zero.mp h4).resolve_left hB2
        apply hA
        apply mul_right_cancel₀ hB2
        have h6 : A * B = -(2 * x) := by linear_combination h5
        linear_combination (A * B - 2 * x) * h6 + 4 * h3
      · rw [hy] at eZ
        have : 4 * X * Z * (X ^ 2 + A * X * Z + Z ^ 2) * B ^ 3 = 0 := by rw [eZ]; ring
        rcases mul_eq_zero.mp this with h | h
        · exact h
        · exact absurd h (pow_ne_zero _ hB)
    · have hne : y ≠ (montW A B).negY x y := by
        simp only [Affine.negY, montW]
        intro e
        exact mul_ne_zero h2 hy (by linear_combination e)
      rw [Affine.Point.add_self_of_Y_ne hne]
      set l := (montW A B).slope x x y y with hl
      have hlv : l * (2 * y) = 3 * x ^ 2 + 2 * (A * B) * x + B ^ 2 := by
        rw [hl, Affine.slope_of_Y_ne rfl hne]
        have hd : y - (montW A B).negY x y = 2 * y := by simp only [Affine.negY, montW]; ring
        rw [hd]
        simp only [montW]
        field_simp
        ring
      refine ⟨?_, ?_⟩
      · intro e
        rw [e, zero_mul] at eZ
        exact mul_ne_zero (mul_ne_zero four (pow_ne_zero _ hy)) (pow_ne_zero _ hZ) eZ.symm
      · have hxx : (montW A B).addX x x l * (4 * y ^ 2) = (x ^ 2 - B ^ 2) ^ 2 := by
          simp only [Affine.addX, montW]
          linear_combination (l * (2 * y) + (3 * x ^ 2 + 2 * (A * B) * x + B ^ 2)) * hlv - 4 * (A * B + 2 * x) * q
        have hB3 : B ^ 3 ≠ 0 := pow_ne_zero _ hB
        apply mul_right_cancel₀ hB3
        linear_combination eX2 - (montW A B).addX x x l * eZ - Z ^ 4 * hxx

/-- Differential addition: the sum of two points with a known difference. -/
theorem mont_dadd (h2 : (2 : F) ≠ 0) (hB : B ≠ 0) (hA : A ^ 2 ≠ 4) {X2 Z2 X3 Z3 u w : F} {Q R : (montW A B).Point}
    (hu : u ≠ 0) (hP : (montW A B).Nonsingular (B * u) w) (hd : R - Q = .some _ _ hP) (hQ : UCoords X2 Z2 Q)
    (hR : UCoords X3 Z3 R) :
    UCoords (4 * (X3 * X2 - Z3 * Z2) ^ 2) (u * (4 * (X3 * Z2 - Z3 * X2) ^ 2)) (Q + R) := by
  have four : (4 : F) ≠ 0 := by
    have := mul_ne_zero h2 h2
    intro e; exact this (by linear_combination e)
  rcases Q with _ | ⟨x, y, hq⟩
  · change R - 0 = _ at hd
    rw [sub_zero] at hd
    subst hd
    obtain ⟨hX2, rfl⟩ := hQ
    obtain ⟨hZ3, e3⟩ := hR
    show UCoords _ _ ((0 : (montW A B).Point) + _)
    rw [zero_add]
    have e3' : X3 = u * Z3 := mul_left_cancel₀ hB (by linear_combination e3)
    refine ⟨?_, ?_⟩
    · have : u * (4 * (X3 * 0 - Z3 * X2) ^ 2) = u * (4 * (Z3 * X2) ^ 2) := by ring
      rw [this]
      exact mul_ne_zero hu (mul_ne_zero four (pow_ne_zero _ (mul_ne_zero hZ3 hX2)))
    · rw [e3']; ring
  rcases R with _ | ⟨x', y', hr⟩
  · change 0 - _ = _ at hd
    rw [zero_sub, Affine.Point.neg_some] at hd
    injection hd with d1 d2
    obtain ⟨hX3, rfl⟩ := hR
    obtain ⟨hZ2, e2⟩ := hQ
    show UCoords _ _ (_ + (0 : (montW A B).Point))
    rw [add_zero]
    subst d1
    have e2' : X2 = u * Z2 := mul_left_cancel₀ hB (by linear_combination e2)
    refine ⟨?_, ?_⟩
    · have : u * (4 * (X3 * Z2 - 0 * X2) ^ 2) = u * (4 * (X3 * Z2) ^ 2) := by ring
      rw [this]
      exact mul_ne_zero hu (mul_ne_zero four (pow_ne_zero _ (mul_ne_zero hX3 hZ2)))
    · rw [e2']; ring
  obtain ⟨hZ2, e2⟩ := hQ
  obtain ⟨hZ3, e3⟩ := hR
  have q := (mont_eqn x y).mp hq.1
  have r := (mont_eqn x' y').mp hr.1
  have eX2 : X2 = x / B * Z2 := by field_simp; linear_combination e2
  have eX3 : X3 = x' / B * Z3 := by field_simp; linear_combination e3
  have k1 : (X3 * X2 - Z3 * Z2) * B ^ 2 = (x' * x - B ^ 2) * (Z2 * Z3) := by rw [eX2, eX3]; field_simp
  have k2 : (X3 * Z2 - Z3 * X2) * B = (x' - x) * (Z2 * Z3) := by rw [eX2, eX3]; field_simp
  have hZZ : Z2 * Z3 ≠ 0 := mul_ne_zero hZ2 hZ3
  by_cases hx : x' = x
  · subst hx
    have hyy : (y' - y) * (y' + y) = 0 := by linear_combination r - q
    rcases mul_eq_zero.mp hyy with h | h
    · have ey : y' = y := by linear_combination h
      subst ey
      rw [sub_self] at hd
      exact absurd hd.symm (Affine.Point.some_ne_zero _)
    · have ey : y = (montW A B).negY x' y' := by simp only [Affine.negY, montW]; linear_combination h
      have en : Affine.Point.some x' y hq = -Affine.Point.some x' y' hr := by
        rw [Affine.Point.neg_some]; simp only [ey]
      rw [en, neg_add_cancel]
      rw [en, sub_neg_eq_add] at hd
      have hdb := mont_dbl (A := A) (B := B) h2 hB hA (X := x' / B) (Z := 1) (Q := .some x' y' hr)
        ⟨one_ne_zero, by field_simp⟩
      rw [hd] at hdb
      refine ⟨?_, ?_⟩
      · intro e
        have e1 : X3 * X2 - Z3 * Z2 = 0 := by
          rcases mul_eq_zero.mp e with h | h
          · exact absurd h four
          · exact pow_eq_zero_iff two_ne_zero |>.mp h
        rw [e1, zero_mul] at k1
        have e4 : x' * x' - B ^ 2 = 0 := (mul_eq_zero.mp k1.symm).resolve_right hZZ
        obtain ⟨hz, hdb⟩ := hdb
        have e5 : ((x' / B) ^ 2 - 1 ^ 2) ^ 2 = 0 := by
          have : (x' / B) ^ 2 - 1 ^ 2 = 0 := by field_simp; linear_combination e4
          rw [this]; ring
        rw [e5, mul_zero] at hdb
        exact mul_ne_zero (mul_ne_zero hB hu) hz hdb.symm
      · have e1 : X3 * Z2 - Z3 * X2 = 0 := by
          apply mul_right_cancel₀ hB
          rw [k2]; ring
        rw [e1]; ring
  · have hs : x' - x ≠ 0 := sub_ne_zero.mpr hx
    have hs' : x - x' ≠ 0 := sub_ne_zero.mpr (Ne.symm hx)
    -- the difference
    rw [sub_eq_add_neg, Affine.Point.neg_some, Affine.Point.add_of_X_ne hx] at hd
    injection hd with d1 d2
    rw [Affine.slope_of_X_ne hx] at d1
    have d1' : B * u * (x' - x) ^ 2 = (y' + y) ^ 2 - (A * B + x + x') * (x' - x) ^ 2 := by
      rw [← d1]
      simp only [Affine.addX, Affine.negY, montW]
      field_simp
      ring
    rw [Affine.Point.add_of_X_ne (Ne.symm hx)]
    set v := (montW A B).addX x x' ((montW A B).slope x x' y y') with hv
    have hv' : v * (x' - x) ^ 2 = (y' - y) ^ 2 - (A * B + x + x') * (x' - x) ^ 2 := by
      rw [hv, Affine.slope_of_X_ne (Ne.symm hx)]
      simp only [Affine.addX, montW]
      field_simp
      ring
    have key : B * u * v * (x' - x) ^ 2 = (x * x' - B ^ 2) ^ 2 := by
      apply mul_right_cancel₀ (pow_ne_zero 2 hs)
      have e1 : B * u * v * (x' - x) ^ 2 * (x' - x) ^ 2 = (B * u * (x' - x) ^ 2) * (v * (x' - x) ^ 2) := by ring
      rw [e1, d1', hv']
      have e2 : ((y' + y) ^ 2 - (A * B + x + x') * (x' - x) ^ 2) * ((y' - y) ^ 2 - (A * B + x + x') * (x' - x) ^ 2) =
          (y' ^ 2 + y ^ 2 - (A * B + x + x') * (x' - x) ^ 2) ^ 2 - 4 * y ^ 2 * y' ^ 2 := by ring
      rw [e2, q, r]; ring
    refine ⟨?_, ?_⟩
    · intro e
      rcases mul_eq_zero.mp e with h | h
      · exact hu h
      · rcases mul_eq_zero.mp h with h | h
        · exact four h
        · have h0 := pow_eq_zero_iff two_ne_zero |>.mp h
          rw [h0, zero_mul] at k2
          exact mul_ne_zero hs hZZ k2.symm
    · have hB4 : B ^ 4 ≠ 0 := pow_ne_zero _ hB
      apply mul_right_cancel₀ hB4
      have s1 : (X3 * X2 - Z3 * Z2) ^ 2 * B ^ 4 = (x' * x - B ^ 2) ^ 2 * (Z2 * Z3) ^ 2 := by
        have := congrArg (· ^ 2) k1
        linear_combination this
      have s2 : (X3 * Z2 - Z3 * X2) ^ 2 * B ^ 2 = (x' - x) ^ 2 * (Z2 * Z3) ^ 2 := by
        have := congrArg (· ^ 2) k2
        linear_combination this
      linear_combination 4 * B * s1 - 4 * u * v * B ^ 2 * s2 - 4 * B * (Z2 * Z3) ^ 2 * key

/-- The `u`-coordinate from the pair, with `0` for a zero denominator. -/
theorem uCoord_of {X Z : F} (hB : B ≠ 0) {Q : (montW A B).Point} (h : UCoords X Z Q) : uCoord Q = X / Z := by
  rcases Q with _ | ⟨x, y, hq⟩
  · obtain ⟨-, rfl⟩ := h
    simp [uCoord]
  · obtain ⟨hZ, e⟩ := h
    simp only [uCoord]
    field_simp
    linear_combination -e

end Spec
