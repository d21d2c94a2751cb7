import Verif.Spec.Ec
import Mathlib.Tactic.LinearCombination
import Mathlib.Tactic.FieldSimp

/-! The addition and doubling formulas of `ecp-xyz.c` against Mathlib's group law. -/

namespace Spec
open WeierstrassCurve

variable {F : Type*} [Field F] {a b : F}

/-- Numerators of the complete addition formulas. -/
def X3 (a b x1 y1 z1 x2 y2 z2 : F) : F :=
  (x1 * y2 + x2 * y1) * (y1 * y2 - a * (x1 * z2 + x2 * z1) - 3 * b * z1 * z2) -
    (y1 * z2 + y2 * z1) * (a * x1 * x2 + 3 * b * (x1 * z2 + x2 * z1) - a ^ 2 * z1 * z2)
def Y3 (a b x1 y1 z1 x2 y2 z2 : F) : F :=
  (3 * x1 * x2 + a * z1 * z2) * (a * x1 * x2 + 3 * b * (x1 * z2 + x2 * z1) - a ^ 2 * z1 * z2) +
    (y1 * y2 + a * (x1 * z2 + x2 * z1) + 3 * b * z1 * z2) *
      (y1 * y2 - a * (x1 * z2 + x2 * z1) - 3 * b * z1 * z2)
def Z3 (a b x1 y1 z1 x2 y2 z2 : F) : F :=
  (y1 * z2 + y2 * z1) * (y1 * y2 + a * (x1 * z2 + x2 * z1) + 3 * b * z1 * z2) +
    (x1 * y2 + x2 * y1) * (3 * x1 * x2 + a * z1 * z2)

theorem X3_scale (x1 y1 x2 y2 z1 z2 : F) :
    X3 a b (x1 * z1) (y1 * z1) z1 (x2 * z2) (y2 * z2) z2 = (z1 * z2) ^ 2 * X3 a b x1 y1 1 x2 y2 1 := by
  unfold X3; ring
theorem Y3_scale (x1 y1 x2 y2 z1 z2 : F) :
    Y3 a b (x1 * z1) (y1 * z1) z1 (x2 * z2) (y2 * z2) z2 = (z1 * z2) ^ 2 * Y3 a b x1 y1 1 x2 y2 1 := by
  unfold Y3; ring
theorem Z3_scale (x1 y1 x2 y2 z1 z2 : F) :
    Z3 a b (x1 * z1) (y1 * z1) z1 (x2 * z2) (y2 * z2) z2 = (z1 * z2) ^ 2 * Z3 a b x1 y1 1 x2 y2 1 := by
  unfold Z3; ring

theorem eqn_iff (x y : F) : (shortW a b).Equation x y ↔ y ^ 2 = x ^ 3 + a * x + b := by
  rw [Affine.equation_iff]; simp [shortW]

theorem y_ne {x y : F} (hT : NoTwoTorsion a b) (h : (shortW a b).Equation x y) : y ≠ 0 := by
  intro e
  have := (eqn_iff x y).mp h
  rw [e] at this
  exact hT x (by rw [← this]; ring)

/-- Chord through two points with different abscissae. -/
theorem chord (x1 y1 x2 y2 l : F) (hl : y2 = y1 + l * (x2 - x1)) (hx : x1 ≠ x2)
    (h1 : y1 ^ 2 = x1 ^ 3 + a * x1 + b) (h2 : y2 ^ 2 = x2 ^ 3 + a * x2 + b) :
    X3 a b x1 y1 1 x2 y2 1 = (l ^ 2 - x1 - x2) * Z3 a b x1 y1 1 x2 y2 1 ∧
    Y3 a b x1 y1 1 x2 y2 1 = -(l * (l ^ 2 - x1 - x2 - x1) + y1) * Z3 a b x1 y1 1 x2 y2 1 := by
  have hd : x2 - x1 ≠ 0 := sub_ne_zero.mpr hx.symm
  have ha : a = l * (2 * y1 + l * (x2 - x1)) - (x1 ^ 2 + x1 * x2 + x2 ^ 2) := by
    apply mul_left_cancel₀ hd
    subst hl
    linear_combination h1 - h2
  have hb : b = y1 ^ 2 - x1 ^ 3 - a * x1 := by linear_combination -h1
  subst hb hl ha
  unfold X3 Y3 Z3
  constructor <;> ring

/-- `Z` of the sum vanishes only if the difference has order two. -/
theorem chord_Z (x1 y1 x2 y2 m x4 : F) (hx : x1 ≠ x2) (hm : y1 + y2 = m * (x1 - x2))
    (hx4 : x4 = m ^ 2 - x1 - x2)
    (h1 : y1 ^ 2 = x1 ^ 3 + a * x1 + b) (h2 : y2 ^ 2 = x2 ^ 3 + a * x2 + b) :
    Z3 a b x1 y1 1 x2 y2 1 = (m * (x4 - x1) + y1) * (x1 - x2) ^ 3 := by
  have hd : x1 - x2 ≠ 0 := sub_ne_zero.mpr hx
  obtain rfl : y2 = m * (x1 - x2) - y1 := by linear_combination hm
  have ha : a = -m * (m * (x1 - x2) - 2 * y1) - (x1 ^ 2 + x1 * x2 + x2 ^ 2) := by
    apply mul_left_cancel₀ hd
    linear_combination h2 - h1
  have hb : b = y1 ^ 2 - x1 ^ 3 - a * x1 := by linear_combination -h1
  subst hb ha hx4
  unfold Z3
  ring

theorem tangent (x1 y1 l : F) (hl : l * (2 * y1) = 3 * x1 ^ 2 + a)
    (h1 : y1 ^ 2 = x1 ^ 3 + a * x1 + b) :
    X3 a b x1 y1 1 x1 y1 1 = (l ^ 2 - x1 - x1) * Z3 a b x1 y1 1 x1 y1 1 ∧
    Y3 a b x1 y1 1 x1 y1 1 = -(l * (l ^ 2 - x1 - x1 - x1) + y1) * Z3 a b x1 y1 1 x1 y1 1 ∧
    Z3 a b x1 y1 1 x1 y1 1 = 8 * y1 ^ 3 := by
  have ha : a = l * (2 * y1) - 3 * x1 ^ 2 := by linear_combination -hl
  have hb : b = y1 ^ 2 - x1 ^ 3 - a * x1 := by linear_combination -h1
  subst hb ha
  unfold X3 Y3 Z3
  refine ⟨?_, ?_, ?_⟩ <;> ring

theorem opposite (x1 y1 l : F) (hl : l * (2 * y1) = 3 * x1 ^ 2 + a)
    (h1 : y1 ^ 2 = x1 ^ 3 + a * x1 + b) :
    X3 a b x1 y1 1 x1 (-y1) 1 = 0 ∧ Z3 a b x1 y1 1 x1 (-y1) 1 = 0 ∧
    Y3 a b x1 y1 1 x1 (-y1) 1 = -(2 * y1) ^ 3 * (l * (l ^ 2 - x1 - x1 - x1) + y1) := by
  have ha : a = l * (2 * y1) - 3 * x1 ^ 2 := by linear_combination -hl
  have hb : b = y1 ^ 2 - x1 ^ 3 - a * x1 := by linear_combination -h1
  subst hb ha
  unfold X3 Y3 Z3
  refine ⟨?_, ?_, ?_⟩ <;> ring

theorem Coords.affine {X Y Z x y : F} {h : (shortW a b).Nonsingular x y}
    (hc : Coords X Y Z (.some x y h : (shortW a b).Point)) : Z ≠ 0 ∧ X = x * Z ∧ Y = y * Z := hc

variable [DecidableEq F]

/-- The complete addition formulas compute the sum in the group of the curve. -/
theorem add_coords (h2F : (2 : F) ≠ 0) (hT : NoTwoTorsion a b) {x1 y1 z1 x2 y2 z2 : F}
    {P Q : (shortW a b).Point} (hP : Coords x1 y1 z1 P) (hQ : Coords x2 y2 z2 Q) :
    Coords (X3 a b x1 y1 z1 x2 y2 z2) (Y3 a b x1 y1 z1 x2 y2 z2) (Z3 a b x1 y1 z1 x2 y2 z2) (P + Q) := by
  rcases P with _ | ⟨u1, v1, n1⟩
  · obtain ⟨rfl, hy1, rfl⟩ : x1 = 0 ∧ y1 ≠ 0 ∧ z1 = 0 := hP
    rw [← Affine.Point.zero_def, zero_add]
    rcases Q with _ | ⟨u2, v2, n2⟩
    · obtain ⟨rfl, hy2, rfl⟩ : x2 = 0 ∧ y2 ≠ 0 ∧ z2 = 0 := hQ
      refine ⟨by unfold X3; ring, ?_, by unfold Z3; ring⟩
      have e : Y3 a b 0 y1 0 0 y2 0 = y1 ^ 2 * y2 ^ 2 := by unfold Y3; ring
      rw [e]; positivity
    · obtain ⟨hz, rfl, rfl⟩ := hQ
      have hv := y_ne hT n2.1
      have e1 : X3 a b 0 y1 0 (u2 * z2) (v2 * z2) z2 = u2 * (y1 ^ 2 * v2 * z2 ^ 2) := by unfold X3; ring
      have e2 : Y3 a b 0 y1 0 (u2 * z2) (v2 * z2) z2 = v2 * (y1 ^ 2 * v2 * z2 ^ 2) := by unfold Y3; ring
      have e3 : Z3 a b 0 y1 0 (u2 * z2) (v2 * z2) z2 = y1 ^ 2 * v2 * z2 ^ 2 := by unfold Z3; ring
      rw [e1, e2, e3]
      exact ⟨by simp [hy1, hv, hz], rfl, rfl⟩
  · obtain ⟨hz1, rfl, rfl⟩ := hP
    have hv1 := y_ne hT n1.1
    rcases Q with _ | ⟨u2, v2, n2⟩
    · obtain ⟨rfl, hy2, rfl⟩ : x2 = 0 ∧ y2 ≠ 0 ∧ z2 = 0 := hQ
      rw [← Affine.Point.zero_def, add_zero]
      have e1 : X3 a b (u1 * z1) (v1 * z1) z1 0 y2 0 = u1 * (y2 ^ 2 * v1 * z1 ^ 2) := by unfold X3; ring
      have e2 : Y3 a b (u1 * z1) (v1 * z1) z1 0 y2 0 = v1 * (y2 ^ 2 * v1 * z1 ^ 2) := by unfold Y3; ring
      have e3 : Z3 a b (u1 * z1) (v1 * z1) z1 0 y2 0 = y2 ^ 2 * v1 * z1 ^ 2 := by unfold Z3; ring
      rw [e1, e2, e3]
      exact ⟨by simp [hy2, hv1, hz1], rfl, rfl⟩
    · obtain ⟨hz2, rfl, rfl⟩ := hQ
      have hv2 := y_ne hT n2.1
      have q1 := (eqn_iff _ _).mp n1.1
      have q2 := (eqn_iff _ _).mp n2.1
      rw [X3_scale, Y3_scale, Z3_scale]
      have hzz : (z1 * z2) ^ 2 ≠ 0 := by simp [hz1, hz2]
      by_cases hx : u1 = u2
      · subst hx
        have hyy : v1 = v2 ∨ v1 = -v2 := by
          have : (v1 - v2) * (v1 + v2) = 0 := by linear_combination q1 - q2
          rcases mul_eq_zero.mp this with h | h
          · left; linear_combination h
          · right; linear_combination h
        have h2v : (2 * v1 : F) ≠ 0 := mul_ne_zero h2F hv1
        by_cases hy : v1 = v2
        · subst hy
          have hne : v1 ≠ (shortW a b).negY u1 v1 := by
            intro e
            simp [Affine.negY, shortW] at e
            exact h2v (by linear_combination e)
          rw [Affine.Point.add_self_of_Y_ne hne]
          have hsl : (shortW a b).slope u1 u1 v1 v1 * (2 * v1) = 3 * u1 ^ 2 + a := by
            rw [Affine.slope_of_Y_ne rfl hne]
            have : v1 - (shortW a b).negY u1 v1 = 2 * v1 := by simp [Affine.negY, shortW]; ring
            rw [this, div_mul_cancel₀ _ h2v]
            simp [shortW]
          obtain ⟨t1, t2, t3⟩ := tangent u1 v1 _ hsl q1
          rw [t1, t2, t3]
          refine ⟨?_, ?_, ?_⟩
          · refine mul_ne_zero hzz ?_
            have : (8 * v1 ^ 3 : F) = (2 * v1) ^ 3 := by ring
            rw [this]; exact pow_ne_zero _ h2v
          · simp [Affine.addX, shortW]; ring
          · simp [Affine.addY, Affine.negAddY, Affine.negY, Affine.addX, shortW]; ring
        · have hy' : v1 = -v2 := hyy.resolve_left hy
          obtain rfl : v2 = -v1 := by linear_combination hy'
          have hneg : v1 = (shortW a b).negY u1 (-v1) := by simp [Affine.negY, shortW]
          rw [Affine.Point.add_of_Y_eq rfl hneg]
          have hne : v1 ≠ (shortW a b).negY u1 v1 := by
            intro e
            simp [Affine.negY, shortW] at e
            exact h2v (by linear_combination e)
          have hsl : (shortW a b).slope u1 u1 v1 v1 * (2 * v1) = 3 * u1 ^ 2 + a := by
            rw [Affine.slope_of_Y_ne rfl hne]
            have : v1 - (shortW a b).negY u1 v1 = 2 * v1 := by simp [Affine.negY, shortW]; ring
            rw [this, div_mul_cancel₀ _ h2v]
            simp [shortW]
          obtain ⟨t1, t2, t3⟩ := opposite u1 v1 _ hsl q1
          rw [t1, t2, t3]
          refine ⟨by ring, ?_, by ring⟩
          have ns := Affine.nonsingular_add n1 n1 (fun h => hne h.2)
          have hw := y_ne hT ns.1
          have e : (shortW a b).addY u1 u1 v1 ((shortW a b).slope u1 u1 v1 v1) =
              -((shortW a b).slope u1 u1 v1 v1 * ((shortW a b).slope u1 u1 v1 v1 ^ 2 - u1 - u1 - u1) + v1) := by
            simp [Affine.addY, Affine.negAddY, Affine.negY, Affine.addX, shortW]
          rw [e, neg_ne_zero] at hw
          exact mul_ne_zero hzz (mul_ne_zero (neg_ne_zero.mpr (pow_ne_zero _ h2v)) hw)
      · have hd : u1 - u2 ≠ 0 := sub_ne_zero.mpr hx
        rw [Affine.Point.add_of_X_ne hx]
        have hsl := Affine.slope_of_X_ne (W := shortW a b) (y₁ := v1) (y₂ := v2) hx
        have hl : v2 = v1 + (shortW a b).slope u1 u2 v1 v2 * (u2 - u1) := by
          rw [hsl]; field_simp; ring
        obtain ⟨t1, t2⟩ := chord u1 v1 u2 v2 _ hl hx q1 q2
        have n2' : (shortW a b).Nonsingular u2 (-v2) := by
          have := (Affine.nonsingular_neg u2 v2).mpr n2
          simpa [Affine.negY, shortW] using this
        have ns := Affine.nonsingular_add n1 n2' (fun h => hx h.1)
        have hw := y_ne hT ns.1
        have hsm := Affine.slope_of_X_ne (W := shortW a b) (y₁ := v1) (y₂ := -v2) hx
        have hm : v1 + v2 = (shortW a b).slope u1 u2 v1 (-v2) * (u1 - u2) := by
          rw [hsm]; field_simp; ring
        have t3 := chord_Z u1 v1 u2 v2 _ _ hx hm rfl q1 q2
        have e : (shortW a b).addY u1 u2 v1 ((shortW a b).slope u1 u2 v1 (-v2)) =
            -((shortW a b).slope u1 u2 v1 (-v2) * ((shortW a b).slope u1 u2 v1 (-v2) ^ 2 - u1 - u2 - u1) + v1) := by
          simp [Affine.addY, Affine.negAddY, Affine.negY, Affine.addX, shortW]
        rw [e, neg_ne_zero] at hw
        rw [t1, t2]
        refine ⟨mul_ne_zero hzz ?_, ?_, ?_⟩
        · rw [t3]; exact mul_ne_zero hw (pow_ne_zero _ hd)
        · simp [Affine.addX, shortW]; ring
        · simp [Affine.addY, Affine.negAddY, Affine.negY, Affine.addX, shortW]; ring

/-- Doubling of an affine point. -/
theorem dbl_coords (h2F : (2 : F) ≠ 0) (hT : NoTwoTorsion a b) {x1 y1 z1 : F}
    {P : (shortW a b).Point} (hP0 : P ≠ 0) (hP : Coords x1 y1 z1 P) :
    Coords (2 * y1 * z1 * ((3 * x1 ^ 2 + a * z1 ^ 2) ^ 2 - 8 * y1 ^ 2 * x1 * z1))
      (4 * y1 ^ 2 * z1 * (3 * (3 * x1 ^ 2 + a * z1 ^ 2) * x1 - 2 * y1 ^ 2 * z1) -
        (3 * x1 ^ 2 + a * z1 ^ 2) ^ 3)
      (8 * (y1 * z1) ^ 3) (P + P) ∧ P + P ≠ 0 := by
  rcases P with _ | ⟨u1, v1, n1⟩
  · exact absurd rfl hP0
  · obtain ⟨hz1, rfl, rfl⟩ := hP
    have hv1 := y_ne hT n1.1
    have h2v : (2 * v1 : F) ≠ 0 := mul_ne_zero h2F hv1
    have q1 := (eqn_iff _ _).mp n1.1
    have hne : v1 ≠ (shortW a b).negY u1 v1 := by
      intro e
      simp [Affine.negY, shortW] at e
      exact h2v (by linear_combination e)
    rw [Affine.Point.add_self_of_Y_ne hne]
    refine ⟨?_, Affine.Point.some_ne_zero _⟩
    have hsl : (shortW a b).slope u1 u1 v1 v1 * (2 * v1) = 3 * u1 ^ 2 + a := by
      rw [Affine.slope_of_Y_ne rfl hne]
      have : v1 - (shortW a b).negY u1 v1 = 2 * v1 := by simp [Affine.negY, shortW]; ring
      rw [this, div_mul_cancel₀ _ h2v]
      simp [shortW]
    obtain ⟨l, hsl'⟩ : ∃ l, (shortW a b).slope u1 u1 v1 v1 = l := ⟨_, rfl⟩
    rw [hsl'] at hsl
    have hw : 3 * (u1 * z1) ^ 2 + a * z1 ^ 2 = l * (2 * v1) * z1 ^ 2 := by rw [hsl]; ring
    rw [hw]
    refine ⟨?_, ?_, ?_⟩
    · have : (8 * (v1 * z1 * z1) ^ 3 : F) = (2 * v1) ^ 3 * z1 ^ 6 := by ring
      rw [this]; exact mul_ne_zero (pow_ne_zero _ h2v) (pow_ne_zero _ hz1)
    · simp only [Affine.addX, hsl']; simp [shortW]; ring
    · simp only [Affine.addY, Affine.negAddY, Affine.negY, Affine.addX, hsl']; simp [shortW]; ring

end Spec
