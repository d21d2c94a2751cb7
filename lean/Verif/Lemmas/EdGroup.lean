import Verif.Spec.Edwards
import Mathlib.AlgebraicGeometry.EllipticCurve.Affine.Point
import Mathlib.Tactic.LinearCombination
import Mathlib.Tactic.FieldSimp

/-!
The points of a complete twisted Edwards curve form a group: the curve is mapped into the group of
points of `Y² = X³ + 2(a+d)X² + (a-d)²X` (Mathlib's group law), by an injective map that turns the
Edwards addition law into the chord-tangent sum.
-/

namespace Spec
open WeierstrassCurve

variable {F : Type*} [Field F] {a d : F}

section complete
variable [hE : EdComplete a d]
include hE

theorem ed_delta {x1 y1 x2 y2 e : F} (he : e ^ 2 = 1) (h1 : OnEd a d x1 y1) (h2 : OnEd a d x2 y2) :
    d * x1 * x2 * y1 * y2 ≠ e := by
  intro h
  obtain ⟨s, hs⟩ := hE.asq
  have hsn : s ≠ 0 := by rintro rfl; exact hE.ane (by rw [hs]; ring)
  have hen : e ≠ 0 := by rintro rfl; norm_num at he
  unfold OnEd at h1 h2
  have hx1 : x1 ≠ 0 := by rintro rfl; exact hen (by rw [← h]; ring)
  have hy1 : y1 ≠ 0 := by rintro rfl; exact hen (by rw [← h]; ring)
  have hx2 : x2 ≠ 0 := by rintro rfl; exact hen (by rw [← h]; ring)
  have key : ∀ t : F, t ^ 2 = 1 → (s * x1 + e * t * y1) ^ 2 = d * x1 ^ 2 * y1 ^ 2 * (s * x2 + t * y2) ^ 2 := by
    intro t ht
    rw [hs] at h1 h2
    linear_combination (1 : F) * h1 - d * x1 ^ 2 * y1 ^ 2 * h2
      + y1 ^ 2 * (e ^ 2 * ht + he) - d * x1 ^ 2 * y1 ^ 2 * y2 ^ 2 * ht - 2 * s * x1 * y1 * t * h
      - (d * x1 * x2 * y1 * y2 + e) * h - he
  have sq_of : ∀ t : F, t ^ 2 = 1 → s * x2 + t * y2 ≠ 0 → False := by
    intro t ht hne
    apply hE.dns
    refine ⟨(s * x1 + e * t * y1) / (x1 * y1 * (s * x2 + t * y2)), ?_⟩
    have := key t ht
    field_simp
    linear_combination -this
  by_cases hp : s * x2 + 1 * y2 = 0
  · by_cases hm : s * x2 + (-1) * y2 = 0
    · have : 2 * (s * x2) = 0 := by linear_combination hp + hm
      exact (mul_ne_zero hE.two (mul_ne_zero hsn hx2)) this
    · exact sq_of (-1) (by norm_num) hm
  · exact sq_of 1 (by norm_num) hp

theorem ed_plus {x1 y1 x2 y2 : F} (h1 : OnEd a d x1 y1) (h2 : OnEd a d x2 y2) :
    1 + d * x1 * x2 * y1 * y2 ≠ 0 := by
  intro h
  exact ed_delta (e := -1) (by norm_num) h1 h2 (by linear_combination h)

theorem ed_minus {x1 y1 x2 y2 : F} (h1 : OnEd a d x1 y1) (h2 : OnEd a d x2 y2) :
    1 - d * x1 * x2 * y1 * y2 ≠ 0 := by
  intro h
  exact ed_delta (e := 1) (by norm_num) h1 h2 (by linear_combination -h)

theorem ed_c : a - d ≠ 0 := by
  intro h
  exact hE.dns (by rw [← sub_eq_zero.mp h]; exact hE.asq)

theorem ed_g (y : F) : a - d * y ^ 2 ≠ 0 := by
  intro h
  obtain ⟨s, hs⟩ := hE.asq
  have hy : y ≠ 0 := by rintro rfl; exact hE.ane (by linear_combination h)
  apply hE.dns
  refine ⟨s / y, ?_⟩
  field_simp
  linear_combination hs - h

theorem ed_ad : ¬ IsSquare (a * d) := by
  rintro ⟨r, hr⟩
  obtain ⟨s, hs⟩ := hE.asq
  have hsn : s ≠ 0 := by rintro rfl; exact hE.ane (by rw [hs]; ring)
  apply hE.dns
  refine ⟨r / s, ?_⟩
  field_simp
  rw [hs] at hr
  linear_combination hr

end complete

/-- The Weierstrass model. -/
def edW (a d : F) : Affine F := ⟨0, 2 * (a + d), 0, (a - d) ^ 2, 0⟩

theorem edW_eqn (X Y : F) : (edW a d).Equation X Y ↔ Y ^ 2 = X ^ 3 + 2 * (a + d) * X ^ 2 + (a - d) ^ 2 * X := by
  rw [Affine.equation_iff]; simp [edW]

/-- Coordinates of the image. -/
def toX (a d y : F) : F := (a - d) * (1 + y) / (1 - y)
def toY (a d x y : F) : F := 2 * (a - d) * x * (a - d * y ^ 2) / (1 - y) ^ 2

theorem xY {x y : F} (h : OnEd a d x y) (hy : y ≠ 1) : x * toY a d x y = 2 * toX a d y := by
  have hn : 1 - y ≠ 0 := fun e => hy (by linear_combination -e)
  unfold OnEd at h
  unfold toX toY
  field_simp
  linear_combination (2 * (a - d)) * h

theorem y_of {y : F} (hy : y ≠ 1) : y * (toX a d y + (a - d)) = toX a d y - (a - d) := by
  have hn : 1 - y ≠ 0 := fun e => hy (by linear_combination -e)
  unfold toX
  field_simp
  ring

theorem to_eqn {x y : F} (h : OnEd a d x y) (hy : y ≠ 1) :
    toY a d x y ^ 2 = toX a d y ^ 3 + 2 * (a + d) * toX a d y ^ 2 + (a - d) ^ 2 * toX a d y := by
  have hn : 1 - y ≠ 0 := fun e => hy (by linear_combination -e)
  unfold OnEd at h
  unfold toX toY
  field_simp
  linear_combination 4 * (a - d) ^ 2 * (a - d * y ^ 2) * h

section complete
variable [hE : EdComplete a d]
include hE

theorem x_eq_zero {x y : F} (h : OnEd a d x y) (hy : y ^ 2 = 1) : x = 0 := by
  unfold OnEd at h
  have := ed_c (a := a) (d := d)
  have h2 : (a - d) * x ^ 2 = 0 := by linear_combination h + (d * x ^ 2 - 1) * hy
  rcases mul_eq_zero.mp h2 with h3 | h3
  · exact absurd h3 this
  · exact pow_eq_zero_iff (two_ne_zero) |>.mp h3

omit hE in
theorem y_sq {y : F} (h : OnEd a d 0 y) : y = 1 ∨ y = -1 := by
  unfold OnEd at h
  have : (y - 1) * (y + 1) = 0 := by linear_combination h
  rcases mul_eq_zero.mp this with h | h
  · left; linear_combination h
  · right; linear_combination h

theorem one_ne_neg : (1 : F) ≠ -1 := by
  intro h
  exact hE.two (by linear_combination h)

theorem toX_add {y : F} (hy : y ≠ 1) : toX a d y + (a - d) ≠ 0 := by
  have hn : 1 - y ≠ 0 := fun e => hy (by linear_combination -e)
  have : toX a d y + (a - d) = 2 * (a - d) / (1 - y) := by unfold toX; field_simp; ring
  rw [this]
  exact div_ne_zero (mul_ne_zero hE.two ed_c) hn

theorem toX_ne {x y : F} (h : OnEd a d x y) (hx : x ≠ 0) : toX a d y ≠ 0 := by
  have h1 : y ≠ 1 := fun e => hx (x_eq_zero h (by rw [e]; ring))
  have h2 : 1 + y ≠ 0 := fun e => hx (x_eq_zero h (by linear_combination (y - 1) * e))
  have hn : 1 - y ≠ 0 := fun e => h1 (by linear_combination -e)
  unfold toX
  exact div_ne_zero (mul_ne_zero ed_c h2) hn

theorem toY_ne {x y : F} (h : OnEd a d x y) (hx : x ≠ 0) : toY a d x y ≠ 0 := by
  have h1 : y ≠ 1 := fun e => hx (x_eq_zero h (by rw [e]; ring))
  have hn : 1 - y ≠ 0 := fun e => h1 (by linear_combination -e)
  unfold toY
  exact div_ne_zero (mul_ne_zero (mul_ne_zero (mul_ne_zero hE.two ed_c) hx) (ed_g y)) (pow_ne_zero _ hn)

theorem edW_nonsing {X Y : F} (h : Y ^ 2 = X ^ 3 + 2 * (a + d) * X ^ 2 + (a - d) ^ 2 * X) (hn : Y ≠ 0 ∨ X = 0) :
    (edW a d).Nonsingular X Y := by
  refine (Affine.nonsingular_iff X Y).mpr ⟨(edW_eqn X Y).mpr h, ?_⟩
  rcases hn with hY | hX
  · right
    simp [edW]
    intro e
    exact mul_ne_zero hE.two hY (by linear_combination e)
  · left
    subst hX
    simp [edW]
    exact (pow_ne_zero 2 (ed_c (a := a) (d := d))).symm

theorem to_nonsing {x y : F} (h : OnEd a d x y) (hy : y ≠ 1) : (edW a d).Nonsingular (toX a d y) (toY a d x y) := by
  apply edW_nonsing (to_eqn h hy)
  by_cases hx : x = 0
  · right
    subst hx
    rcases y_sq h with e | e
    · exact absurd e hy
    · subst e; unfold toX; norm_num
  · left; exact toY_ne h hx

variable [DecidableEq F]

/-- The map into the Weierstrass group. -/
def toW {x y : F} (h : OnEd a d x y) : (edW a d).Point :=
  if hy : y = 1 then 0 else .some _ _ (to_nonsing h hy)

theorem toW_zero (h : OnEd a d 0 1) : toW h = 0 := by unfold toW; simp

theorem toW_one {x : F} (h : OnEd a d x 1) : toW h = 0 := by unfold toW; simp

theorem toW_some {x y : F} (h : OnEd a d x y) (hy : y ≠ 1) : toW h = .some _ _ (to_nonsing h hy) := by
  unfold toW; rw [dif_neg hy]

/-- A point of the Weierstrass curve with these two relations is the image. -/
theorem toW_eq {x y X Y : F} (h : OnEd a d x y) (hn : (edW a d).Nonsingular X Y) (hc : X + (a - d) ≠ 0) (hY : Y ≠ 0)
    (hx : x * Y = 2 * X) (hy : y * (X + (a - d)) = X - (a - d)) : toW h = .some X Y hn := by
  have h1 : y ≠ 1 := by
    rintro rfl
    exact mul_ne_zero hE.two (ed_c (a := a) (d := d)) (by linear_combination hy)
  have hn1 : 1 - y ≠ 0 := fun e => h1 (by linear_combination -e)
  rw [toW_some h h1]
  have eX : toX a d y = X := by
    unfold toX
    field_simp
    linear_combination hy
  have eY : toY a d x y = Y := by
    have q := (edW_eqn X Y).mp hn.1
    by_cases hX : X = 0
    · subst hX
      exact absurd (by simpa using q) hY
    · have hx0 : x ≠ 0 := by
        rintro rfl
        exact mul_ne_zero hE.two hX (by linear_combination -hx)
      have := xY h h1
      rw [eX, ← hx] at this
      exact mul_left_cancel₀ hx0 this
  simp only [eX, eY]

theorem toW_inj {x y x' y' : F} (h : OnEd a d x y) (h' : OnEd a d x' y') (e : toW h = toW h') : x = x' ∧ y = y' := by
  by_cases hy : y = 1
  · subst hy
    rw [toW_one] at e
    by_cases hy' : y' = 1
    · subst hy'
      exact ⟨by rw [x_eq_zero h (by ring), x_eq_zero h' (by ring)], rfl⟩
    · rw [toW_some h' hy'] at e
      exact absurd e.symm (Affine.Point.some_ne_zero _)
  · rw [toW_some h hy] at e
    by_cases hy' : y' = 1
    · subst hy'
      rw [toW_one] at e
      exact absurd e (Affine.Point.some_ne_zero _)
    · rw [toW_some h' hy'] at e
      injection e with e1 e2
      have q1 := y_of (a := a) (d := d) hy
      have q2 := y_of (a := a) (d := d) hy'
      have eqy : y = y' := by
        rw [← e1] at q2
        exact mul_right_cancel₀ (toX_add hy) (q1.trans q2.symm)
      subst eqy
      refine ⟨?_, rfl⟩
      have g := ed_g (a := a) (d := d) y
      have hn1 : 1 - y ≠ 0 := fun e => hy (by linear_combination -e)
      unfold toY at e2
      have c0 := ed_c (a := a) (d := d)
      have two := hE.two
      field_simp at e2
      exact e2

theorem toW_neg {x y : F} (h : OnEd a d x y) (h' : OnEd a d (-x) y) : toW h' = -toW h := by
  by_cases hy : y = 1
  · subst hy; rw [toW_one, toW_one]; simp
  · rw [toW_some h hy, toW_some h' hy, Affine.Point.neg_some]
    congr 1
    simp [Affine.negY, edW, toY]
    ring

omit hE [DecidableEq F] in
theorem on_neg {x y : F} (h : OnEd a d x y) : OnEd a d (-x) y := by
  unfold OnEd at *; linear_combination h

omit hE [DecidableEq F] in
theorem on_T : OnEd a d 0 (-1) := by unfold OnEd; ring

omit hE [DecidableEq F] in
theorem on_O : OnEd a d 0 1 := by unfold OnEd; ring

omit hE [DecidableEq F] in
theorem on_negT {x y : F} (h : OnEd a d x y) : OnEd a d (-x) (-y) := by
  unfold OnEd at *; linear_combination h

theorem toX_T : toX a d (-1) = 0 := by unfold toX; norm_num
theorem toY_T : toY a d 0 (-1) = 0 := by unfold toY; norm_num

/-- Adding the point of order two. -/
theorem toW_T {x y : F} (h : OnEd a d x y) : toW (on_negT h) = toW (on_T (a := a) (d := d)) + toW h := by
  have n1 : (-1 : F) ≠ 1 := (one_ne_neg (a := a) (d := d)).symm
  by_cases hx : x = 0
  · subst hx
    rcases y_sq h with e | e
    · subst e
      rw [toW_one h, add_zero]
      congr 1
      simp
    · subst e
      have : toW (on_negT h) = 0 := by
        unfold toW; rw [dif_pos (by ring)]
      rw [this, toW_some _ n1, Affine.Point.add_self_of_Y_eq]
      simp [Affine.negY, edW, toY]
  · have h1 : y ≠ 1 := fun e => hx (x_eq_zero h (by rw [e]; ring))
    have h2 : -y ≠ 1 := fun e => hx (x_eq_zero h (by linear_combination (y - 1) * (-e)))
    have hX := toX_ne h hx
    have hY := toY_ne h hx
    have q := to_eqn h h1
    rw [toW_some _ n1, toW_some h h1]
    have hne : toX a d (-1) ≠ toX a d y := by rw [toX_T]; exact hX.symm
    rw [Affine.Point.add_of_X_ne hne]
    have hsl : (edW a d).slope (toX a d (-1)) (toX a d y) (toY a d 0 (-1)) (toY a d x y) = toY a d x y / toX a d y := by
      rw [Affine.slope_of_X_ne hne, toX_T, toY_T, zero_sub, zero_sub, neg_div_neg_eq]
    have hn1 : 1 - y ≠ 0 := fun e => h1 (by linear_combination -e)
    have hn2 : 1 + y ≠ 0 := fun e => h2 (by linear_combination -e)
    have eX : (edW a d).addX (toX a d (-1)) (toX a d y)
        ((edW a d).slope (toX a d (-1)) (toX a d y) (toY a d 0 (-1)) (toY a d x y)) = (a - d) ^ 2 / toX a d y := by
      rw [hsl, toX_T]
      simp only [Affine.addX, edW]
      field_simp
      linear_combination q
    rw [toW_some _ h2]
    have eX' : toX a d (-y) = (a - d) ^ 2 / toX a d y := by
      have c0 := ed_c (a := a) (d := d)
      unfold toX
      have : 1 - -y ≠ 0 := by rwa [sub_neg_eq_add]
      field_simp
      ring
    have eY : (edW a d).addY (toX a d (-1)) (toX a d y) (toY a d 0 (-1))
        ((edW a d).slope (toX a d (-1)) (toX a d y) (toY a d 0 (-1)) (toY a d x y)) =
        -(toY a d x y / toX a d y * ((a - d) ^ 2 / toX a d y)) := by
      rw [Affine.addY, Affine.negAddY, eX, hsl, toX_T, toY_T]
      simp only [Affine.negY, edW]
      ring
    have eY' : toY a d (-x) (-y) = -(toY a d x y / toX a d y * ((a - d) ^ 2 / toX a d y)) := by
      have c0 := ed_c (a := a) (d := d)
      unfold toX toY
      have : 1 - -y ≠ 0 := by rwa [sub_neg_eq_add]
      field_simp
      ring
    simp only [eX, eX', eY, eY']

omit hE [DecidableEq F] in
/-- The heart: abscissae `X1, X2, X3` of the cubic with the line `Y = l X + n`. -/
theorem line_sum {X1 X2 X3 l n c m : F} (hm : 2 * m = l ^ 2 - (X1 + X2 + X3)) (hn : n ^ 2 = X1 * X2 * X3)
    (hc : c ^ 2 = X1 * X2 + X1 * X3 + X2 * X3 + 2 * l * n) :
    4 * (2 * X1 * (l * X2 + n) * (X2 - c) * (X1 + c) + 2 * X2 * (l * X1 + n) * (X1 - c) * (X2 + c)) * (-(l * X3 + n)) =
      2 * X3 * (4 * ((l * X1 + n) * (l * X2 + n) * (X1 + c) * (X2 + c)) +
        (2 * m - 2 * c) * 4 * X1 * X2 * (X1 - c) * (X2 - c)) ∧
    (4 * (X1 - c) * (X2 - c) * (l * X1 + n) * (l * X2 + n) - (2 * m + 2 * c) * 4 * X1 * X2 * (X1 + c) * (X2 + c)) * (X3 + c) =
      (X3 - c) * (4 * ((l * X1 + n) * (l * X2 + n) * (X1 + c) * (X2 + c)) -
        (2 * m - 2 * c) * 4 * X1 * X2 * (X1 - c) * (X2 - c)) := by
  rw [hm]
  constructor
  · linear_combination ((-8) * X1^2 * X2 * X3 + (-8) * X1 * X2^2 * X3 + 8 * X1 * X2 * X3^2 + 16 * X1 * X2 * X3 * c + 16 * X1 * X2 * l * n + 8 * X1 * n^2 + 8 * X2 * n^2 + (-8) * X3 * n^2) * hc + (8 * X1^2 * X3 + 8 * X1^2 * c + 32 * X1 * X2 * l^2 + (-16) * X1 * X2 * c + (-8) * X1 * X3^2 + (-8) * X1 * X3 * c + 16 * X1 * l * n + 8 * X2^2 * X3 + 8 * X2^2 * c + (-8) * X2 * X3^2 + (-8) * X2 * X3 * c + 16 * X2 * l * n + (-16) * X3 * l * n) * hn
  · linear_combination ((-8) * X1^2 * X2 * c + (-8) * X1 * X2^2 * c + (-8) * X1 * X2 * X3 * c + 8 * X1 * l * n * c + 8 * X2 * l * n * c + 8 * n^2 * c) * hc + (16 * X1 * X2 * c + 16 * X1 * l^2 * c + 16 * X2 * l^2 * c + 16 * l * n * c) * hn

omit hE [DecidableEq F] in
/-- The intersections of a chord or tangent with the cubic (`Y = l X + n`). -/
theorem line_rel {X1 Y1 X2 Y2 X3 l n c m : F} (q1 : Y1 ^ 2 = X1 ^ 3 + 2 * m * X1 ^ 2 + c ^ 2 * X1)
    (q2 : Y2 ^ 2 = X2 ^ 3 + 2 * m * X2 ^ 2 + c ^ 2 * X2) (l1 : Y1 = l * X1 + n) (l2 : Y2 = l * X2 + n)
    (h3 : 2 * m = l ^ 2 - (X1 + X2 + X3))
    (ht : X1 = X2 → 2 * Y1 * l = 3 * X1 ^ 2 + 2 * (2 * m) * X1 + c ^ 2) :
    n ^ 2 = X1 * X2 * X3 ∧ c ^ 2 = X1 * X2 + X1 * X3 + X2 * X3 + 2 * l * n := by
  have hc : c ^ 2 = X1 * X2 + X1 * X3 + X2 * X3 + 2 * l * n := by
    by_cases h : X1 = X2
    · have := ht h
      subst h
      rw [l1, h3] at this
      linear_combination -this
    · have hs : X1 - X2 ≠ 0 := sub_ne_zero.mpr h
      apply mul_left_cancel₀ hs
      rw [l1, h3] at q1
      rw [l2, h3] at q2
      linear_combination q2 - q1
  refine ⟨?_, hc⟩
  rw [l1, h3] at q1
  linear_combination q1 + X1 * hc

omit hE [DecidableEq F] in
theorem on_of_W {x y X Y : F} (q : Y ^ 2 = X ^ 3 + 2 * (a + d) * X ^ 2 + (a - d) ^ 2 * X) (hY : Y ≠ 0)
    (hc : X + (a - d) ≠ 0) (hx : x * Y = 2 * X) (hy : y * (X + (a - d)) = X - (a - d)) : OnEd a d x y := by
  have ex : x = 2 * X / Y := by field_simp; exact hx
  have ey : y = (X - (a - d)) / (X + (a - d)) := by field_simp; exact hy
  unfold OnEd
  rw [ex, ey]
  field_simp
  linear_combination (-4 * (a - d) * X) * q

/-- The sum, when the line meets the curve in a third point that is the image of an Edwards point. -/
theorem ed_line {x1 y1 x2 y2 l n X3 : F} (h1 : OnEd a d x1 y1) (h2 : OnEd a d x2 y2) (hx1 : x1 ≠ 0) (hx2 : x2 ≠ 0)
    (n1 : y1 ≠ 1) (n2 : y2 ≠ 1) (l1 : toY a d x1 y1 = l * toX a d y1 + n) (l2 : toY a d x2 y2 = l * toX a d y2 + n)
    (h3 : 2 * (a + d) = l ^ 2 - (toX a d y1 + toX a d y2 + X3))
    (hn : n ^ 2 = toX a d y1 * toX a d y2 * X3)
    (hc : (a - d) ^ 2 = toX a d y1 * toX a d y2 + toX a d y1 * X3 + toX a d y2 * X3 + 2 * l * n) :
    edAddX d x1 y1 x2 y2 * (-(l * X3 + n)) = 2 * X3 ∧
    edAddY a d x1 y1 x2 y2 * (X3 + (a - d)) = X3 - (a - d) := by
  obtain ⟨k1, k2⟩ := line_sum h3 hn hc
  have e1 := xY h1 n1
  have e2 := xY h2 n2
  have f1 := y_of (a := a) (d := d) n1
  have f2 := y_of (a := a) (d := d) n2
  have s1 := toX_add (a := a) (d := d) n1
  have s2 := toX_add (a := a) (d := d) n2
  have t1 := toY_ne h1 hx1
  have t2 := toY_ne h2 hx2
  rw [← l1, ← l2] at k1 k2
  have dp := ed_plus h1 h2
  have dm := ed_minus h1 h2
  generalize toX a d y1 = X1 at *
  generalize toX a d y2 = X2 at *
  generalize toY a d x1 y1 = Y1 at *
  generalize toY a d x2 y2 = Y2 at *
  have ex1 : x1 = 2 * X1 / Y1 := by field_simp; exact e1
  have ey1 : y1 = (X1 - (a - d)) / (X1 + (a - d)) := by field_simp; exact f1
  have ex2 : x2 = 2 * X2 / Y2 := by field_simp; exact e2
  have ey2 : y2 = (X2 - (a - d)) / (X2 + (a - d)) := by field_simp; exact f2
  have four : (4 : F) ≠ 0 := by
    have := mul_ne_zero hE.two hE.two
    intro e; exact this (by linear_combination e)
  have hN : 4 * (Y1 * Y2 * (X1 + (a - d)) * (X2 + (a - d))) ≠ 0 :=
    mul_ne_zero four (mul_ne_zero (mul_ne_zero (mul_ne_zero t1 t2) s1) s2)
  constructor
  · unfold edAddX
    rw [div_mul_eq_mul_div, div_eq_iff dp]
    apply mul_left_cancel₀ hN
    have a1 : 4 * (Y1 * Y2 * (X1 + (a - d)) * (X2 + (a - d))) * ((x1 * y2 + x2 * y1) * -(l * X3 + n)) =
        4 * ((x1 * Y1) * Y2 * (y2 * (X2 + (a - d))) * (X1 + (a - d)) + (x2 * Y2) * Y1 * (y1 * (X1 + (a - d))) * (X2 + (a - d))) * (-(l * X3 + n)) := by ring
    have a2 : 4 * (Y1 * Y2 * (X1 + (a - d)) * (X2 + (a - d))) * (2 * X3 * (1 + d * x1 * x2 * y1 * y2)) =
        2 * X3 * (4 * (Y1 * Y2 * (X1 + (a - d)) * (X2 + (a - d))) + 4 * d * ((x1 * Y1) * (x2 * Y2) * (y1 * (X1 + (a - d))) * (y2 * (X2 + (a - d))))) := by ring
    rw [a1, a2, e1, e2, f1, f2]
    linear_combination k1
  · unfold edAddY
    rw [div_mul_eq_mul_div, div_eq_iff dm]
    apply mul_left_cancel₀ hN
    have a1 : 4 * (Y1 * Y2 * (X1 + (a - d)) * (X2 + (a - d))) * ((y1 * y2 - a * x1 * x2) * (X3 + (a - d))) =
        (4 * (y1 * (X1 + (a - d))) * (y2 * (X2 + (a - d))) * Y1 * Y2 - 4 * a * (x1 * Y1) * (x2 * Y2) * (X1 + (a - d)) * (X2 + (a - d))) * (X3 + (a - d)) := by ring
    have a2 : 4 * (Y1 * Y2 * (X1 + (a - d)) * (X2 + (a - d))) * ((X3 - (a - d)) * (1 - d * x1 * x2 * y1 * y2)) =
        (X3 - (a - d)) * (4 * (Y1 * Y2 * (X1 + (a - d)) * (X2 + (a - d))) - 4 * d * ((x1 * Y1) * (x2 * Y2) * (y1 * (X1 + (a - d))) * (y2 * (X2 + (a - d))))) := by ring
    rw [a1, a2, e1, e2, f1, f2]
    linear_combination k2

omit [DecidableEq F] in
theorem W_Y_ne {X Y : F} (q : Y ^ 2 = X ^ 3 + 2 * (a + d) * X ^ 2 + (a - d) ^ 2 * X) (hX : X ≠ 0) : Y ≠ 0 := by
  rintro rfl
  have : X * (X ^ 2 + 2 * (a + d) * X + (a - d) ^ 2) = 0 := by linear_combination -q
  rcases mul_eq_zero.mp this with h | h
  · exact hX h
  · have two := hE.two
    apply ed_ad (a := a) (d := d)
    refine ⟨(X + (a + d)) / 2, ?_⟩
    field_simp
    linear_combination -h

omit [DecidableEq F] in
theorem W_c_ne {X Y : F} (q : Y ^ 2 = X ^ 3 + 2 * (a + d) * X ^ 2 + (a - d) ^ 2 * X) : X + (a - d) ≠ 0 := by
  intro e
  have eX : X = -(a - d) := by linear_combination e
  subst eX
  apply hE.dns
  have c0 := ed_c (a := a) (d := d)
  have two := hE.two
  refine ⟨Y / (2 * (a - d)), ?_⟩
  field_simp
  linear_combination -q

theorem toW_congr {x y x' y' : F} (h : OnEd a d x y) (ex : x = x') (ey : y = y') :
    ∃ h' : OnEd a d x' y', toW h' = toW h := by
  subst ex ey; exact ⟨h, rfl⟩

/-- The Edwards addition law stays on the curve and is the group law of the Weierstrass model. -/
theorem ed_add_main {x1 y1 x2 y2 : F} (h1 : OnEd a d x1 y1) (h2 : OnEd a d x2 y2) :
    ∃ h3 : OnEd a d (edAddX d x1 y1 x2 y2) (edAddY a d x1 y1 x2 y2), toW h3 = toW h1 + toW h2 := by
  have dp := ed_plus h1 h2
  have dm := ed_minus h1 h2
  by_cases hx1 : x1 = 0
  · subst hx1
    rcases y_sq h1 with e | e
    · subst e
      rw [toW_one, zero_add]
      apply toW_congr h2 <;> simp [edAddX, edAddY]
    · subst e
      rw [← toW_T h2]
      apply toW_congr (on_negT h2) <;> simp [edAddX, edAddY]
  by_cases hx2 : x2 = 0
  · subst hx2
    rcases y_sq h2 with e | e
    · subst e
      rw [toW_one h2, add_zero]
      apply toW_congr h1 <;> simp [edAddX, edAddY]
    · subst e
      rw [add_comm, ← toW_T h1]
      apply toW_congr (on_negT h1) <;> simp [edAddX, edAddY]
  have n1 : y1 ≠ 1 := fun e => hx1 (x_eq_zero h1 (by rw [e]; ring))
  have n2 : y2 ≠ 1 := fun e => hx2 (x_eq_zero h2 (by rw [e]; ring))
  by_cases hneg : x2 = -x1 ∧ y2 = y1
  · obtain ⟨rfl, rfl⟩ := hneg
    rw [toW_neg h1 h2, add_neg_cancel, ← toW_zero (on_O (a := a) (d := d))]
    apply toW_congr on_O
    · unfold edAddX; rw [eq_div_iff dp]; ring
    · unfold edAddY; rw [eq_div_iff dm]; unfold OnEd at h1; linear_combination -h1
  by_cases hT : x2 = x1 ∧ y2 = -y1
  · obtain ⟨rfl, rfl⟩ := hT
    have e : toW h2 = toW (on_T (a := a) (d := d)) + -toW h1 := by
      rw [← toW_neg h1 (on_neg h1), ← toW_T (on_neg h1)]
      congr 1
      ring
    rw [e, add_comm, add_assoc, neg_add_cancel, add_zero]
    apply toW_congr on_T
    · unfold edAddX; rw [eq_div_iff dp]; ring
    · unfold edAddY; rw [eq_div_iff dm]; unfold OnEd at h1; linear_combination h1
  have q1 := to_eqn h1 n1
  have q2 := to_eqn h2 n2
  have e1 := xY h1 n1
  have e2 := xY h2 n2
  have f1 := y_of (a := a) (d := d) n1
  have f2 := y_of (a := a) (d := d) n2
  have t1 := toY_ne h1 hx1
  have t2 := toY_ne h2 hx2
  have X1n := toX_ne h1 hx1
  have X2n := toX_ne h2 hx2
  have s1 := toX_add (a := a) (d := d) n1
  have s2 := toX_add (a := a) (d := d) n2
  have hxy : ¬(toX a d y1 = toX a d y2 ∧ toY a d x1 y1 = (edW a d).negY (toX a d y2) (toY a d x2 y2)) := by
    rintro ⟨eX, eY⟩
    apply hneg
    have eY' : toY a d x1 y1 = - toY a d x2 y2 := by rw [eY]; simp [Affine.negY, edW]
    constructor
    · apply mul_right_cancel₀ t2
      linear_combination e2 - e1 + x1 * eY' - 2 * eX
    · apply mul_right_cancel₀ s2
      rw [f2, ← eX, f1]
  rw [toW_some h1 n1, toW_some h2 n2, Affine.Point.add_some hxy]
  set l := (edW a d).slope (toX a d y1) (toX a d y2) (toY a d x1 y1) (toY a d x2 y2) with hl
  have hns := Affine.nonsingular_add (to_nonsing h1 n1) (to_nonsing h2 n2) hxy
  rw [← hl] at hns
  set X3 := (edW a d).addX (toX a d y1) (toX a d y2) l with hX3
  have eX3 : 2 * (a + d) = l ^ 2 - (toX a d y1 + toX a d y2 + X3) := by
    rw [hX3]; simp only [Affine.addX, edW]; ring
  obtain ⟨n, hnd⟩ : ∃ n, n = toY a d x1 y1 - l * toX a d y1 := ⟨_, rfl⟩
  have l1 : toY a d x1 y1 = l * toX a d y1 + n := by rw [hnd]; ring
  have eY3 : (edW a d).addY (toX a d y1) (toX a d y2) (toY a d x1 y1) l = -(l * X3 + n) := by
    rw [Affine.addY, Affine.negAddY, ← hX3, hnd]
    simp only [Affine.negY, edW]; ring
  have two := hE.two
  have sl : toY a d x2 y2 = l * toX a d y2 + n ∧ (toX a d y1 = toX a d y2 →
      2 * toY a d x1 y1 * l = 3 * toX a d y1 ^ 2 + 2 * (2 * (a + d)) * toX a d y1 + (a - d) ^ 2) := by
    by_cases eX : toX a d y1 = toX a d y2
    · have eY : toY a d x1 y1 = toY a d x2 y2 := by
        have hp : (toY a d x1 y1 - toY a d x2 y2) * (toY a d x1 y1 + toY a d x2 y2) = 0 := by
          rw [← eX] at q2; linear_combination q1 - q2
        rcases mul_eq_zero.mp hp with h | h
        · linear_combination h
        · exact absurd ⟨eX, by simp only [Affine.negY, edW]; linear_combination h⟩ hxy
      refine ⟨by rw [← eX, ← eY]; exact l1, fun _ => ?_⟩
      have := Affine.slope_of_Y_ne eX (fun h => hxy ⟨eX, h⟩)
      rw [hl, this]
      have hd : toY a d x1 y1 - (edW a d).negY (toX a d y1) (toY a d x1 y1) = 2 * toY a d x1 y1 := by
        simp only [Affine.negY, edW]; ring
      rw [hd]
      simp only [edW]
      field_simp
      ring
    · refine ⟨?_, fun h => absurd h eX⟩
      have := Affine.slope_of_X_ne (W := edW a d) (y₁ := toY a d x1 y1) (y₂ := toY a d x2 y2) eX
      rw [← hl] at this
      have hs : toX a d y1 - toX a d y2 ≠ 0 := sub_ne_zero.mpr eX
      rw [eq_div_iff hs] at this
      rw [hnd]; linear_combination this
  obtain ⟨l2, ht⟩ := sl
  obtain ⟨hn, hc⟩ := line_rel q1 q2 l1 l2 eX3 ht
  have q3 := (edW_eqn _ _).mp hns.1
  rw [eY3] at q3
  have X3n : X3 ≠ 0 := by
    intro h0
    rw [h0] at hn hc
    have n0 : n = 0 := by
      have : n ^ 2 = 0 := by linear_combination hn
      exact pow_eq_zero_iff two_ne_zero |>.mp this
    rw [n0] at l1 l2 hc
    apply hT
    have lne : l ≠ 0 := by
      intro h; rw [h] at l1; exact t1 (by linear_combination l1)
    constructor
    · apply mul_right_cancel₀ lne
      have a1 : x1 * l = 2 := by
        apply mul_right_cancel₀ X1n
        rw [l1] at e1; linear_combination e1
      have a2 : x2 * l = 2 := by
        apply mul_right_cancel₀ X2n
        rw [l2] at e2; linear_combination e2
      rw [a1, a2]
    · apply mul_right_cancel₀ s2
      apply mul_right_cancel₀ s1
      linear_combination (toX a d y1 + (a - d)) * f2 + (toX a d y2 + (a - d)) * f1 - 2 * hc
  have Y3n := W_Y_ne q3 X3n
  have c3 := W_c_ne q3
  obtain ⟨r1, r2⟩ := ed_line h1 h2 hx1 hx2 n1 n2 l1 l2 eX3 hn hc
  have on3 := on_of_W q3 Y3n c3 r1 r2
  refine ⟨on3, ?_⟩
  have hns' : (edW a d).Nonsingular X3 (-(l * X3 + n)) := by rw [← eY3]; exact hns
  rw [toW_eq on3 hns' c3 Y3n r1 r2]
  congr 1
  exact eY3.symm

end complete

end Spec
