import Mathlib.AlgebraicGeometry.EllipticCurve.Affine.Point

/-!
# Short Weierstrass curves

The group of points is Mathlib's `WeierstrassCurve.Affine.Point` with its `AddCommGroup` structure.
-/

namespace Spec
open WeierstrassCurve

variable {F : Type*} [Field F]

/-- The curve `y² = x³ + a·x + b`. -/
def shortW (a b : F) : Affine F := ⟨0, 0, 0, a, b⟩

/-- `(X : Y : Z)` are homogeneous coordinates of the point `P`: `(X/Z, Y/Z)` for an affine point,
`(0 : Y : 0)` with `Y ≠ 0` for the point at infinity. -/
def Coords {a b : F} (X Y Z : F) : (shortW a b).Point → Prop
  | .zero => X = 0 ∧ Y ≠ 0 ∧ Z = 0
  | .some x y _ => Z ≠ 0 ∧ X = x * Z ∧ Y = y * Z

/-- The curve has no rational point of order two: the cubic has no root. -/
def NoTwoTorsion (a b : F) : Prop := ∀ x : F, x ^ 3 + a * x + b ≠ 0

end Spec
