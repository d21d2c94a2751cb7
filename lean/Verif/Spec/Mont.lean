import Mathlib.AlgebraicGeometry.EllipticCurve.Affine.Point

/-!
# Montgomery curves `B·v² = u³ + A·u² + u` (RFC 7748)

With `x = B·u`, `y = B²·v` the curve is `y² = x³ + A·B·x² + B²·x`, whose group of points is Mathlib's.
`B = 1` is the curve itself, a non-square `B` its quadratic twist.
-/

namespace Spec
open WeierstrassCurve

variable {F : Type*} [Field F]

/-- The curve `B·v² = u³ + A·u² + u` in the coordinates `x = B·u`, `y = B²·v`. -/
def montW (A B : F) : Affine F := ⟨0, A * B, 0, B ^ 2, 0⟩

/-- The `u`-coordinate of a point; `0` at infinity, as in RFC 7748. -/
def uCoord {A B : F} : (montW A B).Point → F
  | .zero => 0
  | .some x _ _ => x / B

/-- `(X : Z)` is the `u`-coordinate of the point, with `Z = 0` exactly at infinity. -/
def UCoords {A B : F} (X Z : F) : (montW A B).Point → Prop
  | .zero => X ≠ 0 ∧ Z = 0
  | .some x _ _ => Z ≠ 0 ∧ B * X = x * Z

end Spec
