import Mathlib.Algebra.Field.Basic
import Mathlib.Algebra.Group.Even

/-!
# Twisted Edwards curves `a·x² + y² = 1 + d·x²·y²` (RFC 8032, section 5; Hisil et al. 2008)
-/

namespace Spec

variable {F : Type*} [Field F]

/-- `(x, y)` is on the curve. -/
def OnEd (a d x y : F) : Prop := a * x ^ 2 + y ^ 2 = 1 + d * x ^ 2 * y ^ 2

/-- A point of the curve. -/
@[ext] structure EdPoint (a d : F) where
  x : F
  y : F
  on : OnEd a d x y

/-- The addition law, abscissa. -/
def edAddX (d x1 y1 x2 y2 : F) : F := (x1 * y2 + x2 * y1) / (1 + d * x1 * x2 * y1 * y2)

/-- The addition law, ordinate. -/
def edAddY (a d x1 y1 x2 y2 : F) : F := (y1 * y2 - a * x1 * x2) / (1 - d * x1 * x2 * y1 * y2)

/-- The case in which the addition law has no exceptions: `a` is a nonzero square, `d` is not a square
(and the characteristic is not two). -/
class EdComplete (a d : F) : Prop where
  two : (2 : F) ≠ 0
  ane : a ≠ 0
  asq : IsSquare a
  dns : ¬ IsSquare d

/-- `(X : Y : T : Z)` are extended homogeneous coordinates of the point. -/
def EdCoords {a d : F} (X Y T Z : F) (P : EdPoint a d) : Prop :=
  Z ≠ 0 ∧ X = P.x * Z ∧ Y = P.y * Z ∧ T = P.x * P.y * Z

end Spec
