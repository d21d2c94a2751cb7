import Mathlib.Algebra.Polynomial.Div
import Mathlib.Data.ZMod.Basic

/-!
# Specification: the field of GHASH (SP 800-38D, 6.3)
-/
namespace Spec
open Polynomial

/-- The polynomial over GF(2) denoted by a block of sixteen bytes: bit `i` of the block, counted from the most
significant bit of the first byte, is the coefficient of `x^i`. -/
noncomputable def gfPoly (b : List (BitVec 8)) : (ZMod 2)[X] :=
  ∑ i ∈ Finset.range 128, C (if (b.getD (i / 8) 0).getMsbD (i % 8) then 1 else 0) * X ^ i

/-- The modulus. -/
noncomputable def gfMod : (ZMod 2)[X] := X ^ 128 + X ^ 7 + X ^ 2 + X + 1

/-- `c` is the block denoting the product of the elements denoted by the blocks `a` and `b`. -/
def IsGfProduct (a b c : List (BitVec 8)) : Prop :=
  c.length = 16 ∧ gfPoly c = (gfPoly a * gfPoly b) %ₘ gfMod

end Spec
