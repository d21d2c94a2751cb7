import Verif.Spec.Ec
import Verif.Spec.Words
import Mathlib.Algebra.Field.ZMod

/-!
# Octet strings for points (SEC 1, section 2.3.4)
-/

namespace Spec


/-- The octets `enc` are an encoding of the affine point `Q` with coordinates of `plen` octets: `04 X Y`, or
`02 X` / `03 X` with the parity of the least non-negative residue `y` in the first octet.  The octets of a coordinate are
read modulo the prime. -/
def EncodesPoint (plen : Nat) {p : Nat} [Fact p.Prime] {a b : ZMod p} (enc : List (BitVec 8)) (Q : (shortW a b).Point) : Prop :=
  ∃ x y h, Q = .some x y h ∧
    ((∃ X Y : List (BitVec 8), X.length = plen ∧ Y.length = plen ∧ enc = 4#8 :: (X ++ Y) ∧
        x = (beNat X : ZMod p) ∧ y = (beNat Y : ZMod p)) ∨
     (∃ (t : BitVec 8) (X : List (BitVec 8)), X.length = plen ∧ enc = t :: X ∧ x = (beNat X : ZMod p) ∧
        (t = 2#8 ∧ y.val % 2 = 0 ∨ t = 3#8 ∧ y.val % 2 = 1)))

end Spec
