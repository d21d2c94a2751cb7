import Verif.Spec.Ecc

/-!
# ECDSA verification (SEC 1, section 4.1.4)
-/

namespace Spec

/-- The point `u₁ G + u₂ Q` of the verification: `u₁ = e/s`, `u₂ = r/s` modulo `n`. -/
noncomputable def ecdsaPoint {p : Nat} [Fact p.Prime] {a b : ZMod p} (n : Nat) (G Q : (shortW a b).Point) (e r s : Nat) :
    (shortW a b).Point :=
  ((e : ZMod n) * (s : ZMod n)⁻¹).val • G + ((r : ZMod n) * (s : ZMod n)⁻¹).val • Q

/-- `(r, s)` is a valid signature of the digest number `e` for the public key `Q`: both are in `1..n-1`, the point is not infinity,
and its `x`-coordinate modulo `n` is `r`. -/
def EcdsaValid {p : Nat} [Fact p.Prime] {a b : ZMod p} (n : Nat) (G Q : (shortW a b).Point) (e r s : Nat) : Prop :=
  1 ≤ r ∧ r < n ∧ 1 ≤ s ∧ s < n ∧ ∃ x y h, ecdsaPoint n G Q e r s = .some x y h ∧ x.val % n = r

end Spec
