import Verif.Spec.Ecc
import Verif.Spec.MD

/-!
# The SM2 signature scheme (GM/T 0003.2)
-/

namespace Spec

/-- The point `s G + t Q` of the verification, `t = (r + s) mod n`. -/
noncomputable def sm2Point {p : Nat} [Fact p.Prime] {a b : ZMod p} (n : Nat) (G Q : (shortW a b).Point) (r s : Nat) :
    (shortW a b).Point :=
  s • G + ((r + s) % n) • Q

/-- `(r, s)` is a valid signature of the digest number `e` for the public key `Q`: both are in `1..n-1`, `t` is not zero,
the point is not infinity, and `e` plus its `x`-coordinate is `r` modulo `n`. -/
def Sm2Valid {p : Nat} [Fact p.Prime] {a b : ZMod p} (n : Nat) (G Q : (shortW a b).Point) (e r s : Nat) : Prop :=
  1 ≤ r ∧ r < n ∧ 1 ≤ s ∧ s < n ∧ (r + s) % n ≠ 0 ∧ ∃ x y h, sm2Point n G Q r s = .some x y h ∧ (e + x.val) % n = r

/-- What is hashed into the identity digest `Z`: the bit length of the identity in two octets, the identity, and `a`, `b`, the
base point and the public key in `plen` octets each. -/
def sm2Z (plen : Nat) (id : List (BitVec 8)) (a b gx gy qx qy : Nat) : List (BitVec 8) :=
  beN 2 (8 * id.length) ++ id ++ beN plen a ++ beN plen b ++ beN plen gx ++ beN plen gy ++ beN plen qx ++ beN plen qy

end Spec
