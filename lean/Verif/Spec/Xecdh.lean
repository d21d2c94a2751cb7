import Verif.Spec.Mont
import Verif.Spec.Words
import Mathlib.Algebra.Field.ZMod

/-!
# RFC 7748 section 5: X25519 and X448

`decodeScalar…` and `decodeU…` are the RFC's decoding functions written arithmetically. A number `r`
*is the result* for the scalar `n` and the coordinate `u` when it is the `u`-coordinate of `n • P` for
every point `P` of `u`-coordinate `u`, on the curve or on a twist.
-/

namespace Spec

/-- decodeScalar25519: bits 0, 1, 2 and 255 cleared, bit 254 set. -/
def decodeScalar25519 (k : List (BitVec 8)) : Nat := 2 ^ 254 + 8 * (leNat k / 8 % 2 ^ 251)

/-- decodeScalar448: bits 0 and 1 cleared, bit 447 set. -/
def decodeScalar448 (k : List (BitVec 8)) : Nat := 2 ^ 447 + 4 * (leNat k / 4 % 2 ^ 445)

/-- decodeUCoordinate for 255 bits: the top bit of the last octet is ignored. -/
def decodeU25519 (u : List (BitVec 8)) : Nat := leNat u % 2 ^ 255

/-- decodeUCoordinate for 448 bits. -/
def decodeU448 (u : List (BitVec 8)) : Nat := leNat u

/-- `r` is the `u`-coordinate of `n • P` for every `P` with `u`-coordinate `u`. -/
def IsScaled {q : Nat} [Fact q.Prime] (A : ZMod q) (n : Nat) (u r : ZMod q) : Prop :=
  ∀ B : ZMod q, B ≠ 0 → ∀ P : (montW A B).Point, uCoord P = u → r = uCoord (n • P)

/-- The octets are a result for `n` and `u`: the right residue class, at most `q`, hence the canonical
encoding unless the result is zero (where `q` itself may stand for it). -/
def IsEncodedResult {q : Nat} [Fact q.Prime] (A : ZMod q) (n : Nat) (u : ZMod q) (out : List (BitVec 8)) : Prop :=
  IsScaled A n u (leNat out : ZMod q) ∧ leNat out ≤ q

end Spec
