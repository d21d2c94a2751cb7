/-!
# Specification vocabulary: numeric values of word and byte strings

Nothing here refers to the model of the code.
-/

namespace Spec

/-- The natural number denoted by a little-endian list of 32-bit words. -/
def val : List (BitVec 32) → Nat
  | [] => 0
  | w :: l => w.toNat + 2 ^ 32 * val l

/-- The integer denoted by the same words read as two's complement
(the sign is the most significant bit of the last word). -/
def sval (l : List (BitVec 32)) : Int :=
  if 2 * val l < 2 ^ (32 * l.length) then (val l : Int)
  else (val l : Int) - 2 ^ (32 * l.length)

/-- The natural number denoted by a little-endian byte string. -/
def leNat : List (BitVec 8) → Nat
  | [] => 0
  | b :: l => b.toNat + 256 * leNat l

/-- The natural number denoted by a big-endian byte string. -/
def beNat (l : List (BitVec 8)) : Nat := leNat l.reverse

end Spec
