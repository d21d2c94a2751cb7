import Verif.Spec.Words

/-!
# Specification: Poly1305 (RFC 8439, 2.5)
-/
namespace Spec

/-- The prime of Poly1305. -/
def p1305 : Nat := 2 ^ 130 - 5

/-- The 128-bit mask applied to `r`. -/
def clampMask : Nat := 0x0ffffffc0ffffffc0ffffffc0fffffff

/-- The accumulator after absorbing 16-byte blocks: `acc = (acc + block + 2^128) * r mod p`. -/
def poly1305Acc (r : Nat) : (acc : Nat) → List (List (BitVec 8)) → Nat
  | acc, [] => acc
  | acc, b :: bs => poly1305Acc r ((acc + (leNat b + 2 ^ 128)) * r % p1305) bs

/-- The tag of a sequence of 16-byte blocks under the 32-byte key `k`, as a number below 2^128. -/
def poly1305 (k : List (BitVec 8)) (blocks : List (List (BitVec 8))) : Nat :=
  (poly1305Acc (leNat (k.take 16) &&& clampMask) 0 blocks + leNat ((k.drop 16).take 16)) % 2 ^ 128

end Spec
