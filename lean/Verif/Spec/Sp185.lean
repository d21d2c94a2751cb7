import Verif.Spec.Keccak
import Verif.Spec.Sponge

/-!
# Specification: cSHAKE, KMAC and KMACXOF (NIST SP 800-185, sections 3 and 4) over FIPS 202

`X` is a bit string; names, customisation strings and keys are octet strings (the library takes no others).  `L` is in bits.
-/
namespace Spec.Sp185
abbrev Str := List (BitVec 8)

/-- cSHAKE128 (3.3). -/
def cshake128 (X : List Bool) (L : Nat) (N S : Str) : List Bool :=
  if N = [] ∧ S = [] then Keccak.shake128 X L
  else Keccak.keccak 256 (Keccak.bits (bytepad (encodeString N ++ encodeString S) 168) ++ X ++ [false, false]) L

/-- cSHAKE256 (3.3). -/
def cshake256 (X : List Bool) (L : Nat) (N S : Str) : List Bool :=
  if N = [] ∧ S = [] then Keccak.shake256 X L
  else Keccak.keccak 512 (Keccak.bits (bytepad (encodeString N ++ encodeString S) 136) ++ X ++ [false, false]) L

/-- The octets of "KMAC". -/
def name : Str := [0x4B, 0x4D, 0x41, 0x43]

/-- KMAC128 and KMAC256 (4.3). -/
def kmac128 (K : Str) (X : List Bool) (L : Nat) (S : Str) : List Bool :=
  cshake128 (Keccak.bits (bytepad (encodeString K) 168) ++ X ++ Keccak.bits (rightEncode L)) L name S
def kmac256 (K : Str) (X : List Bool) (L : Nat) (S : Str) : List Bool :=
  cshake256 (Keccak.bits (bytepad (encodeString K) 136) ++ X ++ Keccak.bits (rightEncode L)) L name S

/-- KMACXOF128 and KMACXOF256 (4.3.1). -/
def kmacxof128 (K : Str) (X : List Bool) (L : Nat) (S : Str) : List Bool :=
  cshake128 (Keccak.bits (bytepad (encodeString K) 168) ++ X ++ Keccak.bits (rightEncode 0)) L name S
def kmacxof256 (K : Str) (X : List Bool) (L : Nat) (S : Str) : List Bool :=
  cshake256 (Keccak.bits (bytepad (encodeString K) 136) ++ X ++ Keccak.bits (rightEncode 0)) L name S

end Spec.Sp185
