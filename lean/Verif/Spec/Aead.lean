import Verif.Spec.MD
import Verif.Spec.Words
import Verif.Spec.Poly1305

/-!
# Specification: GCM (SP 800-38D), ChaCha20-Poly1305 (RFC 8439), CCM (SP 800-38C) on byte strings
-/
namespace Spec

/-- `n` bytes of `x`, least significant first. -/
def leN (n x : Nat) : List (BitVec 8) := (List.range n).map fun i => BitVec.ofNat 8 (x / 256 ^ i)

/-- `m` followed by the least number of zero bytes making the length a multiple of `r`. -/
def zeroFill (r : Nat) (m : List (BitVec 8)) : List (BitVec 8) := m ++ List.replicate ((r - m.length % r) % r) 0

/-- `P` exclusive-or the key stream `E 0 || E 1 || ...` made of blocks of `r` bytes. -/
def streamXor (r : Nat) (E : Nat → List (BitVec 8)) (P : List (BitVec 8)) : List (BitVec 8) :=
  xorBytes P ((List.range ((P.length + r - 1) / r)).flatMap E)

/-- GHASH (SP 800-38D, 6.4) with the hash subkey `H`, `mul` being the product of blocks. -/
def ghash (mul : List (BitVec 8) → List (BitVec 8) → List (BitVec 8)) (H : List (BitVec 8)) (m : List (BitVec 8)) : List (BitVec 8) :=
  (blocks 16 m).foldl (fun Y X => mul (xorBytes Y X) H) (List.replicate 16 0)

/-- The GCM ciphertext of `P` for a 12-byte `iv` (7.1, steps 2-3), `E` the keyed block cipher. -/
def gcmCipher (E : List (BitVec 8) → List (BitVec 8)) (iv P : List (BitVec 8)) : List (BitVec 8) :=
  streamXor 16 (fun i => E (iv ++ beN 4 (i + 2))) P

/-- The full 16-byte GCM tag (7.1, steps 1, 2, 4-6). -/
def gcmTag (mul : List (BitVec 8) → List (BitVec 8) → List (BitVec 8)) (E : List (BitVec 8) → List (BitVec 8))
    (iv A C : List (BitVec 8)) : List (BitVec 8) :=
  xorBytes (E (iv ++ beN 4 1))
    (ghash mul (E (List.replicate 16 0)) (zeroFill 16 A ++ zeroFill 16 C ++ beN 8 (8 * A.length) ++ beN 8 (8 * C.length)))

/-- The string authenticated by ChaCha20-Poly1305 (RFC 8439, 2.8). -/
def chachaMacData (A C : List (BitVec 8)) : List (BitVec 8) :=
  zeroFill 16 A ++ zeroFill 16 C ++ leN 8 A.length ++ leN 8 C.length

end Spec

namespace Spec

/-- SP 800-38C, A.2.1: the first block `B_0` for nonce `N`, tag length `t`, message length `n`. -/
def ccmB0 (N A : List (BitVec 8)) (t n : Nat) : List (BitVec 8) :=
  [BitVec.ofNat 8 ((if A = [] then 0 else 64) + 8 * ((t - 2) / 2) + (15 - N.length - 1))] ++ N ++ beN (15 - N.length) n

/-- SP 800-38C, A.2.2: the encoded associated data. -/
def ccmAad (A : List (BitVec 8)) : List (BitVec 8) :=
  if A = [] then []
  else if A.length < 0xFF00 then beN 2 A.length ++ A
  else if A.length < 2 ^ 32 then [0xFF, 0xFE] ++ beN 4 A.length ++ A
  else [0xFF, 0xFF] ++ beN 8 A.length ++ A

/-- SP 800-38C, A.3: counter block `i`. -/
def ccmCtr (N : List (BitVec 8)) (i : Nat) : List (BitVec 8) := [BitVec.ofNat 8 (15 - N.length - 1)] ++ N ++ beN (15 - N.length) i

/-- SP 800-38C, 6.1 steps 1-4: CBC-MAC of the formatted input. -/
def ccmMac (E : List (BitVec 8) → List (BitVec 8)) (N A P : List (BitVec 8)) (t : Nat) : List (BitVec 8) :=
  (blocks 16 (ccmB0 N A t P.length ++ zeroFill 16 (ccmAad A) ++ zeroFill 16 P)).foldl (fun Y B => E (xorBytes B Y)) (List.replicate 16 0)

/-- SP 800-38C, 6.1: the tag, and the ciphertext. -/
def ccmTag (E : List (BitVec 8) → List (BitVec 8)) (N A P : List (BitVec 8)) (t : Nat) : List (BitVec 8) :=
  (xorBytes (ccmMac E N A P t) (E (ccmCtr N 0))).take t

def ccmCipher (E : List (BitVec 8) → List (BitVec 8)) (N P : List (BitVec 8)) : List (BitVec 8) :=
  streamXor 16 (fun i => E (ccmCtr N (i + 1))) P

end Spec
