import Verif.Spec.Blocks
import Mathlib.Data.Nat.Log
import Mathlib.Logic.Function.Iterate

/-!
# Specification: the FIPS 202 sponge and the SP 800-185 string encodings, on byte strings
-/
namespace Spec

/-- Multi-rate padding including the domain-separation bits, on bytes: from offset `q` of a block of
`r` bytes.  `lo` carries the domain bits and the first `1` bit, `hi = 0x80` the last `1` bit
(FIPS 202, B.2). -/
def spongePad (r : Nat) (lo hi : BitVec 8) (q : Nat) : List (BitVec 8) :=
  if q + 1 = r then [lo ^^^ hi] else lo :: List.replicate (r - 2 - q) 0 ++ [hi]

/-- Absorbing the complete blocks of a padded message (FIPS 202, algorithm 8, steps 1-6). -/
def absorb (perm : List (BitVec 8) → List (BitVec 8)) (r : Nat) (st m : List (BitVec 8)) :
    List (BitVec 8) :=
  (blocks r m).foldl (fun s b => perm (xorOnto s b)) st

/-- Byte `k` of the squeezed stream (algorithm 8, steps 7-10). -/
def squeezeByte (perm : List (BitVec 8) → List (BitVec 8)) (r : Nat) (st : List (BitVec 8)) (k : Nat) :
    BitVec 8 :=
  (perm^[k / r] st).getD (k % r) 0

/-- Byte `k` of the sponge stream of message `m`, starting from an all-zero state of `blk` bytes. -/
def spongeStream (perm : List (BitVec 8) → List (BitVec 8)) (r blk : Nat) (lo hi : BitVec 8)
    (m : List (BitVec 8)) (k : Nat) : BitVec 8 :=
  squeezeByte perm r
    (absorb perm r (List.replicate blk 0) (m ++ spongePad r lo hi (m.length % r))) k

/-- The first `n` bytes of a stream. -/
def prefixOf (stream : Nat → BitVec 8) (n : Nat) : List (BitVec 8) := (List.range n).map stream

/-- `n` bytes, most significant first. -/
def beBytes (n x : Nat) : List (BitVec 8) := (List.range n).map fun i => BitVec.ofNat 8 (x / 256 ^ (n - 1 - i))

/-- Number of bytes of `x`, at least one: the least `n ≥ 1` with `x < 256^n`. -/
def nbytes (x : Nat) : Nat := Nat.log 256 x + 1

/-- SP 800-185 2.3.1. -/
def leftEncode (x : Nat) : List (BitVec 8) := BitVec.ofNat 8 (nbytes x) :: beBytes (nbytes x) x

/-- SP 800-185 2.3.1. -/
def rightEncode (x : Nat) : List (BitVec 8) := beBytes (nbytes x) x ++ [BitVec.ofNat 8 (nbytes x)]

/-- SP 800-185 2.3.2, lengths in bits. -/
def encodeString (s : List (BitVec 8)) : List (BitVec 8) := leftEncode (8 * s.length) ++ s

/-- Zero bytes up to the next multiple of `w`: none if already there. -/
def zeroPad (w n : Nat) : List (BitVec 8) := List.replicate ((w - n % w) % w) 0

/-- SP 800-185 2.3.3. -/
def bytepad (x : List (BitVec 8)) (w : Nat) : List (BitVec 8) :=
  leftEncode w ++ x ++ zeroPad w (leftEncode w ++ x).length

/-- SP 800-185 3.3: the message given to the sponge by cSHAKE with a non-empty `N` or `S`. -/
def cshakeMsg (r : Nat) (N S X : List (BitVec 8)) : List (BitVec 8) :=
  bytepad (encodeString N ++ encodeString S) r ++ X

/-- SP 800-185 4.3: the cSHAKE message of `KMAC` (`L` bits requested; 0 for KMACXOF). -/
def kmacMsg (r : Nat) (K S X : List (BitVec 8)) (L : Nat) : List (BitVec 8) :=
  cshakeMsg r [0x4B, 0x4D, 0x41, 0x43] S (bytepad (encodeString K) r ++ X ++ rightEncode L)

end Spec
