import Verif.Spec.EdLaw
import Verif.Spec.Aead
import Verif.Spec.Words
import Verif.Spec.Xecdh
import Mathlib.Algebra.Field.ZMod

/-!
# EdDSA (RFC 8032)

`b` is the number of octets of an encoded point (32 for Ed25519, 57 for Ed448), `n` the number of bits of `y` (255 and 448),
`H` the hash function with an output of `2 b` octets (SHA-512, SHAKE256), `B` the base point and `L` its order.
-/

namespace Spec

section
variable {p : Nat} [Fact p.Prime] {a d : ZMod p}

/-- The encoding of a point (sections 5.1.2 and 5.2.2): `y` in `b` octets, the least significant first, with the parity of `x`
in the most significant bit of the last octet. -/
def edEncode (b : Nat) (Q : EdPoint a d) : List (BitVec 8) :=
  leN b (Q.y.val + 2 ^ (8 * b - 1) * (Q.x.val % 2))

/-- Some octets name a point: the low `n` bits are congruent to its `y`, the top bit is the parity of its `x`.  (RFC 8032 also
demands that the low bits be less than `p` and that the bits between be zero.) -/
def EdNames (b n : Nat) (buf : List (BitVec 8)) (Q : EdPoint a d) : Prop :=
  buf.length = b ∧ Q.y = ((leNat buf % 2 ^ n : Nat) : ZMod p) ∧ Q.x.val % 2 = leNat buf / 2 ^ (8 * b - 1)
end

/-- The octets with the bits between the low `n` and the top one cleared (there are none for Ed25519). -/
def edTrim (b n : Nat) (buf : List (BitVec 8)) : List (BitVec 8) :=
  leN b (leNat buf % 2 ^ n + 2 ^ (8 * b - 1) * (leNat buf / 2 ^ (8 * b - 1)))

/-- The secret scalar (sections 5.1.5 and 5.2.5): the low half of the hash, pruned.  Ed25519: of the first 32 octets the low three
bits and the top bit are cleared and the second highest bit is set; Ed448: of the first 56 octets the low two bits are cleared and
the top bit is set. -/
def edScalar (b : Nat) (h : List (BitVec 8)) : Nat :=
  if b = 32 then decodeScalar25519 (h.take 32) else decodeScalar448 (h.take 56)

/-- The octets of an ASCII string. -/
def ascii (s : String) : List (BitVec 8) := s.toList.map fun ch => BitVec.ofNat 8 ch.toNat

/-- `dom2(f, c)` and `dom4(f, c)` (section 2); empty for Ed25519 itself (no flag and no context). -/
def edDom (b : Nat) (f : BitVec 8) (ctx : List (BitVec 8)) : List (BitVec 8) :=
  if b = 32 then
    if f = 0 ∧ ctx = [] then [] else ascii "SigEd25519 no Ed25519 collisions" ++ [f, BitVec.ofNat 8 ctx.length] ++ ctx
  else ascii "SigEd448" ++ [f, BitVec.ofNat 8 ctx.length] ++ ctx

section
variable {p : Nat} [Fact p.Prime] {a d : ZMod p} [EdComplete a d]

/-- The signature of `msg` (sections 5.1.6 and 5.2.6) under the secret scalar `s`, the prefix `pre` and the encoded public key `A`. -/
def edSign (b L : Nat) (B : EdPoint a d) (H : List (BitVec 8) → List (BitVec 8)) (dom pre A : List (BitVec 8)) (s : Nat)
    (msg : List (BitVec 8)) : List (BitVec 8) :=
  let r := leNat (H (dom ++ pre ++ msg)) % L
  let R := edEncode b (r • B)
  let k := leNat (H (dom ++ R ++ A ++ msg)) % L
  R ++ leN b ((r + k * s) % L)

/-- The verification equation (sections 5.1.7 and 5.2.7, without the cofactor): `sig` is a point `R` and a number `S < L` with
`S B = R + k A`; `A` are the octets of the public key and `Q` is its point. -/
def EdValid (b n L : Nat) (B : EdPoint a d) (H : List (BitVec 8) → List (BitVec 8)) (dom A : List (BitVec 8)) (Q : EdPoint a d)
    (msg sig : List (BitVec 8)) : Prop :=
  sig.length = 2 * b ∧ leNat (sig.drop b) < L ∧
    ∃ R : EdPoint a d, EdNames b n (sig.take b) R ∧
      leNat (sig.drop b) • B = R + (leNat (H (dom ++ edTrim b n (sig.take b) ++ edTrim b n A ++ msg)) % L) • Q
end

end Spec
