import Verif.Spec.Der
import Verif.Spec.Words

/-!
# RSA keys in DER (RFC 8017, appendix A.1; X.690)
-/

namespace Spec

/-- The length octets of DER (X.690, 8.1.3 and 10.1): the short form below 128, else the long form without leading zero octets. -/
def IsDerLen (n : Nat) (o : List (BitVec 8)) : Prop :=
  (n < 128 ∧ o = [BitVec.ofNat 8 n]) ∨
  (128 ≤ n ∧ ∃ b t, o = BitVec.ofNat 8 (128 + (b :: t).length) :: b :: t ∧ (b :: t).length < 127 ∧ b ≠ 0#8 ∧ beNat (b :: t) = n)

/-- An identifier octet, the length of the contents, the contents. -/
def IsDerTlv (tag : BitVec 8) (content o : List (BitVec 8)) : Prop :=
  ∃ L, IsDerLen content.length L ∧ o = tag :: (L ++ content)

/-- A non-negative INTEGER. -/
def IsDerNat (v : Nat) (o : List (BitVec 8)) : Prop :=
  ∃ c, MinimalNonneg c ∧ beNat c = v ∧ IsDerTlv 0x02#8 c o

/-- INTEGERs one after the other. -/
def IsDerNats : List Nat → List (BitVec 8) → Prop
  | [], o => o = []
  | v :: vs, o => ∃ a b, IsDerNat v a ∧ IsDerNats vs b ∧ o = a ++ b

/-- `RSAPublicKey ::= SEQUENCE { modulus, publicExponent }`. -/
def IsDerPub (n e : Nat) (o : List (BitVec 8)) : Prop := ∃ c, IsDerNats [n, e] c ∧ IsDerTlv 0x30#8 c o

/-- The numbers of an `RSAPrivateKey`; `others` are the prime, exponent and coefficient of the primes after the second. -/
structure RsaNumbers where
  n : Nat
  e : Nat
  d : Nat
  p : Nat
  q : Nat
  dP : Nat
  dQ : Nat
  qInv : Nat
  others : List (Nat × Nat × Nat)

/-- `OtherPrimeInfo ::= SEQUENCE { prime, exponent, coefficient }`, one after the other. -/
def IsDerInfos : List (Nat × Nat × Nat) → List (BitVec 8) → Prop
  | [], o => o = []
  | (r, d, t) :: l, o => ∃ c a b, IsDerNats [r, d, t] c ∧ IsDerTlv 0x30#8 c a ∧ IsDerInfos l b ∧ o = a ++ b

/-- `RSAPrivateKey`: version 0 for two primes, version 1 and `OtherPrimeInfos` for more. -/
def IsDerPriv (k : RsaNumbers) (o : List (BitVec 8)) : Prop :=
  ∃ c s, IsDerNats [if k.others = [] then 0 else 1, k.n, k.e, k.d, k.p, k.q, k.dP, k.dQ, k.qInv] c ∧
    (if k.others = [] then s = [] else ∃ i, IsDerInfos k.others i ∧ IsDerTlv 0x30#8 i s) ∧
    IsDerTlv 0x30#8 (c ++ s) o

end Spec
