import Verif.Spec.Der
import Verif.Spec.Words

/-!
# `ECDSA-Sig-Value ::= SEQUENCE { r INTEGER, s INTEGER }` in DER (SEC 1, section C.5), short lengths
-/

namespace Spec

/-- `o` is the DER encoding of the non-negative INTEGER `v`, with a content of less than 128 octets. -/
def IsDerInt (v : Nat) (o : List (BitVec 8)) : Prop :=
  ∃ content, MinimalNonneg content ∧ beNat content = v ∧ content.length < 128 ∧
    o = 0x02#8 :: BitVec.ofNat 8 content.length :: content

/-- `enc` is the DER encoding of the signature `(r, s)`, with a content of less than 128 octets. -/
def IsDerSig (r s : Nat) (enc : List (BitVec 8)) : Prop :=
  ∃ R S, IsDerInt r R ∧ IsDerInt s S ∧ (R ++ S).length < 128 ∧
    enc = 0x30#8 :: BitVec.ofNat 8 (R ++ S).length :: (R ++ S)

end Spec
