/-!
# Specification vocabulary for DER headers
-/
namespace Spec

/-- The library's 32-bit representation of a tag: `BER_TLV_TAG_{UNI,APP,CTX,PRI}(n)`,
class `cls` = 0..3, tag number `n` below `2^28` (`der-codec.h:22-26`). -/
def mkTag (cls : BitVec 2) (n : BitVec 28) : BitVec 32 :=
  0x80000000#32 ||| (cls.setWidth 32 <<< 29) ||| n.setWidth 32

/-- X.690 8.3.2: the content octets of an INTEGER are minimal, and the value is non-negative:
the first nine bits are not all equal and the first bit is 0. -/
def MinimalNonneg (l : List (BitVec 8)) : Prop :=
  ∃ b t, l = b :: t ∧ b.toNat < 128 ∧ (t = [] ∨ b ≠ 0#8 ∨ ∃ b' t', t = b' :: t' ∧ 128 ≤ b'.toNat)

end Spec
