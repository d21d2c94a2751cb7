/-!
# Specification vocabulary: bytes of a 32-bit word
-/
namespace Spec

/-- Byte `k` of a word (0 = least significant). -/
def lane (k : Nat) (w : BitVec 32) : BitVec 8 := w.extractLsb' (8 * k) 8

end Spec
