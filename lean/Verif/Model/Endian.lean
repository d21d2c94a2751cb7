import Verif.Spec.Words

/-!
# Model of `src/0-datum/endian.h`: big-endian loads and stores of words in byte arrays
-/
namespace Endian
abbrev Byte := BitVec 8

/-- `be32toh(((uint32_t const *)in)[i])`. -/
def ld32 (b : List Byte) (i : Nat) : BitVec 32 := b.getD (4 * i) 0 ++ b.getD (4 * i + 1) 0 ++ b.getD (4 * i + 2) 0 ++ b.getD (4 * i + 3) 0

/-- The bytes written by `((uint32_t *)out)[i] = htobe32(w)`. -/
def st32 (w : BitVec 32) : List Byte := [w.extractLsb' 24 8, w.extractLsb' 16 8, w.extractLsb' 8 8, w.extractLsb' 0 8]

/-- `be64toh(((uint64_t const *)in)[i])`. -/
def ld64 (b : List Byte) (i : Nat) : BitVec 64 := ld32 b (2 * i) ++ ld32 b (2 * i + 1)

/-- The bytes written by `((uint64_t *)out)[i] = htobe64(w)`. -/
def st64 (w : BitVec 64) : List Byte := st32 (w.extractLsb' 32 32) ++ st32 (w.extractLsb' 0 32)

end Endian
