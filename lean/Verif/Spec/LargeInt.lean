import Verif.Spec.Words

/-! # Integers in memory words, for `largeint.c` -/
namespace Spec

/-- The octets of a word of memory in the order of their addresses, on a little-endian host. -/
def memOctets (w : BitVec 32) : List (BitVec 8) := [w.extractLsb' 0 8, w.extractLsb' 8 8, w.extractLsb' 16 8, w.extractLsb' 24 8]

/-- The number stored in `len` words of memory from address `p`, the most significant word first or last, the most significant octet of a
word first or last. -/
def memNat (s : Nat → BitVec 32) (p len : Nat) (msw msb : Bool) : Nat :=
  let words := (List.range len).map fun k => s (p + k)
  let words := if msw then words.reverse else words
  leNat (words.flatMap fun w => if msb then (memOctets w).reverse else memOctets w)

end Spec
