import Verif.Model.RsaDer

/-!
# Objects laid out in one block of memory (specification)

A part of a block is a range of 32-bit words.  The parts of a working context are found by following the offsets that are in the block itself; an
integer is a word count followed by that many words.
-/

namespace Layout
open RsaDer (Mem)

/-- A range of words: where it begins and how many words it has. -/
abbrev Region := Nat × Nat

/-- The parts do not overlap one another and are all within a block of `size` octets. -/
def Apart (rs : List Region) (size : Nat) : Prop :=
  rs.Pairwise (fun a b => a.1 + a.2 ≤ b.1 ∨ b.1 + b.2 ≤ a.1) ∧ ∀ r ∈ rs, 4 * (r.1 + r.2) ≤ size

/-- The integer at word `i`: its word count and its words. -/
def intAt (m : Mem) (i : Nat) : Region := (i, 1 + (m i).toNat)

/-- The word at which the part begins whose offset, in octets from the word `base`, is in the word `f`. -/
def part (m : Mem) (base f : Nat) : Nat := base + (m f).toNat / 4

/-- Where the integers of an object begin that starts, at word `base`, with `n` offsets. -/
def objInts (m : Mem) (base n : Nat) : List Nat := (List.range n).map fun i => part m base (base + i)

/-- The header and the integers of an object that starts, at word `base`, with `n` offsets. -/
def objRegions (m : Mem) (base n : Nat) : List Region := (base, n) :: (objInts m base n).map (intAt m)

/-- Where the integers begin of a context with offsets to single integers in the words `fi` and, in the words `fo`, to objects of a number of
integers each. -/
def ctxInts (m : Mem) (fi : List Nat) (fo : List (Nat × Nat)) : List Nat :=
  fi.map (part m 0) ++ fo.flatMap fun f => objInts m (part m 0 f.1) f.2

/-- The parts of that context: `head` words of header and hash function state, the single integers, the objects. -/
def ctxRegions (m : Mem) (head : Nat) (fi : List Nat) (fo : List (Nat × Nat)) : List Region :=
  (0, head) :: fi.map (fun f => intAt m (part m 0 f)) ++ fo.flatMap fun f => objRegions m (part m 0 f.1) f.2

/-- The value that two words of memory hold, 64 bits little-endian. -/
def long (m : Mem) (i : Nat) : BitVec 64 := m (i + 1) ++ m i

end Layout
