/-!
# Specification vocabulary: byte-addressed memory
-/
namespace Spec

/-- Memory: a byte at every address. -/
abbrev Mem := Nat → BitVec 8

/-- The `n` bytes at address `p`. -/
def bytesAt (m : Mem) (p n : Nat) : List (BitVec 8) := (List.range n).map fun i => m (p + i)

/-- The memory with the string `s` stored at `p` and everything else unchanged. -/
def storeAt (m : Mem) (p : Nat) (s : List (BitVec 8)) : Mem :=
  fun a => if p ≤ a ∧ a < p + s.length then s.getD (a - p) 0 else m a

/-- The memory with one byte changed. -/
def poke (m : Mem) (p : Nat) (b : BitVec 8) : Mem := fun a => if a = p then b else m a

/-- Input and output areas of `n` bytes at `inp` and `out` are the same, disjoint, or overlap with the output
below the input (as needed by anything that works from low to high addresses). -/
def Streamable (inp out n : Nat) : Prop := out ≤ inp ∨ inp + n ≤ out

end Spec
