/-!
# Specification vocabulary: cutting a message into blocks
-/
namespace Spec

/-- The complete `r`-element blocks of `m`, in order (a trailing incomplete block is left out). -/
def blocks {α : Type} (r : Nat) (m : List α) : List (List α) :=
  (List.range (m.length / r)).map fun i => (m.drop (i * r)).take r

/-- What follows the last complete block. -/
def tailBlock {α : Type} (r : Nat) (m : List α) : List α := m.drop (m.length / r * r)

/-- Byte-wise exclusive or of a (shorter) block onto a state. -/
def xorOnto (s b : List (BitVec 8)) : List (BitVec 8) := s.mapIdx fun i x => x ^^^ b.getD i 0

/-- Byte-wise exclusive or of two strings (as long as the shorter one). -/
def xorBytes (a b : List (BitVec 8)) : List (BitVec 8) := List.zipWith (· ^^^ ·) a b

end Spec

namespace Spec

/-- All blocks of `m` but the last (complete or not) one: for processing that treats the last block
specially. -/
def initBlocks {α : Type} (r : Nat) (m : List α) : List (List α) :=
  (List.range ((m.length - 1) / r)).map fun i => (m.drop (i * r)).take r

/-- The last block: `1..r` elements, or empty if `m` is. -/
def lastBlock {α : Type} (r : Nat) (m : List α) : List α := m.drop ((m.length - 1) / r * r)

/-- A digest cut or zero-filled to `t` bytes. -/
def fitTo (d : List (BitVec 8)) (t : Nat) : List (BitVec 8) := (List.range t).map fun i => d.getD i 0

end Spec
