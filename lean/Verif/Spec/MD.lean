import Verif.Spec.Blocks

/-!
# Specification: Merkle-Damgard padding and iteration (FIPS 180-4, 5.1, 6; GB/T 32905)
-/
namespace Spec

/-- `n` bytes of `x`, most significant first. -/
def beN (n x : Nat) : List (BitVec 8) := (List.range n).map fun i => BitVec.ofNat 8 (x / 256 ^ (n - 1 - i))

/-- `m || 80 || 00..00 || bit length in lw bytes`, to a multiple of `B` bytes with the least number of
zero bytes. -/
def mdPad (B lw : Nat) (m : List (BitVec 8)) : List (BitVec 8) :=
  m ++ [0x80] ++ List.replicate ((B - (m.length + 1 + lw) % B) % B) 0 ++ beN lw (8 * m.length)

/-- Iterating a compression function over a padded message. -/
def mdHash {σ : Type} (comp : σ → List (BitVec 8) → σ) (H0 : σ) (B lw : Nat) (m : List (BitVec 8)) : σ :=
  (blocks B (mdPad B lw m)).foldl comp H0

end Spec
