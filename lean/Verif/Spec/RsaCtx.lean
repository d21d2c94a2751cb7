import Verif.Spec.RsaDer

/-!
# Key contexts as memory

A context is a block of 32-bit words; word `f` of its header, if it is an offset, gives the octet at which an integer object starts: a
word count, then that many words, the least significant one first.
-/

namespace Spec

/-- The first word of the object located by the header word `f`. -/
def ctxAt (m : Nat → BitVec 32) (f : Nat) : Nat := (m f).toNat / 4

/-- Its word count. -/
def ctxCount (m : Nat → BitVec 32) (f : Nat) : Nat := (m (ctxAt m f)).toNat

/-- The number it holds. -/
def ctxNat (m : Nat → BitVec 32) (f : Nat) : Nat :=
  ((List.range (ctxCount m f)).map fun t => (m (ctxAt m f + 1 + t)).toNat * 2 ^ (32 * t)).sum

/-- The objects located by the header words `fs` lie between the `hdr` words of the header and the end of a block of `size` octets,
no two of them overlapping. -/
structure LaidOut (m : Nat → BitVec 32) (hdr size : Nat) (fs : List Nat) : Prop where
  header : ∀ f ∈ fs, f < hdr
  aligned : ∀ f ∈ fs, (m f).toNat % 4 = 0
  inside : ∀ f ∈ fs, hdr ≤ ctxAt m f ∧ 4 * (ctxAt m f + 1 + ctxCount m f) ≤ size
  disjoint : ∀ f ∈ fs, ∀ g ∈ fs, f ≠ g →
    ctxAt m f + 1 + ctxCount m f ≤ ctxAt m g ∨ ctxAt m g + 1 + ctxCount m g ≤ ctxAt m f

/-- The numbers of a private-key context, header words as in `rsa.h:22-44`. -/
def ctxNumbers (m : Nat → BitVec 32) : RsaNumbers where
  n := ctxNat m 7
  e := ctxNat m 8
  d := ctxNat m 9
  q := ctxNat m 10
  dQ := ctxNat m 11
  p := ctxNat m 12
  dP := ctxNat m 13
  qInv := ctxNat m 14
  others := (List.range (m 5).toNat).map fun i => (ctxNat m (15 + 3 * i), ctxNat m (16 + 3 * i), ctxNat m (17 + 3 * i))

end Spec
