import Verif.Spec.Sponge

/-!
# Specification: KangarooTwelve (RFC 9861, section 3; KT256 and MarsupilamiFourteen differ in the permutation and the capacity)
-/
namespace Spec.K12
abbrev Byte := BitVec 8

/-- The pieces of `n` bytes of a string, the last one possibly shorter. -/
def chunks (n : Nat) (m : List Byte) : List (List Byte) := (List.range ((m.length + (n - 1)) / n)).map fun i => (m.drop (i * n)).take n

/-- The least `l` with `x < 256^l`. -/
def lenBytes (x : Nat) : Nat := if x = 0 then 0 else nbytes x

/-- `length_encode`, RFC 9861 3.3. -/
def lengthEncode (x : Nat) : List Byte := beBytes (lenBytes x) x ++ [BitVec.ofNat 8 (lenBytes x)]

/-- TurboSHAKE with domain byte `D`: byte `k` of the output (RFC 9861, section 2). -/
def turbo (perm : List Byte → List Byte) (rate : Nat) (D : Byte) (m : List Byte) (k : Nat) : Byte := spongeStream perm rate 200 D 0x80 m k

/-- The chaining value of a chunk. -/
def cv (perm : List Byte → List Byte) (rate : Nat) (c : List Byte) : List Byte := prefixOf (turbo perm rate 0x0B c) (200 - rate)

/-- The final node of a long input. -/
def finalNode (perm : List Byte → List Byte) (rate : Nat) (S : List Byte) : List Byte :=
  S.take 8192 ++ [0x03, 0, 0, 0, 0, 0, 0, 0] ++ ((chunks 8192 (S.drop 8192)).flatMap (cv perm rate)) ++
    lengthEncode ((chunks 8192 S).length - 1) ++ [0xff, 0xff]

/-- Byte `k` of the output for message `M` and customisation string `C`. -/
def stream (perm : List Byte → List Byte) (rate : Nat) (M C : List Byte) (k : Nat) : Byte :=
  let S := M ++ C ++ lengthEncode C.length
  if S.length ≤ 8192 then turbo perm rate 0x07 S k else turbo perm rate 0x06 (finalNode perm rate S) k

end Spec.K12
