import Mathlib.Data.Fin.Basic
import Mathlib.Data.ZMod.Defs

/-!
# Specification: the Keccak-p[1600, nr] permutations, the sponge, SHA-3 and SHAKE, on bit strings (FIPS 202)
-/

namespace Spec.Keccak

/-- A state array: `A x y z`.  Indices are modulo 5, 5 and 64 (arithmetic on `Fin` wraps around). -/
abbrev Arr := Fin 5 → Fin 5 → Fin 64 → Bool

/-- Algorithm 1. -/
def theta (A : Arr) : Arr :=
  let C := fun x z => A x 0 z ^^ A x 1 z ^^ A x 2 z ^^ A x 3 z ^^ A x 4 z
  let D := fun x z => C (x - 1) z ^^ C (x + 1) (z - 1)
  fun x y z => A x y z ^^ D x z

/-- The lane visited at step `t` of Algorithm 2. -/
def rhoPos : Nat → Fin 5 × Fin 5
  | 0 => (1, 0)
  | t + 1 => let (x, y) := rhoPos t; (y, 2 * x + 3 * y)

/-- By how much Algorithm 2 shifts a lane: `(t+1)(t+2)/2` if it is visited at step `t`. -/
def rhoOff (x y : Fin 5) : Nat :=
  match (List.range 24).find? fun t => rhoPos t == (x, y) with
  | some t => (t + 1) * (t + 2) / 2
  | none => 0

/-- Algorithm 2. -/
def rho (A : Arr) : Arr := fun x y z => A x y (z - Fin.ofNat 64 (rhoOff x y))

/-- Algorithm 3. -/
def pi (A : Arr) : Arr := fun x y z => A (x + 3 * y) x z

/-- Algorithm 4. -/
def chi (A : Arr) : Arr := fun x y z => A x y z ^^ ((A (x + 1) y z ^^ true) && A (x + 2) y z)

/-- One step of the shift register of Algorithm 5, on the bits `R[0] .. R[7]`. -/
def lfsrStep (R : List Bool) : List Bool :=
  let R := false :: R
  let R := R.set 0 (R.getD 0 false ^^ R.getD 8 false)
  let R := R.set 4 (R.getD 4 false ^^ R.getD 8 false)
  let R := R.set 5 (R.getD 5 false ^^ R.getD 8 false)
  let R := R.set 6 (R.getD 6 false ^^ R.getD 8 false)
  R.take 8

/-- Algorithm 5. -/
def rc (t : Nat) : Bool :=
  (Nat.repeat lfsrStep (t % 255) [true, false, false, false, false, false, false, false]).getD 0 false

/-- The bits of the round constant of Algorithm 6: `RC[2^j - 1] = rc (j + 7 ir)` for `j` from 0 to 6, the others are zero. -/
def RC (ir : Nat) (z : Fin 64) : Bool :=
  (List.range 7).any fun j => z.val == 2 ^ j - 1 && rc (j + 7 * ir)

/-- Algorithm 6. -/
def iota (ir : Nat) (A : Arr) : Arr := fun x y z => if x = 0 ∧ y = 0 then A x y z ^^ RC ir z else A x y z

/-- `Rnd`, 3.3. -/
def rnd (A : Arr) (ir : Nat) : Arr := iota ir (chi (pi (rho (theta A))))

/-- The state array of a bit string (3.1.2) and back (3.1.3). -/
def toArr (S : List Bool) : Arr := fun x y z => S.getD (64 * (5 * y.val + x.val) + z.val) false
def ofArr (A : Arr) : List Bool :=
  (List.finRange 5).flatMap fun y => (List.finRange 5).flatMap fun x => (List.finRange 64).map fun z => A x y z

/-- Keccak-p[1600, nr], Algorithm 7: the rounds `24 - nr` to `23`. -/
def keccakP (nr : Nat) (S : List Bool) : List Bool := ofArr ((List.range' (24 - nr) nr).foldl rnd (toArr S))

/-! ## The sponge and the functions built on it -/

/-- `pad10*1`, Algorithm 9: `j` is the least non-negative number with `m + j + 2` a multiple of `x`. -/
def pad101 (x m : Nat) : List Bool :=
  let j := (x - (m + 2) % x) % x
  true :: List.replicate j false ++ [true]

/-- The blocks of `r` bits of a string. -/
def blocks (r : Nat) (P : List Bool) : List (List Bool) := (List.range (P.length / r)).map fun i => (P.drop (i * r)).take r

/-- Exclusive or with a block extended by zeros. -/
def xorBlock (S P : List Bool) : List Bool := List.zipWith (· ^^ ·) S (P ++ List.replicate (S.length - P.length) false)

/-- Steps 8 to 10 of Algorithm 8: the blocks of `r` bits that are squeezed out, `n` of them. -/
def squeeze (f : List Bool → List Bool) (r : Nat) : (n : Nat) → List Bool → List Bool
  | 0, _ => []
  | n + 1, S => S.take r ++ squeeze f r n (f S)

/-- `SPONGE[f, pad10*1, r](N, d)`, Algorithm 8, for a state of 1600 bits. -/
def sponge (f : List Bool → List Bool) (r : Nat) (N : List Bool) (d : Nat) : List Bool :=
  let P := N ++ pad101 r N.length
  let S := (blocks r P).foldl (fun S p => f (xorBlock S p)) (List.replicate 1600 false)
  (squeeze f r ((d + r - 1) / r) S).take d

/-- `KECCAK[c](N, d)`, 5.2. -/
def keccak (c : Nat) (N : List Bool) (d : Nat) : List Bool := sponge (keccakP 24) (1600 - c) N d

/-- SHA3-`d` (6.1) and SHAKE (6.2). -/
def sha3 (d : Nat) (M : List Bool) : List Bool := keccak (2 * d) (M ++ [false, true]) d
def shake128 (M : List Bool) (d : Nat) : List Bool := keccak 256 (M ++ [true, true, true, true]) d
def shake256 (M : List Bool) (d : Nat) : List Bool := keccak 512 (M ++ [true, true, true, true]) d

/-- The bit string of an octet string (B.1): the least significant bit of an octet comes first. -/
def bits (m : List (BitVec 8)) : List Bool := m.flatMap fun b => (List.range 8).map fun i => b.getLsbD i

end Spec.Keccak
