import Verif.Model.Sponge

/-!
# Model of `src/1-symm/keccak.c.h` as instantiated by `keccak-f-1600.c`

`keccak_state_t` is an array `A[y][x]` of 64-bit words: here a list of 25 words, `A[y][x]` at index `5 * y + x`.
-/

namespace Keccak
abbrev Byte := BitVec 8
abbrev W := BitVec 64
abbrev State := List W

/-- Reading `A[y][x]`. -/
def get (A : State) (y x : Nat) : W := A.getD (5 * y + x) 0
/-- `A[y][x] = v`. -/
def put (A : State) (y x : Nat) (v : W) : State := A.set (5 * y + x) v

/-- `rot`, `keccak.c.h:24-28`. -/
def rot (x : W) (s : Nat) : W :=
  let u := s % 64
  if u ≠ 0 then x <<< u ||| x >>> (64 - u) else x

/-- `while( x >= 5 ) x -= 10;`, `keccak.c.h:35`. -/
def mod5Down : (fuel : Nat) → Int → Int
  | 0, x => x
  | f + 1, x => if x ≥ 5 then mod5Down f (x - 10) else x
/-- `while( x < 0 ) x += 5;`, `keccak.c.h:36`. -/
def mod5Up : (fuel : Nat) → Int → Int
  | 0, x => x
  | f + 1, x => if x < 0 then mod5Up f (x + 5) else x
/-- `mod5`, `keccak.c.h:32-38`; the arguments that occur are between -1 and 20. -/
def mod5 (x : Int) : Nat := (mod5Up 3 (mod5Down 3 x)).toNat

/-- `theta`, `keccak.c.h:62-80`. -/
def theta (A : State) : State :=
  let C := (List.range 5).map fun x => get A 0 x ^^^ get A 1 x ^^^ get A 2 x ^^^ get A 3 x ^^^ get A 4 x
  (List.range 5).foldl (fun A (x : Nat) =>
    let D := C.getD (mod5 ((x : Int) - 1)) 0 ^^^ rot (C.getD (mod5 ((x : Int) + 1)) 0) 1
    (List.range 5).foldl (fun A y => put A y x (get A y x ^^^ D)) A) A

/-- The loop of `rho`, `keccak.c.h:89-96`. -/
def rhoLoop : (n t x y : Nat) → State → State
  | 0, _, _, _, A => A
  | n + 1, t, x, y, A =>
    let x2 := y
    let y2 := mod5 (2 * x + 3 * y)
    let A := put A y x (rot (get A y x) (((t + 1) * (t + 2)) >>> 1))
    rhoLoop n (t + 1) x2 y2 A

/-- `rho`, `keccak.c.h:82-97`. -/
def rho (A : State) : State := rhoLoop 24 0 1 0 A

/-- `pi`, `keccak.c.h:99-132`. -/
def pi (A : State) : State :=
  let u := get A 1 0
  let A := put A 1 0 (get A 0 3)
  let A := put A 0 3 (get A 3 3)
  let A := put A 3 3 (get A 3 2)
  let A := put A 3 2 (get A 2 1)
  let A := put A 2 1 (get A 1 2)
  let A := put A 1 2 (get A 2 0)
  let A := put A 2 0 (get A 0 1)
  let A := put A 0 1 (get A 1 1)
  let A := put A 1 1 (get A 1 4)
  let A := put A 1 4 (get A 4 2)
  let A := put A 4 2 (get A 2 4)
  let A := put A 2 4 (get A 4 0)
  let A := put A 4 0 (get A 0 2)
  let A := put A 0 2 (get A 2 2)
  let A := put A 2 2 (get A 2 3)
  let A := put A 2 3 (get A 3 4)
  let A := put A 3 4 (get A 4 3)
  let A := put A 4 3 (get A 3 0)
  let A := put A 3 0 (get A 0 4)
  let A := put A 0 4 (get A 4 4)
  let A := put A 4 4 (get A 4 1)
  let A := put A 4 1 (get A 1 3)
  let A := put A 1 3 (get A 3 1)
  put A 3 1 u

/-- `chi`, `keccak.c.h:134-153`. -/
def chi (A : State) : State :=
  (List.range 5).foldl (fun A y =>
    let u := get A y 0
    let v := get A y 1
    let A := put A y 0 (get A y 0 ^^^ (~~~get A y 1 &&& get A y 2))
    let A := put A y 1 (get A y 1 ^^^ (~~~get A y 2 &&& get A y 3))
    let A := put A y 2 (get A y 2 ^^^ (~~~get A y 3 &&& get A y 4))
    let A := put A y 3 (get A y 3 ^^^ (~~~get A y 4 &&& u))
    put A y 4 (get A y 4 ^^^ (~~~u &&& v))) A

/-- The loop of `iota`, `keccak.c.h:161-169`: the round constant and `lfsr` afterwards. -/
def iotaLoop (lfsr : BitVec 32) : W × BitVec 32 :=
  (List.range 7).foldl (fun (s : W × BitVec 32) j =>
    let RC := if j ≤ 6 then s.1 ^^^ ((s.2.setWidth 64 &&& 1) <<< (1 <<< j - 1)) else s.1
    let lfsr := s.2 <<< 1
    let lfsr := lfsr ^^^ ((lfsr >>> 8 &&& 1) * 0x71)
    (RC, lfsr &&& 0xff)) (0, lfsr)

/-- One round of the loop of the permutation, `keccak.c.h:194-198`, `iota` being `keccak.c.h:155-177`. -/
def roundStep (rounds : Nat) (s : State × BitVec 32) (ir : Nat) : State × BitVec 32 :=
  let A := if ir + rounds ≥ 24 then chi (pi (rho (theta s.1))) else s.1
  let (RC, lfsr) := iotaLoop s.2
  (if ir + rounds ≥ 24 then put A 0 0 (get A 0 0 ^^^ RC) else A, lfsr)

/-- `le64toh` of word `i` of the input. -/
def ld (b : List Byte) (i : Nat) : W :=
  (List.range 8).foldr (fun k v => v <<< 8 ||| (b.getD (8 * i + k) 0).setWidth 64) 0
/-- The octets of `htole64(v)` in memory. -/
def st (v : W) : List Byte := (List.range 8).map fun k => (v >>> (8 * k)).setWidth 8

/-- `KeccakP1600_Permute_ci`, `keccak.c.h:180-201`, for a non-negative number of rounds. -/
def permute (rounds : Nat) (inp : List Byte) : List Byte :=
  let A := (List.range 25).map (ld inp)
  let s := (List.range 24).foldl (roundStep rounds) (A, 1)
  s.1.flatMap st

/-- `KeccakF1600_Permute`, `keccak.c.h:204-211`. -/
def f1600 : List Byte → List Byte := permute 24
/-- `KeccakP1600nr12_Permute`, `keccak.c.h:213-216`. -/
def p1600nr12 : List Byte → List Byte := permute 12
/-- `KeccakP1600nr14_Permute`, `keccak.c.h:218-221`. -/
def p1600nr14 : List Byte → List Byte := permute 14

end Keccak
