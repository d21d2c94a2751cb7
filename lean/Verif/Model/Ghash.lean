import Verif.Spec.Blocks

/-!
# Model of `src/1-symm/galois128.c`

Only the portable implementation (`galois128_hash1block_ci`); the intrinsic ones are not modelled.
-/
namespace Ghash
abbrev Byte := BitVec 8
abbrev D := BitVec 64

/-- `galois128_t`, `galois128.c:6-8`. -/
structure G where
  w0 : D
  w1 : D

/-- `be64toh(((const uint64_t *)ptr)[k])`: eight bytes, first one most significant. -/
def be64 (p : List Byte) (k : Nat) : D :=
  p.getD (8 * k) 0 ++ p.getD (8 * k + 1) 0 ++ p.getD (8 * k + 2) 0 ++ p.getD (8 * k + 3) 0 ++ p.getD (8 * k + 4) 0 ++
    p.getD (8 * k + 5) 0 ++ p.getD (8 * k + 6) 0 ++ p.getD (8 * k + 7) 0

/-- The eight bytes of `htobe64(v)` in memory. -/
def put64 (v : D) : List Byte :=
  [(v >>> 56).setWidth 8, (v >>> 48).setWidth 8, (v >>> 40).setWidth 8, (v >>> 32).setWidth 8, (v >>> 24).setWidth 8,
    (v >>> 16).setWidth 8, (v >>> 8).setWidth 8, v.setWidth 8]

/-- `galois128_load`, `galois128.c:10-17`. -/
def load (p : List Byte) : G := ⟨be64 p 0, be64 p 1⟩

/-- `galois128_store`, `galois128.c:19-24`. -/
def store (v : G) : List Byte := put64 v.w0 ++ put64 v.w1

/-- `galois128_x`, `galois128.c:26-37`. -/
def gx (Y : G) : G :=
  let mask := Y.w1 &&& 1#64
  let mask := ~~~ (mask - 1#64)
  let x := 0xE100000000000000#64 &&& mask
  { w1 := Y.w1 >>> 1 ||| Y.w0 <<< 63, w0 := Y.w0 >>> 1 ^^^ x }

/-- The body of the loop of `galois128_mul`, `galois128.c:44-55`; the state is `(Z, Y)`. -/
def mulStep (X : G) (s : G × G) (i : Nat) : G × G :=
  let mask := (if i / 64 = 0 then X.w0 else X.w1) >>> (63 - (i &&& 63))
  let mask := mask &&& 1#64
  let mask := ~~~ (mask - 1#64)
  (⟨s.1.w0 ^^^ (s.2.w0 &&& mask), s.1.w1 ^^^ (s.2.w1 &&& mask)⟩, gx s.2)

/-- `galois128_mul`, `galois128.c:39-59`. -/
def mul (X Y : G) : G := ((List.range 128).foldl (mulStep X) (⟨0, 0⟩, Y)).1

/-- `galois128_hash1block_ci(Y, H, X)` with three non-NULL blocks, `galois128.c:61-76`: the new contents of `Y`. -/
def hash1block (Y H X : List Byte) : List Byte :=
  let y := load Y
  let h := load H
  let x := load X
  store (mul ⟨y.w0 ^^^ x.w0, y.w1 ^^^ x.w1⟩ h)

end Ghash
