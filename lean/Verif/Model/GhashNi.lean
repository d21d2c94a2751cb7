import Verif.Spec.Intrinsics
import Verif.Model.Ghash

/-!
# Model of `src/1-symm/galois128-x86.c`, `galois128-arm.c` and `galois128-ppc.c`

Vector values are 128-bit words; the instructions are those of `Spec/Intrinsics.lean`.
-/
namespace Ghash
open Spec.Isa

/-- `bytes_mirror`, `galois128-x86.c:6-12`. -/
def mirrorX86 (x : V) : V :=
  let x := srli16 (x &&& set1 0xaa#8) 1 ||| slli16 (x &&& set1 0x55#8) 1
  let x := srli16 (x &&& set1 0xcc#8) 2 ||| slli16 (x &&& set1 0x33#8) 2
  srli16 (x &&& set1 0xf0#8) 4 ||| slli16 (x &&& set1 0x0f#8) 4

/-- `galois128_mul_x86`, `galois128-x86.c:14-40`. -/
def mulX86 (x y : V) : V :=
  let p := 0x87#128
  let x := mirrorX86 x
  let y := mirrorX86 y
  let a := clmulepi64 x y 0x00#8
  let b := clmulepi64 x y 0x01#8
  let b := b ^^^ clmulepi64 x y 0x10#8
  let a := a ^^^ slliSi b 8
  let c := clmulepi64 p b 0x10#8
  let a := a ^^^ c
  let b := clmulepi64 x y 0x11#8
  let c := clmulepi64 p b 0x00#8
  let a := a ^^^ c
  let c := clmulepi64 p b 0x10#8
  let a := a ^^^ slliSi c 8
  let c := clmulepi64 p c 0x10#8
  let a := a ^^^ c
  mirrorX86 a

/-- `galois128_hash1block_ni`, `galois128-x86.c:42-52`: the new contents of `Y`; `X` may be NULL. -/
def hash1blockX86 (Y H : List Byte) (X : Option (List Byte)) : List Byte :=
  let y := Spec.Isa.load Y
  let y := match X with
    | some X => y ^^^ Spec.Isa.load X
    | none => y
  let h := Spec.Isa.load H
  Spec.Isa.store (mulX86 y h)

/-- The mask built at `galois128-arm.c:12-15`, `:18-21`, `:24-27` and `galois128-ppc.c:15-18`, `:21-24`, `:27-30`. -/
def spread (m : V) : V :=
  let m := m <<< 16 ||| m
  let m := m <<< 32 ||| m
  m <<< 64 ||| m

/-- `bytes_mirror`, `galois128-arm.c:8-31`, and the same on the element of a one-element vector, `galois128-ppc.c:11-34`. -/
def mirrorArm (x : V) : V :=
  let mask := spread 0xaaaa#128
  let x := (x &&& mask) >>> 1 ||| (x &&& mask >>> 1) <<< 1
  let mask := spread 0xcccc#128
  let x := (x &&& mask) >>> 2 ||| (x &&& mask >>> 2) <<< 2
  let mask := spread 0xf0f0#128
  (x &&& mask) >>> 4 ||| (x &&& mask >>> 4) <<< 4

/-- `galois128_mul_arm`, `galois128-arm.c:33-58`; the conversions to `poly64_t` keep the low half. -/
def mulArm (x y : V) : V :=
  let p := 0x87#64
  let x := mirrorArm x
  let y := mirrorArm y
  let a := clmul (x.setWidth 64) (y.setWidth 64)
  let b := clmul (x.setWidth 64) ((y >>> 64).setWidth 64)
  let b := b ^^^ clmul ((x >>> 64).setWidth 64) (y.setWidth 64)
  let a := a ^^^ b <<< 64
  let c := clmul p ((b >>> 64).setWidth 64)
  let a := a ^^^ c
  let b := clmul ((x >>> 64).setWidth 64) ((y >>> 64).setWidth 64)
  let c := clmul p (b.setWidth 64)
  let a := a ^^^ c
  let c := clmul p ((b >>> 64).setWidth 64)
  let a := a ^^^ c <<< 64
  let c := clmul p ((c >>> 64).setWidth 64)
  let a := a ^^^ c
  mirrorArm a

/-- `le64toh(((const uint64_t *)p)[k])`. -/
def le64 (p : List Byte) (k : Nat) : BitVec 64 :=
  p.getD (8 * k + 7) 0 ++ p.getD (8 * k + 6) 0 ++ p.getD (8 * k + 5) 0 ++ p.getD (8 * k + 4) 0 ++ p.getD (8 * k + 3) 0 ++
    p.getD (8 * k + 2) 0 ++ p.getD (8 * k + 1) 0 ++ p.getD (8 * k) 0

/-- `v ^= le64toh(p[1]); v <<= 64; v ^= le64toh(p[0])` with `v` initially 0, `galois128-arm.c:67-68`, `:71-72`, `:76-77`
(`galois128-ppc.c:69-70`, `:73-74`, `:78-79`). -/
def loadArm (p : List Byte) : V :=
  let v := 0#128 ^^^ (le64 p 1).setWidth 128
  let v := v <<< 64
  v ^^^ (le64 p 0).setWidth 128

/-- The octets of `htole64(v)` in memory. -/
def putLe64 (v : BitVec 64) : List Byte := (List.range 8).map fun k => (v >>> (8 * k)).setWidth 8

/-- The two stores `galois128-arm.c:80-81`, `galois128-ppc.c:82-83`. -/
def storeArm (y : V) : List Byte := putLe64 (y.setWidth 64) ++ putLe64 ((y >>> 64).setWidth 64)

/-- `galois128_hash1block_ni`, `galois128-arm.c:60-82`. -/
def hash1blockArm (Y H : List Byte) (X : Option (List Byte)) : List Byte :=
  let y := loadArm Y
  let y := match X with
    | some X => y ^^^ loadArm X
    | none => y
  let h := loadArm H
  storeArm (mulArm y h)

/-- `vec_pmsum_be` on `{a0, a1}` and `{b0, b1}`: the exclusive or of the two products. -/
def pmsum (a0 a1 b0 b1 : BitVec 64) : V := clmul a0 b0 ^^^ clmul a1 b1

/-- `galois128_mul_ppc`, `galois128-ppc.c:36-60`. -/
def mulPpc (x y : V) : V :=
  let p := 0x87#64
  let x := mirrorArm x
  let y := mirrorArm y
  let a := pmsum 0 (x.setWidth 64) 0 (y.setWidth 64)
  let b := pmsum (x.setWidth 64) ((x >>> 64).setWidth 64) ((y >>> 64).setWidth 64) (y.setWidth 64)
  let a := a ^^^ b <<< 64
  let c := pmsum 0 p 0 ((b >>> 64).setWidth 64)
  let a := a ^^^ c
  let b := pmsum 0 ((x >>> 64).setWidth 64) 0 ((y >>> 64).setWidth 64)
  let c := pmsum 0 p 0 (b.setWidth 64)
  let a := a ^^^ c
  let c := pmsum 0 p 0 ((b >>> 64).setWidth 64)
  let a := a ^^^ c <<< 64
  let c := pmsum 0 p 0 ((c >>> 64).setWidth 64)
  let a := a ^^^ c
  mirrorArm a

/-- `galois128_hash1block_ni`, `galois128-ppc.c:62-84`. -/
def hash1blockPpc (Y H : List Byte) (X : Option (List Byte)) : List Byte :=
  let y := loadArm Y
  let y := match X with
    | some X => y ^^^ loadArm X
    | none => y
  let h := loadArm H
  storeArm (mulPpc y h)

end Ghash
