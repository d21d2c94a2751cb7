import Verif.Spec.MD
import Verif.Spec.Words
import Mathlib.Order.Nat
import Mathlib.Data.Nat.Prime.Defs
import Mathlib.Data.Nat.Sqrt
import Mathlib.Data.Nat.Nth
import Mathlib.Data.Nat.Find

/-!
# Specification: SHA-1, SHA-2 (FIPS 180-4) and SM3 (GB/T 32905)

The message schedule is a function of the index and the working variables are a function of the number of steps done.  The constants of
SHA-2 are the ones of the standard's definition: fractional parts of roots of primes.
-/

namespace Spec.Sha

/-- Octets. -/
abbrev Byte := BitVec 8

/-- Word `t` of a block: `w` octets, most significant first. -/
def word (w : Nat) (blk : List Byte) (t : Nat) : BitVec (8 * w) :=
  BitVec.ofNat (8 * w) (beNat ((List.range w).map fun i => blk.getD (w * t + i) 0))

/-- Words as octets, most significant first. -/
def octets (w : Nat) (H : List (BitVec (8 * w))) : List Byte := H.flatMap fun x => beN w x.toNat

variable {n : Nat}

/-- FIPS 180-4, 4.1. -/
def Ch (x y z : BitVec n) : BitVec n := (x &&& y) ^^^ (~~~x &&& z)
def Maj (x y z : BitVec n) : BitVec n := (x &&& y) ^^^ (x &&& z) ^^^ (y &&& z)
def Parity (x y z : BitVec n) : BitVec n := x ^^^ y ^^^ z

/-! ## SHA-1 (6.1.2) -/

/-- The message schedule. -/
def sched1 (M : Nat → BitVec 32) (t : Nat) : BitVec 32 :=
  if t < 16 then M t
  else (sched1 M (t - 3) ^^^ sched1 M (t - 8) ^^^ sched1 M (t - 14) ^^^ sched1 M (t - 16)).rotateLeft 1

/-- The functions `f_t` (4.1.1) and constants `K_t` (4.2.1). -/
def f1 (t : Nat) : BitVec 32 → BitVec 32 → BitVec 32 → BitVec 32 :=
  if t ≤ 19 then Ch else if t ≤ 39 then Parity else if t ≤ 59 then Maj else Parity
def K1 (t : Nat) : BitVec 32 :=
  if t ≤ 19 then 0x5a827999 else if t ≤ 39 then 0x6ed9eba1 else if t ≤ 59 then 0x8f1bbcdc else 0xca62c1d6

/-- Five words. -/
structure V5 where
  a : BitVec 32
  b : BitVec 32
  c : BitVec 32
  d : BitVec 32
  e : BitVec 32

/-- The working variables after `t` steps from `v`. -/
def vars1 (W : Nat → BitVec 32) (v : V5) : Nat → V5
  | 0 => v
  | t + 1 =>
    let ⟨a, b, c, d, e⟩ := vars1 W v t
    let T := a.rotateLeft 5 + f1 t b c d + e + K1 t + W t
    ⟨T, a, b.rotateLeft 30, c, d⟩

/-- The compression function: `H^(i)` from `H^(i-1)` and the block. -/
def comp1 (H : List (BitVec 32)) (blk : List Byte) : List (BitVec 32) :=
  let v := vars1 (sched1 (word 4 blk)) ⟨H.getD 0 0, H.getD 1 0, H.getD 2 0, H.getD 3 0, H.getD 4 0⟩ 80
  [v.a + H.getD 0 0, v.b + H.getD 1 0, v.c + H.getD 2 0, v.d + H.getD 3 0, v.e + H.getD 4 0]

/-- SHA-1. -/
def sha1 (m : List Byte) : List Byte :=
  octets 4 (mdHash comp1 [0x67452301, 0xefcdab89, 0x98badcfe, 0x10325476, 0xc3d2e1f0] 64 8 m)

/-! ## SHA-2 (6.2, 6.4) -/

/-- The prime number `i`, counted from zero. -/
noncomputable def prime (i : Nat) : Nat := Nat.nth Nat.Prime i

/-- The cube root, rounded down. -/
def cbrt (x : Nat) : Nat := Nat.findGreatest (fun r => r ^ 3 ≤ x) x

/-- The first `n` bits of the fractional part of the square root of `p`, and of the cube root. -/
def sqrtFrac (n p : Nat) : BitVec n := BitVec.ofNat n (Nat.sqrt (p * 2 ^ (2 * n)))
def cbrtFrac (n p : Nat) : BitVec n := BitVec.ofNat n (cbrt (p * 2 ^ (3 * n)))

/-- What distinguishes SHA-256 from SHA-512: the four functions (4.1.2, 4.1.3) and the number of rounds. -/
structure Fn (n : Nat) where
  S0 : BitVec n → BitVec n
  S1 : BitVec n → BitVec n
  s0 : BitVec n → BitVec n
  s1 : BitVec n → BitVec n
  rounds : Nat

def fn256 : Fn 32 where
  S0 x := x.rotateRight 2 ^^^ x.rotateRight 13 ^^^ x.rotateRight 22
  S1 x := x.rotateRight 6 ^^^ x.rotateRight 11 ^^^ x.rotateRight 25
  s0 x := x.rotateRight 7 ^^^ x.rotateRight 18 ^^^ x >>> 3
  s1 x := x.rotateRight 17 ^^^ x.rotateRight 19 ^^^ x >>> 10
  rounds := 64

def fn512 : Fn 64 where
  S0 x := x.rotateRight 28 ^^^ x.rotateRight 34 ^^^ x.rotateRight 39
  S1 x := x.rotateRight 14 ^^^ x.rotateRight 18 ^^^ x.rotateRight 41
  s0 x := x.rotateRight 1 ^^^ x.rotateRight 8 ^^^ x >>> 7
  s1 x := x.rotateRight 19 ^^^ x.rotateRight 61 ^^^ x >>> 6
  rounds := 80

/-- The message schedule. -/
def sched2 (F : Fn n) (M : Nat → BitVec n) (t : Nat) : BitVec n :=
  if t < 16 then M t
  else F.s1 (sched2 F M (t - 2)) + sched2 F M (t - 7) + F.s0 (sched2 F M (t - 15)) + sched2 F M (t - 16)

/-- Eight words. -/
structure V8 (n : Nat) where
  a : BitVec n
  b : BitVec n
  c : BitVec n
  d : BitVec n
  e : BitVec n
  f : BitVec n
  g : BitVec n
  h : BitVec n

/-- The eight words of a list. -/
def V8.of (H : List (BitVec n)) : V8 n :=
  ⟨H.getD 0 0, H.getD 1 0, H.getD 2 0, H.getD 3 0, H.getD 4 0, H.getD 5 0, H.getD 6 0, H.getD 7 0⟩
/-- And back, combined with another list. -/
def V8.with (op : BitVec n → BitVec n → BitVec n) (v : V8 n) (H : List (BitVec n)) : List (BitVec n) :=
  [op v.a (H.getD 0 0), op v.b (H.getD 1 0), op v.c (H.getD 2 0), op v.d (H.getD 3 0), op v.e (H.getD 4 0), op v.f (H.getD 5 0),
   op v.g (H.getD 6 0), op v.h (H.getD 7 0)]

/-- The working variables after `t` steps from `v`; the constants are the cube roots of the first primes. -/
noncomputable def vars2 (F : Fn n) (W : Nat → BitVec n) (v : V8 n) : Nat → V8 n
  | 0 => v
  | t + 1 =>
    let ⟨a, b, c, d, e, f, g, h⟩ := vars2 F W v t
    let T1 := h + F.S1 e + Ch e f g + cbrtFrac n (prime t) + W t
    let T2 := F.S0 a + Maj a b c
    ⟨T1 + T2, a, b, c, d + T1, e, f, g⟩

/-- The compression functions. -/
noncomputable def comp256 (H : List (BitVec 32)) (blk : List Byte) : List (BitVec 32) :=
  (vars2 fn256 (sched2 fn256 (word 4 blk)) (V8.of H) fn256.rounds).with (· + ·) H
noncomputable def comp512 (H : List (BitVec 64)) (blk : List Byte) : List (BitVec 64) :=
  (vars2 fn512 (sched2 fn512 (word 8 blk)) (V8.of H) fn512.rounds).with (· + ·) H

/-- Initial hash values (5.3): square roots of the first eight primes, or of the ninth to the sixteenth; SHA-224 uses the second 32 bits of
the latter. -/
noncomputable def iv256 : List (BitVec 32) := (List.range 8).map fun i => sqrtFrac 32 (prime i)
noncomputable def iv512 : List (BitVec 64) := (List.range 8).map fun i => sqrtFrac 64 (prime i)
noncomputable def iv384 : List (BitVec 64) := (List.range 8).map fun i => sqrtFrac 64 (prime (8 + i))
noncomputable def iv224 : List (BitVec 32) := (List.range 8).map fun i => (sqrtFrac 64 (prime (8 + i))).setWidth 32

/-- The IV generation function of SHA-512/t (5.3.6): a hash of the octets of its name. -/
noncomputable def ivT (name : List Byte) : List (BitVec 64) :=
  mdHash comp512 (iv512.map (· ^^^ 0xa5a5a5a5a5a5a5a5)) 128 16 name

/-- The ASCII octets of a string. -/
def ascii (s : String) : List Byte := s.toList.map fun c => BitVec.ofNat 8 c.toNat

noncomputable def sha224 (m : List Byte) : List Byte := (octets 4 (mdHash comp256 iv224 64 8 m)).take 28
noncomputable def sha256 (m : List Byte) : List Byte := octets 4 (mdHash comp256 iv256 64 8 m)
noncomputable def sha384 (m : List Byte) : List Byte := (octets 8 (mdHash comp512 iv384 128 16 m)).take 48
noncomputable def sha512 (m : List Byte) : List Byte := octets 8 (mdHash comp512 iv512 128 16 m)
noncomputable def sha512_224 (m : List Byte) : List Byte :=
  (octets 8 (mdHash comp512 (ivT (ascii "SHA-512/224")) 128 16 m)).take 28
noncomputable def sha512_256 (m : List Byte) : List Byte :=
  (octets 8 (mdHash comp512 (ivT (ascii "SHA-512/256")) 128 16 m)).take 32

/-! ## SM3 (GB/T 32905-2016, 4 and 5) -/

def P0 (X : BitVec 32) : BitVec 32 := X ^^^ X.rotateLeft 9 ^^^ X.rotateLeft 17
def P1 (X : BitVec 32) : BitVec 32 := X ^^^ X.rotateLeft 15 ^^^ X.rotateLeft 23
def T3 (j : Nat) : BitVec 32 := if j < 16 then 0x79cc4519 else 0x7a879d8a
def FF (j : Nat) (X Y Z : BitVec 32) : BitVec 32 := if j < 16 then X ^^^ Y ^^^ Z else (X &&& Y) ||| (X &&& Z) ||| (Y &&& Z)
def GG (j : Nat) (X Y Z : BitVec 32) : BitVec 32 := if j < 16 then X ^^^ Y ^^^ Z else (X &&& Y) ||| (~~~X &&& Z)

/-- The expanded message `W_0, W_1, ...`. -/
def sched3 (M : Nat → BitVec 32) (j : Nat) : BitVec 32 :=
  if j < 16 then M j
  else P1 (sched3 M (j - 16) ^^^ sched3 M (j - 9) ^^^ (sched3 M (j - 3)).rotateLeft 15) ^^^ (sched3 M (j - 13)).rotateLeft 7 ^^^
    sched3 M (j - 6)

/-- The registers after `j` steps; `W'_j = W_j ^ W_(j+4)`. -/
def vars3 (W : Nat → BitVec 32) (v : V8 32) : Nat → V8 32
  | 0 => v
  | j + 1 =>
    let ⟨A, B, C, D, E, F, G, H⟩ := vars3 W v j
    let SS1 := (A.rotateLeft 12 + E + (T3 j).rotateLeft (j % 32)).rotateLeft 7
    let SS2 := SS1 ^^^ A.rotateLeft 12
    let TT1 := FF j A B C + D + SS2 + (W j ^^^ W (j + 4))
    let TT2 := GG j E F G + H + SS1 + W j
    ⟨TT1, A, B.rotateLeft 9, C, P0 TT2, E, F.rotateLeft 19, G⟩

/-- The compression function. -/
def comp3 (V : List (BitVec 32)) (blk : List Byte) : List (BitVec 32) :=
  (vars3 (sched3 (word 4 blk)) (V8.of V) 64).with (· ^^^ ·) V

/-- SM3. -/
def sm3 (m : List Byte) : List Byte :=
  octets 4 (mdHash comp3 [0x7380166f, 0x4914b2b9, 0x172442d7, 0xda8a0600, 0xa96f30bc, 0x163138aa, 0xe38dee4d, 0xb0fb0e4e] 64 8 m)

end Spec.Sha
