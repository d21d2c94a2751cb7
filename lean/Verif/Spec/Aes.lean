import Verif.Spec.Blocks

/-!
# Specification: AES (FIPS 197)

States are 16-byte strings, byte `r + 4 c` being `s[r,c]`.
-/
namespace Spec

/-- Product of two polynomials over GF(2) of degree below 8 (bit `i` is the coefficient of `x^i`), reduced modulo
`x^8 + x^4 + x^3 + x + 1` (FIPS 197, 4.2): carry-less product, then long division by `0x11b`. -/
def gf8Mul (a b : BitVec 8) : BitVec 8 :=
  let p := (List.range 8).foldl (fun p i => if b.getLsbD i then p ^^^ (a.toNat <<< i) else p) 0
  BitVec.ofNat 8 ([6, 5, 4, 3, 2, 1, 0].foldl (fun p i => if p.testBit (8 + i) then p ^^^ (0x11b <<< i) else p) p)

/-- The multiplicative inverse `a^254` (0 for 0). -/
def gf8Inv (a : BitVec 8) : BitVec 8 :=
  let a2 := gf8Mul a a
  let a4 := gf8Mul a2 a2
  let a8 := gf8Mul a4 a4
  let a16 := gf8Mul a8 a8
  let a32 := gf8Mul a16 a16
  let a64 := gf8Mul a32 a32
  let a128 := gf8Mul a64 a64
  gf8Mul a2 (gf8Mul a4 (gf8Mul a8 (gf8Mul a16 (gf8Mul a32 (gf8Mul a64 a128)))))

/-- SBOX (FIPS 197, 5.1.1): inverse followed by the affine map. -/
def aesSub (a : BitVec 8) : BitVec 8 :=
  let b := gf8Inv a
  b ^^^ b.rotateLeft 1 ^^^ b.rotateLeft 2 ^^^ b.rotateLeft 3 ^^^ b.rotateLeft 4 ^^^ 0x63#8

/-- A state given by its entries. -/
def aesState (f : Nat → Nat → BitVec 8) : List (BitVec 8) := (List.range 16).map fun k => f (k % 4) (k / 4)

def aesAt (s : List (BitVec 8)) (r c : Nat) : BitVec 8 := s.getD (r + 4 * c) 0

/-- SHIFTROWS (5.1.2). -/
def aesShiftRows (s : List (BitVec 8)) : List (BitVec 8) := aesState fun r c => aesAt s r ((c + r) % 4)

/-- MIXCOLUMNS (5.1.3): multiplication of each column by the circulant matrix with first row 2 3 1 1. -/
def aesMixColumns (s : List (BitVec 8)) : List (BitVec 8) := aesState fun r c =>
  gf8Mul 2 (aesAt s r c) ^^^ gf8Mul 3 (aesAt s ((r + 1) % 4) c) ^^^ aesAt s ((r + 2) % 4) c ^^^ aesAt s ((r + 3) % 4) c

/-- Round key `i`: words `4i .. 4i+3` of the expanded key. -/
def aesRoundKey (w : Nat → List (BitVec 8)) (i : Nat) : List (BitVec 8) := w (4 * i) ++ w (4 * i + 1) ++ w (4 * i + 2) ++ w (4 * i + 3)

/-- CIPHER (FIPS 197, Algorithm 1). -/
def aesCipher (Nr : Nat) (w : Nat → List (BitVec 8)) (inp : List (BitVec 8)) : List (BitVec 8) :=
  let s := xorBytes inp (aesRoundKey w 0)
  let s := (List.range (Nr - 1)).foldl (fun s j => xorBytes (aesMixColumns (aesShiftRows (s.map aesSub))) (aesRoundKey w (j + 1))) s
  xorBytes (aesShiftRows (s.map aesSub)) (aesRoundKey w Nr)

/-- The round constant `x^(j-1)` of step `j`. -/
def aesRcon : Nat → BitVec 8
  | 0 => 0
  | 1 => 1
  | j + 1 => gf8Mul 2 (aesRcon j)

def rotWord (w : List (BitVec 8)) : List (BitVec 8) := w.drop 1 ++ w.take 1

/-- KEYEXPANSION (FIPS 197, Algorithm 2): word `i` (four bytes) of the expanded key; `Nk` is positive. -/
def aesWord (Nk : Nat) (key : List (BitVec 8)) (i : Nat) : List (BitVec 8) :=
  if h : i < Nk ∨ Nk = 0 then (key.drop (4 * i)).take 4
  else
    let temp := aesWord Nk key (i - 1)
    let temp :=
      if i % Nk = 0 then xorBytes ((rotWord temp).map aesSub) [aesRcon (i / Nk), 0, 0, 0]
      else if 6 < Nk ∧ i % Nk = 4 then temp.map aesSub
      else temp
    xorBytes (aesWord Nk key (i - Nk)) temp
termination_by i
decreasing_by all_goals omega

/-- AES with a key of `4 Nk` bytes and `Nr` rounds. -/
def aes (Nk Nr : Nat) (key inp : List (BitVec 8)) : List (BitVec 8) := aesCipher Nr (aesWord Nk key) inp

/-- INVSBOX (FIPS 197, 5.3.2): the inverse of the affine map, followed by the inverse. -/
def aesInvSub (a : BitVec 8) : BitVec 8 := gf8Inv (a.rotateLeft 1 ^^^ a.rotateLeft 3 ^^^ a.rotateLeft 6 ^^^ 0x05#8)

/-- INVSHIFTROWS (5.3.1). -/
def aesInvShiftRows (s : List (BitVec 8)) : List (BitVec 8) := aesState fun r c => aesAt s r ((c + 4 - r) % 4)

/-- INVMIXCOLUMNS (5.3.3): the circulant matrix with first row e b d 9. -/
def aesInvMixColumns (s : List (BitVec 8)) : List (BitVec 8) := aesState fun r c =>
  gf8Mul 0x0e (aesAt s r c) ^^^ gf8Mul 0x0b (aesAt s ((r + 1) % 4) c) ^^^ gf8Mul 0x0d (aesAt s ((r + 2) % 4) c) ^^^
    gf8Mul 0x09 (aesAt s ((r + 3) % 4) c)

/-- INVCIPHER (FIPS 197, Algorithm 3): rounds `Nr - 1` down to 1. -/
def aesInvCipher (Nr : Nat) (w : Nat → List (BitVec 8)) (inp : List (BitVec 8)) : List (BitVec 8) :=
  let s := xorBytes inp (aesRoundKey w Nr)
  let s := (List.range (Nr - 1)).reverse.foldl
    (fun s j => aesInvMixColumns (xorBytes ((aesInvShiftRows s).map aesInvSub) (aesRoundKey w (j + 1)))) s
  xorBytes ((aesInvShiftRows s).map aesInvSub) (aesRoundKey w 0)

/-- Inverse AES with a key of `4 Nk` bytes and `Nr` rounds. -/
def aesInv (Nk Nr : Nat) (key inp : List (BitVec 8)) : List (BitVec 8) := aesInvCipher Nr (aesWord Nk key) inp

end Spec
