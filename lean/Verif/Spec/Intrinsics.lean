import Verif.Spec.Aes

/-!
# Specification: the processor instructions used by the accelerated variants

Written from the manuals (Intel SDM volume 2, Arm ARM DDI 0487 C7.2, Power ISA 3.1 chapter 6), not from the code; a
vector register is its 128 bits, lane 0 (the octet at the lowest address) being the least significant.  These definitions are part of the trusted base.
-/
namespace Spec.Isa
abbrev V := BitVec 128

/-- A vector load from memory of sixteen octets (`MOVDQU`, `LD1`): the first octet is the least significant. -/
def load (p : List (BitVec 8)) : V :=
  p.getD 15 0 ++ p.getD 14 0 ++ p.getD 13 0 ++ p.getD 12 0 ++ p.getD 11 0 ++ p.getD 10 0 ++ p.getD 9 0 ++ p.getD 8 0 ++
  p.getD 7 0 ++ p.getD 6 0 ++ p.getD 5 0 ++ p.getD 4 0 ++ p.getD 3 0 ++ p.getD 2 0 ++ p.getD 1 0 ++ p.getD 0 0

/-- A vector store: the sixteen octets, least significant first. -/
def store (v : V) : List (BitVec 8) := (List.range 16).map fun k => v.extractLsb' (8 * k) 8

/-- Carry-less product of two 64-bit polynomials (`PCLMULQDQ`, `PMULL`, each half of `vpmsumd`): bit `k` is the exclusive or of
`a[i] and b[k-i]`. -/
def clmul (a b : BitVec 64) : V :=
  (List.range 64).foldl (fun p i => if b.getLsbD i then p ^^^ (a.setWidth 128 <<< i) else p) 0

/-- `_mm_clmulepi64_si128(a, b, imm)`: bit 0 of the immediate selects the half of `a`, bit 4 the half of `b`. -/
def clmulepi64 (a b : V) (imm : BitVec 8) : V :=
  clmul (a.extractLsb' (if imm.getLsbD 0 then 64 else 0) 64) (b.extractLsb' (if imm.getLsbD 4 then 64 else 0) 64)

/-- Apply a function to each 16-bit lane. -/
def map16 (f : BitVec 16 → BitVec 16) (x : V) : V :=
  f (x.extractLsb' 112 16) ++ f (x.extractLsb' 96 16) ++ f (x.extractLsb' 80 16) ++ f (x.extractLsb' 64 16) ++
  f (x.extractLsb' 48 16) ++ f (x.extractLsb' 32 16) ++ f (x.extractLsb' 16 16) ++ f (x.extractLsb' 0 16)

/-- `_mm_srli_epi16`, `_mm_slli_epi16`. -/
def srli16 (x : V) (n : Nat) : V := map16 (· >>> n) x
def slli16 (x : V) (n : Nat) : V := map16 (· <<< n) x

/-- `_mm_set1_epi8`. -/
def set1 (b : BitVec 8) : V := b ++ b ++ b ++ b ++ b ++ b ++ b ++ b ++ b ++ b ++ b ++ b ++ b ++ b ++ b ++ b

/-- `_mm_slli_si128(x, n)`: shift by octets. -/
def slliSi (x : V) (n : Nat) : V := x <<< (8 * n)

/-! AES instructions; the register is given by its sixteen octets in memory order. -/

/-- `_mm_aesenc_si128`, `_mm_aesenclast_si128` (Intel SDM). -/
def aesenc (s rk : List (BitVec 8)) : List (BitVec 8) := xorBytes (aesMixColumns ((aesShiftRows s).map aesSub)) rk
def aesenclast (s rk : List (BitVec 8)) : List (BitVec 8) := xorBytes ((aesShiftRows s).map aesSub) rk

/-- `_mm_aesdec_si128`, `_mm_aesdeclast_si128`, `_mm_aesimc_si128` (Intel SDM). -/
def aesdec (s rk : List (BitVec 8)) : List (BitVec 8) := xorBytes (aesInvMixColumns ((aesInvShiftRows s).map aesInvSub)) rk
def aesdeclast (s rk : List (BitVec 8)) : List (BitVec 8) := xorBytes ((aesInvShiftRows s).map aesInvSub) rk
def aesimc (s : List (BitVec 8)) : List (BitVec 8) := aesInvMixColumns s

/-- `vaeseq_u8`, `vaesdq_u8` (Arm ARM, AESE and AESD): the key is added first. -/
def aese (s rk : List (BitVec 8)) : List (BitVec 8) := (aesShiftRows (xorBytes s rk)).map aesSub
def aesd (s rk : List (BitVec 8)) : List (BitVec 8) := (aesInvShiftRows (xorBytes s rk)).map aesInvSub

/-- `vaesmcq_u8`, `vaesimcq_u8` (Arm ARM, AESMC and AESIMC). -/
def aesmc (s : List (BitVec 8)) : List (BitVec 8) := aesMixColumns s

/-- `vcipher`, `vcipherlast`, `vncipher`, `vncipherlast` (Power ISA): `vncipher` adds the key before mixing the columns. -/
def vcipher (s rk : List (BitVec 8)) : List (BitVec 8) := xorBytes (aesMixColumns (aesShiftRows (s.map aesSub))) rk
def vcipherlast (s rk : List (BitVec 8)) : List (BitVec 8) := xorBytes (aesShiftRows (s.map aesSub)) rk
def vncipher (s rk : List (BitVec 8)) : List (BitVec 8) := aesInvMixColumns (xorBytes ((aesInvShiftRows s).map aesInvSub) rk)
def vncipherlast (s rk : List (BitVec 8)) : List (BitVec 8) := xorBytes ((aesInvShiftRows s).map aesInvSub) rk

end Spec.Isa
