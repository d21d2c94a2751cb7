import Verif.Spec.Words
import Verif.Spec.Lane
import Verif.Spec.Blocks
import Verif.Spec.Aes
import Mathlib.Data.Nat.Sqrt

/-!
# Specification: Camellia (RFC 3713), SEED (RFC 4269) and ARIA (RFC 5794)

The S-boxes are given in the algebraic form of the design documents.
-/
namespace Spec

/-- Product in GF(2)[x] modulo the polynomial `P` of degree 8: carry-less product, then long division. -/
def gfMul (P : Nat) (a b : BitVec 8) : BitVec 8 :=
  let p := (List.range 8).foldl (fun p i => if b.getLsbD i then p ^^^ (a.toNat <<< i) else p) 0
  BitVec.ofNat 8 ([6, 5, 4, 3, 2, 1, 0].foldl (fun p i => if p.testBit (8 + i) then p ^^^ (P <<< i) else p) p)

/-- The power `a ^ n`, for `n` below 256, by squaring from the top bit down. -/
def gfPow (P : Nat) (a : BitVec 8) (n : Nat) : BitVec 8 :=
  (List.range 8).foldr (fun i r => let r := gfMul P r r; if n.testBit i then gfMul P r a else r) 1

/-- A linear map over GF(2), given by the images of the bits 0 to 7. -/
def linMap (cols : List (BitVec 8)) (x : BitVec 8) : BitVec 8 :=
  (List.range 8).foldl (fun v i => if x.getLsbD i then v ^^^ cols.getD i 0 else v) 0

/-! ## Camellia -/
namespace Camellia
abbrev D := BitVec 64

/-- Bit `a_i` of an octet, `a_1` being the most significant. -/
def bit (x : BitVec 8) (i : Nat) : Bool := x.getLsbD (8 - i)
/-- The octet `b_1 .. b_8`. -/
def octet (b : List Bool) : BitVec 8 := b.foldl (fun v c => v <<< 1 ||| if c then 1 else 0) 0

/-- The functions `f` and `h` of the S-box. -/
def f (x : BitVec 8) : BitVec 8 :=
  let a := bit x
  octet [a 6 ^^ a 2, a 7 ^^ a 1, a 8 ^^ a 5 ^^ a 3, a 8 ^^ a 3, a 7 ^^ a 4, a 5 ^^ a 2, a 8 ^^ a 1, a 6 ^^ a 4]
def h (x : BitVec 8) : BitVec 8 :=
  let a := bit x
  octet [a 5 ^^ a 6 ^^ a 2, a 6 ^^ a 2, a 7 ^^ a 4, a 8 ^^ a 2, a 7 ^^ a 3, a 8 ^^ a 1, a 5 ^^ a 1, a 6 ^^ a 3]

/-- `β` with `β^8 + β^6 + β^5 + β^3 + 1 = 0` and `α = β^238`. -/
def P : Nat := 0x169
def beta : BitVec 8 := 2
def alpha : BitVec 8 := gfPow P beta 238

/-- The element `(a_8 + a_7 α + a_6 α² + a_5 α³) + (a_4 + a_3 α + a_2 α² + a_1 α³) β`. -/
def element (x : BitVec 8) : BitVec 8 :=
  let c := (List.range 4).map fun i => gfPow P alpha i
  linMap (c ++ c.map (gfMul P beta)) x

/-- `g x`: the octet whose element is the inverse of that of `x`. -/
def g (x : BitVec 8) : BitVec 8 :=
  BitVec.ofNat 8 (((List.range 256).find? fun y => element (BitVec.ofNat 8 y) == gfPow P (element x) 254).getD 0)

/-- `SBOX1` to `SBOX4`. -/
def s1 (x : BitVec 8) : BitVec 8 := h (g (f (x ^^^ 0xc5#8))) ^^^ 0x6e#8
def s2 (x : BitVec 8) : BitVec 8 := (s1 x).rotateLeft 1
def s3 (x : BitVec 8) : BitVec 8 := (s1 x).rotateLeft 7
def s4 (x : BitVec 8) : BitVec 8 := s1 (x.rotateLeft 1)

/-- Octet `i` of a 64-bit word, octet 1 being the most significant. -/
def oct (x : D) (i : Nat) : BitVec 8 := x.extractLsb' (64 - 8 * i) 8

/-- The function F (RFC 3713, 2.4.1). -/
def F (x ke : D) : D :=
  let x := x ^^^ ke
  let t1 := s1 (oct x 1)
  let t2 := s2 (oct x 2)
  let t3 := s3 (oct x 3)
  let t4 := s4 (oct x 4)
  let t5 := s2 (oct x 5)
  let t6 := s3 (oct x 6)
  let t7 := s4 (oct x 7)
  let t8 := s1 (oct x 8)
  let y1 := t1 ^^^ t3 ^^^ t4 ^^^ t6 ^^^ t7 ^^^ t8
  let y2 := t1 ^^^ t2 ^^^ t4 ^^^ t5 ^^^ t7 ^^^ t8
  let y3 := t1 ^^^ t2 ^^^ t3 ^^^ t5 ^^^ t6 ^^^ t8
  let y4 := t2 ^^^ t3 ^^^ t4 ^^^ t5 ^^^ t6 ^^^ t7
  let y5 := t1 ^^^ t2 ^^^ t6 ^^^ t7 ^^^ t8
  let y6 := t2 ^^^ t3 ^^^ t5 ^^^ t7 ^^^ t8
  let y7 := t3 ^^^ t4 ^^^ t5 ^^^ t6 ^^^ t8
  let y8 := t1 ^^^ t4 ^^^ t5 ^^^ t6 ^^^ t7
  (y1 ++ y2 ++ y3 ++ y4 ++ (y5 ++ y6 ++ y7 ++ y8) : BitVec (8 + 8 + 8 + 8 + (8 + 8 + 8 + 8)))

/-- FL and FLINV (2.4.2, 2.4.3). -/
def FL (x ke : D) : D :=
  let x1 : BitVec 32 := x.extractLsb' 32 32
  let x2 : BitVec 32 := x.extractLsb' 0 32
  let k1 : BitVec 32 := ke.extractLsb' 32 32
  let k2 : BitVec 32 := ke.extractLsb' 0 32
  let x2 := x2 ^^^ (x1 &&& k1).rotateLeft 1
  let x1 := x1 ^^^ (x2 ||| k2)
  (x1 ++ x2 : BitVec (32 + 32))
def FLINV (y ke : D) : D :=
  let y1 : BitVec 32 := y.extractLsb' 32 32
  let y2 : BitVec 32 := y.extractLsb' 0 32
  let k1 : BitVec 32 := ke.extractLsb' 32 32
  let k2 : BitVec 32 := ke.extractLsb' 0 32
  let y1 := y1 ^^^ (y2 ||| k2)
  let y2 := y2 ^^^ (y1 &&& k1).rotateLeft 1
  (y1 ++ y2 : BitVec (32 + 32))

/-- The constants: the second to the seventeenth hexadecimal place of the square root of the `i`-th prime. -/
def sigma (p : Nat) : D := BitVec.ofNat 64 (Nat.sqrt (p * 16 ^ 34))

def hi (k : BitVec 128) : D := k.extractLsb' 64 64
def lo (k : BitVec 128) : D := k.extractLsb' 0 64

/-- `KA` and `KB` (2.2). -/
def KA (KL KR : BitVec 128) : BitVec 128 :=
  let D1 := hi (KL ^^^ KR)
  let D2 := lo (KL ^^^ KR)
  let D2 := D2 ^^^ F D1 (sigma 2)
  let D1 := D1 ^^^ F D2 (sigma 3)
  let D1 := D1 ^^^ hi KL
  let D2 := D2 ^^^ lo KL
  let D2 := D2 ^^^ F D1 (sigma 5)
  let D1 := D1 ^^^ F D2 (sigma 7)
  (D1 ++ D2 : BitVec (64 + 64))
def KB (KL KR : BitVec 128) : BitVec 128 :=
  let K := KA KL KR ^^^ KR
  let D1 := hi K
  let D2 := lo K
  let D2 := D2 ^^^ F D1 (sigma 11)
  let D1 := D1 ^^^ F D2 (sigma 13)
  (D1 ++ D2 : BitVec (64 + 64))

/-- `kw1 .. kw4`, `k1 ..` and `ke1 ..`. -/
structure Sub where
  kw : List D
  k : List D
  ke : List D

/-- Both halves of a key rotated to the left. -/
def both (K : BitVec 128) (n : Nat) : List D := [hi (K.rotateLeft n), lo (K.rotateLeft n)]

/-- The subkeys for 128-bit keys. -/
def sub128 (KL KA : BitVec 128) : Sub where
  kw := both KL 0 ++ both KA 111
  k := both KA 0 ++ both KL 15 ++ both KA 15 ++ both KL 45 ++ [hi (KA.rotateLeft 45)] ++ [lo (KL.rotateLeft 60)] ++ both KA 60 ++
    both KL 94 ++ both KA 94 ++ both KL 111
  ke := both KA 30 ++ both KL 77

/-- The subkeys for 192- and 256-bit keys. -/
def sub256 (KL KR KA KB : BitVec 128) : Sub where
  kw := both KL 0 ++ both KB 111
  k := both KB 0 ++ both KR 15 ++ both KA 15 ++ both KB 30 ++ both KL 45 ++ both KA 45 ++ both KR 60 ++ both KB 60 ++ both KL 77 ++
    both KR 94 ++ both KA 94 ++ both KL 111
  ke := both KR 30 ++ both KL 60 ++ both KA 77

/-- The subkeys for decryption (2.3.3): those for encryption in reverse order (`kw1` with `kw3`, `kw2` with `kw4`). -/
def Sub.rev (s : Sub) : Sub := { kw := s.kw.drop 2 ++ s.kw.take 2, k := s.k.reverse, ke := s.ke.reverse }

/-- Six rounds, with six subkeys. -/
def six (k : List D) (s : D × D) : D × D :=
  (List.range 3).foldl (fun s i =>
    let D2 := s.2 ^^^ F s.1 (k.getD (2 * i) 0)
    let D1 := s.1 ^^^ F D2 (k.getD (2 * i + 1) 0)
    (D1, D2)) s

/-- The data randomising part (2.3.1, 2.3.2): groups of six rounds with FL and FLINV in between. -/
def crypt (s : Sub) (M : BitVec 128) : BitVec 128 :=
  let st := (hi M ^^^ s.kw.getD 0 0, lo M ^^^ s.kw.getD 1 0)
  let st := six (s.k.take 6) st
  let st := (List.range (s.k.length / 6 - 1)).foldl (fun st g =>
    six ((s.k.drop (6 * (g + 1))).take 6) (FL st.1 (s.ke.getD (2 * g) 0), FLINV st.2 (s.ke.getD (2 * g + 1) 0))) st
  let D2 := st.2 ^^^ s.kw.getD 2 0
  let D1 := st.1 ^^^ s.kw.getD 3 0
  (D2 ++ D1 : BitVec (64 + 64))

/-- The number written big-endian in an octet string. -/
def num (n : Nat) (b : List (BitVec 8)) : BitVec n := BitVec.ofNat n (beNat b)

/-- The subkeys for a key of 16, 24 or 32 octets (2.2). -/
def subkeys (key : List (BitVec 8)) : Sub :=
  if key.length = 16 then
    let KL := num 128 key
    sub128 KL (KA KL 0)
  else
    let KL := num 128 (key.take 16)
    let KR : BitVec 128 :=
      if key.length = 24 then (num 64 (key.drop 16) ++ ~~~ num 64 (key.drop 16) : BitVec (64 + 64)) else num 128 (key.drop 16)
    sub256 KL KR (KA KL KR) (KB KL KR)

def encrypt (key inp : List (BitVec 8)) : BitVec 128 := crypt (subkeys key) (num 128 inp)
def decrypt (key inp : List (BitVec 8)) : BitVec 128 := crypt (subkeys key).rev (num 128 inp)

end Camellia

/-! ## SEED -/
namespace Seed

/-- The S-boxes `A(1) x^247 + 169` and `A(2) x^251 + 56` over GF(2)[x] / (x^8 + x^6 + x^5 + x + 1), the matrices by columns. -/
def s1 (x : BitVec 8) : BitVec 8 := linMap [0x2c, 0xd0, 0x69, 0xc2, 0x41, 0x44, 0x58, 0xe2] (gfPow 0x163 x 247) ^^^ 169#8
def s2 (x : BitVec 8) : BitVec 8 := linMap [0xd0, 0x2a, 0xe1, 0x2c, 0x21, 0x30, 0xa2, 0x6c] (gfPow 0x163 x 251) ^^^ 56#8

/-- The function G (RFC 4269, 2.3). -/
def G (x : BitVec 32) : BitVec 32 :=
  let m0 := 0xfc#8
  let m1 := 0xf3#8
  let m2 := 0xcf#8
  let m3 := 0x3f#8
  let y0 := s1 (lane 0 x)
  let y1 := s2 (lane 1 x)
  let y2 := s1 (lane 2 x)
  let y3 := s2 (lane 3 x)
  let z0 := (y0 &&& m0) ^^^ (y1 &&& m1) ^^^ (y2 &&& m2) ^^^ (y3 &&& m3)
  let z1 := (y0 &&& m1) ^^^ (y1 &&& m2) ^^^ (y2 &&& m3) ^^^ (y3 &&& m0)
  let z2 := (y0 &&& m2) ^^^ (y1 &&& m3) ^^^ (y2 &&& m0) ^^^ (y3 &&& m1)
  let z3 := (y0 &&& m3) ^^^ (y1 &&& m0) ^^^ (y2 &&& m1) ^^^ (y3 &&& m2)
  (z3 ++ z2 ++ z1 ++ z0 : BitVec (8 + 8 + 8 + 8))

/-- The function F (2.2): `C`, `D` and the round key `(Ki0, Ki1)`. -/
def F (k : BitVec 32 × BitVec 32) (x : BitVec 32 × BitVec 32) : BitVec 32 × BitVec 32 :=
  let c := x.1 ^^^ k.1
  let d := x.2 ^^^ k.2
  (G (G (G (c ^^^ d) + c) + G (c ^^^ d)) + G (G (c ^^^ d) + c), G (G (G (c ^^^ d) + c) + G (c ^^^ d)))

/-- The constants (2.4): each is the previous one rotated to the left. -/
def KC : Nat → BitVec 32
  | 0 => 0x9e3779b9#32
  | i + 1 => (KC i).rotateLeft 1

/-- `Key0 || Key1` and `Key2 || Key3` before step `i + 1` of the key schedule. -/
def keys (k01 k23 : BitVec 64) : Nat → BitVec 64 × BitVec 64
  | 0 => (k01, k23)
  | i + 1 =>
    let (a, b) := keys k01 k23 i
    if (i + 1) % 2 = 1 then (a.rotateRight 8, b) else (a, b.rotateLeft 8)

/-- The round key of step `i + 1` (2.4). -/
def roundKey (k01 k23 : BitVec 64) (i : Nat) : BitVec 32 × BitVec 32 :=
  let (a, b) := keys k01 k23 i
  let key0 : BitVec 32 := a.extractLsb' 32 32
  let key1 : BitVec 32 := a.extractLsb' 0 32
  let key2 : BitVec 32 := b.extractLsb' 32 32
  let key3 : BitVec 32 := b.extractLsb' 0 32
  (G (key0 + key2 - KC i), G (key1 - key3 + KC i))

/-- The Feistel network of 16 rounds (2.1), with the round keys in the given order; the halves are exchanged at the end. -/
def feistel (k : Nat → BitVec 32 × BitVec 32) (n : Nat) (s : (BitVec 32 × BitVec 32) × (BitVec 32 × BitVec 32)) :
    (BitVec 32 × BitVec 32) × (BitVec 32 × BitVec 32) :=
  (List.range n).foldl (fun s i =>
    let f := F (k i) s.2
    (s.2, (s.1.1 ^^^ f.1, s.1.2 ^^^ f.2))) s

def word (b : List (BitVec 8)) (i : Nat) : BitVec 32 := BitVec.ofNat 32 (beNat ((b.drop (4 * i)).take 4))
def octets (w : BitVec 32) : List (BitVec 8) := [lane 3 w, lane 2 w, lane 1 w, lane 0 w]

def crypt (k : Nat → BitVec 32 × BitVec 32) (inp : List (BitVec 8)) : List (BitVec 8) :=
  let s := feistel k 16 ((word inp 0, word inp 1), (word inp 2, word inp 3))
  octets s.2.1 ++ octets s.2.2 ++ octets s.1.1 ++ octets s.1.2

def keyOf (key : List (BitVec 8)) (i : Nat) : BitVec 32 × BitVec 32 :=
  roundKey (word key 0 ++ word key 1 : BitVec (32 + 32)) (word key 2 ++ word key 3 : BitVec (32 + 32)) i

/-- SEED; decryption uses the round keys in reverse order. -/
def encrypt (key inp : List (BitVec 8)) : List (BitVec 8) := crypt (keyOf key) inp
def decrypt (key inp : List (BitVec 8)) : List (BitVec 8) := crypt (fun i => keyOf key (15 - i)) inp

end Seed

/-! ## ARIA -/
namespace Aria

/-- `SB1` is the AES S-box, `SB2` is `D x^247 + e2` over the same field (matrix by columns), `SB3` and `SB4` are their inverses. -/
def SB1 (x : BitVec 8) : BitVec 8 := aesSub x
def SB2 (x : BitVec 8) : BitVec 8 := linMap [0xac, 0xc5, 0x12, 0xcf, 0x5b, 0x5f, 0x85, 0xee] (gfPow 0x11b x 247) ^^^ 0xe2#8
def inverse (s : BitVec 8 → BitVec 8) (y : BitVec 8) : BitVec 8 :=
  BitVec.ofNat 8 (((List.range 256).find? fun x => s (BitVec.ofNat 8 x) == y).getD 0)
def SB3 (x : BitVec 8) : BitVec 8 := inverse SB1 x
def SB4 (x : BitVec 8) : BitVec 8 := inverse SB2 x

/-- The substitution layers (RFC 5794, 2.4.2). -/
def SL1 (x : List (BitVec 8)) : List (BitVec 8) := x.mapIdx fun i b =>
  if i % 4 = 0 then SB1 b else if i % 4 = 1 then SB2 b else if i % 4 = 2 then SB3 b else SB4 b
def SL2 (x : List (BitVec 8)) : List (BitVec 8) := x.mapIdx fun i b =>
  if i % 4 = 0 then SB3 b else if i % 4 = 1 then SB4 b else if i % 4 = 2 then SB1 b else SB2 b

/-- The rows of the diffusion layer (2.4.3): which octets are added up. -/
def rows : List (List Nat) := [
  [3, 4, 6, 8, 9, 13, 14], [2, 5, 7, 8, 9, 12, 15], [1, 4, 6, 10, 11, 12, 15], [0, 5, 7, 10, 11, 13, 14],
  [0, 2, 5, 8, 11, 14, 15], [1, 3, 4, 9, 10, 14, 15], [0, 2, 7, 9, 10, 12, 13], [1, 3, 6, 8, 11, 12, 13],
  [0, 1, 4, 7, 10, 13, 15], [0, 1, 5, 6, 11, 12, 14], [2, 3, 5, 6, 8, 13, 15], [2, 3, 4, 7, 9, 12, 14],
  [1, 2, 6, 7, 9, 11, 12], [0, 3, 6, 7, 8, 10, 13], [0, 3, 4, 5, 9, 11, 14], [1, 2, 4, 5, 8, 10, 15]]
def A (x : List (BitVec 8)) : List (BitVec 8) := rows.map fun r => r.foldl (fun v i => v ^^^ x.getD i 0) 0

/-- The round functions (2.4.1). -/
def FO (x rk : List (BitVec 8)) : List (BitVec 8) := A (SL1 (xorBytes x rk))
def FE (x rk : List (BitVec 8)) : List (BitVec 8) := A (SL2 (xorBytes x rk))

/-- 128-bit strings as numbers and as octets, big endian. -/
def num (b : List (BitVec 8)) : BitVec 128 := BitVec.ofNat 128 (beNat b)
def octets (x : BitVec 128) : List (BitVec 8) := (List.range 16).map fun i => x.extractLsb' (8 * (15 - i)) 8

/-- The initialisation constants (2.2). -/
def C1 : BitVec 128 := 0x517cc1b727220a94fe13abe8fa9a6ee0#128
def C2 : BitVec 128 := 0x6db14acc9e21c820ff28b1d5ef5de2b0#128
def C3 : BitVec 128 := 0xdb92371d2126e9700324977504e8c90e#128

/-- `CK1`, `CK2`, `CK3` for a key of 16, 24 or 32 octets, and the number of rounds. -/
def CK (len : Nat) : BitVec 128 × BitVec 128 × BitVec 128 :=
  if len = 16 then (C1, C2, C3) else if len = 24 then (C2, C3, C1) else (C3, C1, C2)
def rounds (len : Nat) : Nat := if len = 16 then 12 else if len = 24 then 14 else 16

/-- `W0 .. W3` (2.2); `KL || KR` is the key followed by zeros. -/
def W (key : List (BitVec 8)) : BitVec 128 × BitVec 128 × BitVec 128 × BitVec 128 :=
  let k := key ++ List.replicate (32 - key.length) 0
  let KL := num (k.take 16)
  let KR := num (k.drop 16)
  let (CK1, CK2, CK3) := CK key.length
  let W0 := KL
  let W1 := num (FO (octets W0) (octets CK1)) ^^^ KR
  let W2 := num (FE (octets W1) (octets CK2)) ^^^ W0
  let W3 := num (FO (octets W2) (octets CK3)) ^^^ W1
  (W0, W1, W2, W3)

/-- `ek1 .. ek17` (2.2), counted from 0. -/
def ek (key : List (BitVec 8)) (i : Nat) : BitVec 128 :=
  let (W0, W1, W2, W3) := W key
  [W0 ^^^ W1.rotateRight 19, W1 ^^^ W2.rotateRight 19, W2 ^^^ W3.rotateRight 19, W0.rotateRight 19 ^^^ W3,
   W0 ^^^ W1.rotateRight 31, W1 ^^^ W2.rotateRight 31, W2 ^^^ W3.rotateRight 31, W0.rotateRight 31 ^^^ W3,
   W0 ^^^ W1.rotateLeft 61, W1 ^^^ W2.rotateLeft 61, W2 ^^^ W3.rotateLeft 61, W0.rotateLeft 61 ^^^ W3,
   W0 ^^^ W1.rotateLeft 31, W1 ^^^ W2.rotateLeft 31, W2 ^^^ W3.rotateLeft 31, W0.rotateLeft 31 ^^^ W3,
   W0 ^^^ W1.rotateLeft 19].getD i 0

/-- `n` rounds with the round keys `k 0 .. k n` (2.3). -/
def crypt (n : Nat) (k : Nat → List (BitVec 8)) (P : List (BitVec 8)) : List (BitVec 8) :=
  let s := (List.range (n - 1)).foldl (fun s i => if i % 2 = 0 then FO s (k i) else FE s (k i)) P
  xorBytes (SL2 (xorBytes s (k (n - 1)))) (k n)

/-- The decryption round keys (2.2). -/
def dk (n : Nat) (key : List (BitVec 8)) (i : Nat) : List (BitVec 8) :=
  if i = 0 then octets (ek key n) else if i = n then octets (ek key 0) else A (octets (ek key (n - i)))

def encrypt (key inp : List (BitVec 8)) : List (BitVec 8) := crypt (rounds key.length) (fun i => octets (ek key i)) inp
def decrypt (key inp : List (BitVec 8)) : List (BitVec 8) := crypt (rounds key.length) (dk (rounds key.length) key) inp

end Aria
end Spec
