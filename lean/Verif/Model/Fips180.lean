import Verif.Model.Endian
import Verif.Model.MD

/-!
# Model of `src/1-symm/fips-180.c`, `src/1-symm-national/gbt-32905.c` and of the constants of `src/2-hash/sha.c`, `sm3.c`

The working variables are a structure, the array `W[16]` a list of 16 words that is overwritten in place as in the code.
`compressfunc_sha256_ci` and `compressfunc_sha512_ci` are textually the same but for the word type, the rotation amounts, the table
`K` and the number of rounds: these are the parameters of `sha2`.
-/

namespace Fips180
open Endian (Byte ld32 ld64 st32 st64)

/-- `ROTL` on `uint32_t`, `fips-180.c:10`, and the rotations spelled out in `gbt-32905.c`. -/
def rotl (x : BitVec 32) (n : Nat) : BitVec 32 := x <<< n ||| x >>> (32 - n)
/-- `ROTR` of either width, `fips-180.c:11`, `:149`. -/
def rotr {n : Nat} (x : BitVec n) (k : Nat) : BitVec n := x >>> k ||| x <<< (n - k)
/-- `Ch`, `fips-180.c:6`. -/
def ch {n : Nat} (x y z : BitVec n) : BitVec n := x &&& y ^^^ ~~~x &&& z
/-- `Maj`, `fips-180.c:7`. -/
def maj {n : Nat} (x y z : BitVec n) : BitVec n := x &&& y ^^^ x &&& z ^^^ y &&& z
/-- `Parity`, `fips-180.c:8`. -/
def parity (x y z : BitVec 32) : BitVec 32 := x ^^^ y ^^^ z

/-- Reading an element of an array. -/
def at_ {n : Nat} (l : List (BitVec n)) (i : Nat) : BitVec n := l.getD i 0

/-! ## SHA-1 -/

/-- Working variables of `compressfunc_sha1_ci`, and `W`. -/
structure S1 where
  a : BitVec 32
  b : BitVec 32
  c : BitVec 32
  d : BitVec 32
  e : BitVec 32
  W : List (BitVec 32)

/-- `K_sha1`, `fips-180.c:13-16`. -/
def kSha1 (t : Nat) : BitVec 32 :=
  if t < 20 then 0x5a827999 else if t < 40 then 0x6ed9eba1 else if t < 60 then 0x8f1bbcdc else 0xca62c1d6

/-- The body of the loop of `compressfunc_sha1_ci`, `fips-180.c:35-53`. -/
def sha1Round (s : S1) (t : Nat) : S1 :=
  let W := if t < 16 then s.W else
    s.W.set (t % 16) (rotl (at_ s.W ((t - 3) % 16) ^^^ at_ s.W ((t - 8) % 16) ^^^ at_ s.W ((t - 14) % 16) ^^^ at_ s.W ((t - 16) % 16)) 1)
  let w := if t < 16 then at_ W t else at_ W (t % 16)
  let T := rotl s.a 5 +
    (if t < 20 then ch s.b s.c s.d else if t < 40 then parity s.b s.c s.d else if t < 60 then maj s.b s.c s.d else parity s.b s.c s.d) +
    s.e + kSha1 t + w
  ⟨T, s.a, rotl s.b 30, s.c, s.d, W⟩

/-- `compressfunc_sha1_ci`, `fips-180.c:18-62`. -/
def sha1 (H : List (BitVec 32)) (M : List Byte) : List (BitVec 32) :=
  let W := (List.range 16).map (ld32 M)
  let s := (List.range 80).foldl sha1Round ⟨at_ H 0, at_ H 1, at_ H 2, at_ H 3, at_ H 4, W⟩
  [at_ H 0 + s.a, at_ H 1 + s.b, at_ H 2 + s.c, at_ H 3 + s.d, at_ H 4 + s.e]

/-! ## SHA-2 -/

/-- Working variables of `compressfunc_sha256_ci`, `compressfunc_sha512_ci`, `compressfunc_sm3_ci`, and `W`. -/
structure S8 (n : Nat) where
  a : BitVec n
  b : BitVec n
  c : BitVec n
  d : BitVec n
  e : BitVec n
  f : BitVec n
  g : BitVec n
  h : BitVec n
  W : List (BitVec n)

/-- What distinguishes the two SHA-2 functions: `Sigma0(x)` and so on, the table, the number of rounds, and the loading of words. -/
structure Par (n : Nat) where
  S0 : BitVec n → BitVec n
  S1 : BitVec n → BitVec n
  s0 : BitVec n → BitVec n
  s1 : BitVec n → BitVec n
  K : List (BitVec n)
  rounds : Nat
  ld : List Byte → Nat → BitVec n

/-- The body of the loop, `fips-180.c:109-126`, `:200-217`. -/
def sha2Round {n : Nat} (P : Par n) (s : S8 n) (t : Nat) : S8 n :=
  let W := if t < 16 then s.W else
    s.W.set (t % 16) (P.s1 (at_ s.W ((t - 2) % 16)) + at_ s.W ((t - 7) % 16) + P.s0 (at_ s.W ((t - 15) % 16)) + at_ s.W ((t - 16) % 16))
  let w := if t < 16 then at_ W t else at_ W (t % 16)
  let T1 := s.h + P.S1 s.e + ch s.e s.f s.g + at_ P.K t + w
  let T2 := P.S0 s.a + maj s.a s.b s.c
  ⟨T1 + T2, s.a, s.b, s.c, s.d + T1, s.e, s.f, s.g, W⟩

/-- `compressfunc_sha256_ci`, `fips-180.c:83-143`, and `compressfunc_sha512_ci`, `:174-234`. -/
def sha2 {n : Nat} (P : Par n) (H : List (BitVec n)) (M : List Byte) : List (BitVec n) :=
  let W := (List.range 16).map (P.ld M)
  let s := (List.range P.rounds).foldl (sha2Round P)
    ⟨at_ H 0, at_ H 1, at_ H 2, at_ H 3, at_ H 4, at_ H 5, at_ H 6, at_ H 7, W⟩
  [at_ H 0 + s.a, at_ H 1 + s.b, at_ H 2 + s.c, at_ H 3 + s.d, at_ H 4 + s.e, at_ H 5 + s.f, at_ H 6 + s.g, at_ H 7 + s.h]

/-- `K_sha256`, `fips-180.c:64-81`. -/
def kSha256 : List (BitVec 32) := [
  0x428a2f98, 0x71374491, 0xb5c0fbcf, 0xe9b5dba5, 0x3956c25b, 0x59f111f1, 0x923f82a4, 0xab1c5ed5,
  0xd807aa98, 0x12835b01, 0x243185be, 0x550c7dc3, 0x72be5d74, 0x80deb1fe, 0x9bdc06a7, 0xc19bf174,
  0xe49b69c1, 0xefbe4786, 0x0fc19dc6, 0x240ca1cc, 0x2de92c6f, 0x4a7484aa, 0x5cb0a9dc, 0x76f988da,
  0x983e5152, 0xa831c66d, 0xb00327c8, 0xbf597fc7, 0xc6e00bf3, 0xd5a79147, 0x06ca6351, 0x14292967,
  0x27b70a85, 0x2e1b2138, 0x4d2c6dfc, 0x53380d13, 0x650a7354, 0x766a0abb, 0x81c2c92e, 0x92722c85,
  0xa2bfe8a1, 0xa81a664b, 0xc24b8b70, 0xc76c51a3, 0xd192e819, 0xd6990624, 0xf40e3585, 0x106aa070,
  0x19a4c116, 0x1e376c08, 0x2748774c, 0x34b0bcb5, 0x391c0cb3, 0x4ed8aa4a, 0x5b9cca4f, 0x682e6ff3,
  0x748f82ee, 0x78a5636f, 0x84c87814, 0x8cc70208, 0x90befffa, 0xa4506ceb, 0xbef9a3f7, 0xc67178f2]

/-- `K_sha512`, `fips-180.c:151-172`. -/
def kSha512 : List (BitVec 64) := [
  0x428a2f98d728ae22, 0x7137449123ef65cd, 0xb5c0fbcfec4d3b2f, 0xe9b5dba58189dbbc,
  0x3956c25bf348b538, 0x59f111f1b605d019, 0x923f82a4af194f9b, 0xab1c5ed5da6d8118,
  0xd807aa98a3030242, 0x12835b0145706fbe, 0x243185be4ee4b28c, 0x550c7dc3d5ffb4e2,
  0x72be5d74f27b896f, 0x80deb1fe3b1696b1, 0x9bdc06a725c71235, 0xc19bf174cf692694,
  0xe49b69c19ef14ad2, 0xefbe4786384f25e3, 0x0fc19dc68b8cd5b5, 0x240ca1cc77ac9c65,
  0x2de92c6f592b0275, 0x4a7484aa6ea6e483, 0x5cb0a9dcbd41fbd4, 0x76f988da831153b5,
  0x983e5152ee66dfab, 0xa831c66d2db43210, 0xb00327c898fb213f, 0xbf597fc7beef0ee4,
  0xc6e00bf33da88fc2, 0xd5a79147930aa725, 0x06ca6351e003826f, 0x142929670a0e6e70,
  0x27b70a8546d22ffc, 0x2e1b21385c26c926, 0x4d2c6dfc5ac42aed, 0x53380d139d95b3df,
  0x650a73548baf63de, 0x766a0abb3c77b2a8, 0x81c2c92e47edaee6, 0x92722c851482353b,
  0xa2bfe8a14cf10364, 0xa81a664bbc423001, 0xc24b8b70d0f89791, 0xc76c51a30654be30,
  0xd192e819d6ef5218, 0xd69906245565a910, 0xf40e35855771202a, 0x106aa07032bbd1b8,
  0x19a4c116b8d2d0c8, 0x1e376c085141ab53, 0x2748774cdf8eeb99, 0x34b0bcb5e19b48a8,
  0x391c0cb3c5c95a63, 0x4ed8aa4ae3418acb, 0x5b9cca4f7763e373, 0x682e6ff3d6b2b8a3,
  0x748f82ee5defb2fc, 0x78a5636f43172f60, 0x84c87814a1f0ab72, 0x8cc702081a6439ec,
  0x90befffa23631e28, 0xa4506cebde82bde9, 0xbef9a3f7b2c67915, 0xc67178f2e372532b,
  0xca273eceea26619c, 0xd186b8c721c0c207, 0xeada7dd6cde0eb1e, 0xf57d4f7fee6ed178,
  0x06f067aa72176fba, 0x0a637dc5a2c898a6, 0x113f9804bef90dae, 0x1b710b35131c471b,
  0x28db77f523047d84, 0x32caab7b40c72493, 0x3c9ebe0a15c9bebc, 0x431d67c49c100d4c,
  0x4cc5d4becb3e42b6, 0x597f299cfc657e2a, 0x5fcb6fab3ad6faec, 0x6c44198c4a475817]

/-- The macros and the table of `compressfunc_sha256_ci`, `fips-180.c:64-109`. -/
def par256 : Par 32 where
  S0 x := rotr x 2 ^^^ rotr x 13 ^^^ rotr x 22
  S1 x := rotr x 6 ^^^ rotr x 11 ^^^ rotr x 25
  s0 x := rotr x 7 ^^^ rotr x 18 ^^^ x >>> 3
  s1 x := rotr x 17 ^^^ rotr x 19 ^^^ x >>> 10
  K := kSha256
  rounds := 64
  ld := ld32

/-- The macros and the table of `compressfunc_sha512_ci`, `fips-180.c:151-200`. -/
def par512 : Par 64 where
  S0 x := rotr x 28 ^^^ rotr x 34 ^^^ rotr x 39
  S1 x := rotr x 14 ^^^ rotr x 18 ^^^ rotr x 41
  s0 x := rotr x 1 ^^^ rotr x 8 ^^^ x >>> 7
  s1 x := rotr x 19 ^^^ rotr x 61 ^^^ x >>> 6
  K := kSha512
  rounds := 80
  ld := ld64

/-! ## SM3 -/

/-- `T`, `gbt-32905.c:6-11`. -/
def sm3T (j : Nat) : BitVec 32 := if j ≤ 15 then 0x79cc4519 else if j ≤ 63 then 0x7a879d8a else 0

/-- `FF`, `gbt-32905.c:13-27`. -/
def sm3FF (j : Nat) (X Y Z : BitVec 32) : BitVec 32 :=
  if j ≤ 15 then X ^^^ Y ^^^ Z else if j ≤ 63 then X &&& Y ||| X &&& Z ||| Y &&& Z else 0

/-- `GG`, `gbt-32905.c:29-43`. -/
def sm3GG (j : Nat) (X Y Z : BitVec 32) : BitVec 32 :=
  if j ≤ 15 then X ^^^ Y ^^^ Z else if j ≤ 63 then X &&& Y ||| ~~~X &&& Z else 0

/-- `P0`, `gbt-32905.c:45-48`. -/
def sm3P0 (X : BitVec 32) : BitVec 32 := X ^^^ (X <<< 9 ||| X >>> 23) ^^^ (X <<< 17 ||| X >>> 15)
/-- `P1`, `gbt-32905.c:50-53`. -/
def sm3P1 (X : BitVec 32) : BitVec 32 := X ^^^ (X <<< 15 ||| X >>> 17) ^^^ (X <<< 23 ||| X >>> 9)

/-- The body of the loop of `compressfunc_sm3_ci`, `gbt-32905.c:73-117`. -/
def sm3Round (s : S8 32) (j : Nat) : S8 32 :=
  let i := j % 32
  let SS1 := sm3T j
  let SS1 := if i ≠ 0 then SS1 <<< i ||| SS1 >>> (32 - i) else SS1
  let SS1 := SS1 + ((s.a <<< 12 ||| s.a >>> 20) + s.e)
  let SS1 := SS1 <<< 7 ||| SS1 >>> 25
  let SS2 := SS1 ^^^ (s.a <<< 12 ||| s.a >>> 20)
  let i := j % 16
  let TT1 := at_ s.W i ^^^ at_ s.W ((i + 4) % 16)
  let TT1 := TT1 + (sm3FF j s.a s.b s.c + s.d + SS2)
  let TT2 := sm3GG j s.e s.f s.g + s.h + SS1 + at_ s.W i
  let W := s.W.set i (sm3P1 (at_ s.W i ^^^ at_ s.W ((i + 7) % 16) ^^^ (at_ s.W ((i + 13) % 16) <<< 15 ||| at_ s.W ((i + 13) % 16) >>> 17)) ^^^
    (at_ s.W ((i + 3) % 16) <<< 7 ||| at_ s.W ((i + 3) % 16) >>> 25) ^^^ at_ s.W ((i + 10) % 16))
  ⟨TT1, s.a, s.b <<< 9 ||| s.b >>> 23, s.c, sm3P0 TT2, s.e, s.f <<< 19 ||| s.f >>> 13, s.g, W⟩

/-- `compressfunc_sm3_ci`, `gbt-32905.c:55-127`. -/
def sm3 (V : List (BitVec 32)) (M : List Byte) : List (BitVec 32) :=
  let W := (List.range 16).map (ld32 M)
  let s := (List.range 64).foldl sm3Round ⟨at_ V 0, at_ V 1, at_ V 2, at_ V 3, at_ V 4, at_ V 5, at_ V 6, at_ V 7, W⟩
  [at_ V 0 ^^^ s.a, at_ V 1 ^^^ s.b, at_ V 2 ^^^ s.c, at_ V 3 ^^^ s.d, at_ V 4 ^^^ s.e, at_ V 5 ^^^ s.f, at_ V 6 ^^^ s.g, at_ V 7 ^^^ s.h]

/-! ## The hash functions -/

/-- `for(i=0; i<k; i++) Msg32[i] = htobe32(H[i]);`, `sha.c:80-81`, `:152-153`, `sm3.c:65-66`. -/
def out32 (k : Nat) (H : List (BitVec 32)) : List Byte := (List.range k).flatMap fun i => st32 (at_ H i)
/-- `for(i=0; i<8; i++) Msg64[i] = htobe64(H[i]);`, `sha.c:275-276`. -/
def out64 (H : List (BitVec 64)) : List Byte := (List.range 8).flatMap fun i => st64 (at_ H i)

/-- SHA-1: `sha.c:9-92`. -/
def algSha1 : MD.Alg (List (BitVec 32)) where
  w := 4
  comp := sha1
  out := out32 5
  H0 := [0x67452301, 0xefcdab89, 0x98badcfe, 0x10325476, 0xc3d2e1f0]
  hlen := 20

/-- SHA-224: `sha.c:157-184`. -/
def algSha224 : MD.Alg (List (BitVec 32)) where
  w := 4
  comp := sha2 par256
  out := out32 8
  H0 := [0xc1059ed8, 0x367cd507, 0x3070dd17, 0xf70e5939, 0xffc00b31, 0x68581511, 0x64f98fa7, 0xbefa4fa4]
  hlen := 28

/-- SHA-256: `sha.c:186-213`. -/
def algSha256 : MD.Alg (List (BitVec 32)) where
  w := 4
  comp := sha2 par256
  out := out32 8
  H0 := [0x6a09e667, 0xbb67ae85, 0x3c6ef372, 0xa54ff53a, 0x510e527f, 0x9b05688c, 0x1f83d9ab, 0x5be0cd19]
  hlen := 32

/-- SHA-384: `sha.c:281-308`. -/
def algSha384 : MD.Alg (List (BitVec 64)) where
  w := 8
  comp := sha2 par512
  out := out64
  H0 := [0xcbbb9d5dc1059ed8, 0x629a292a367cd507, 0x9159015a3070dd17, 0x152fecd8f70e5939, 0x67332667ffc00b31, 0x8eb44a8768581511,
    0xdb0c2e0d64f98fa7, 0x47b5481dbefa4fa4]
  hlen := 48

/-- SHA-512: `sha.c:310-337`. -/
def algSha512 : MD.Alg (List (BitVec 64)) where
  w := 8
  comp := sha2 par512
  out := out64
  H0 := [0x6a09e667f3bcc908, 0xbb67ae8584caa73b, 0x3c6ef372fe94f82b, 0xa54ff53a5f1d36f1, 0x510e527fade682d1, 0x9b05688c2b3e6c1f,
    0x1f83d9abfb41bd6b, 0x5be0cd19137e2179]
  hlen := 64

/-- SHA-512/224: `sha.c:339-366`. -/
def algSha512t224 : MD.Alg (List (BitVec 64)) where
  w := 8
  comp := sha2 par512
  out := out64
  H0 := [0x8C3D37C819544DA2, 0x73E1996689DCD4D6, 0x1DFAB7AE32FF9C82, 0x679DD514582F9FCF, 0x0F6D2B697BD44DA8, 0x77E36F7304C48942,
    0x3F9D85A86A1D36C8, 0x1112E6AD91D692A1]
  hlen := 28

/-- SHA-512/256: `sha.c:368-395`. -/
def algSha512t256 : MD.Alg (List (BitVec 64)) where
  w := 8
  comp := sha2 par512
  out := out64
  H0 := [0x22312194FC2BF72C, 0x9F555FA3C84C64C2, 0x2393B86B6F53B151, 0x963877195940EABD, 0x96283EE2A88EFFE3, 0xBE5E1E2553863992,
    0x2B0199FC2C85B8AA, 0x0EB72DDC81C52CA2]
  hlen := 32

/-- SM3: `sm3.c:70-97`. -/
def algSm3 : MD.Alg (List (BitVec 32)) where
  w := 4
  comp := sm3
  out := out32 8
  H0 := [0x7380166f, 0x4914b2b9, 0x172442d7, 0xda8a0600, 0xa96f30bc, 0x163138aa, 0xe38dee4d, 0xb0fb0e4e]
  hlen := 32

end Fips180
