import Verif.Model.ShaNi
import Verif.Model.Sm4
import Verif.Model.Keccak

/-!
# Model of `src/1-symm-national/gbt-32905-arm.c`, `sm4-arm.c` and `src/1-symm/keccak-arm.c.h` (little-endian)
-/

namespace Fips180
open Spec.Isa

/-- `Q = (uint64x2_t *)&x; *Q = vtrn1q_u64(vtrn2q_u64(*Q, *Q), *Q); x = vtrn1q_u32(vtrn2q_u32(x, x), x);`,
`gbt-32905-arm.c:51-58`, `sm4-arm.c:29-31`, `:41-43`. -/
def rev4 (x : Q) : Q :=
  let d := x.toD
  let d := vtrn1d (vtrn2d d d) d
  let x := d.toQ
  vtrn1 (vtrn2 x x) x

/-- Registers of `compressfunc_sm3_ni`. -/
structure A3 where
  W : List Q
  abcd : Q
  efgh : Q

/-- `CF1Rnd(mod4)`, `gbt-32905-arm.c:8-21`.  `shl` is what `<<` on `uint32_t` does: C defines it for counts below 32 only. -/
def cf1Rnd (shl : BitVec 32 → Nat → BitVec 32) (i : Nat) (s : A3) (mod4 : Nat) : A3 :=
  let j := i * 4 + mod4
  let buf := sm3T j
  let buf := if j % 32 ≠ 0 then shl buf j ||| buf >>> (32 - j % 32) else buf
  let t := vsm3ss1 s.abcd s.efgh (dup32 buf)
  let abcd := if i < 4 then vsm3tt1a s.abcd t ((atq s.W (i % 4)).xor (atq s.W ((i + 1) % 4))) mod4
    else vsm3tt1b s.abcd t ((atq s.W (i % 4)).xor (atq s.W ((i + 1) % 4))) mod4
  let efgh := if i < 4 then vsm3tt2a s.efgh t (atq s.W (i % 4)) mod4 else vsm3tt2b s.efgh t (atq s.W (i % 4)) mod4
  ⟨s.W, abcd, efgh⟩

/-- The loop body, `gbt-32905-arm.c:71-102`; the index tables `tbli1`, `tbli2` (`:33-44`) select four lanes from lane 3 and from lane 2. -/
def armSm3Step (shl : BitVec 32 → Nat → BitVec 32) (s : A3) (i : Nat) : A3 :=
  let s := cf1Rnd shl i s 0
  let s := cf1Rnd shl i s 1
  let s := cf1Rnd shl i s 2
  let s := cf1Rnd shl i s 3
  let W := s.W
  let t := vsm3partw1 (atq W (i % 4)) (tblLanes (atq W ((i + 1) % 4)) (atq W ((i + 2) % 4)) 3) (atq W ((i + 3) % 4))
  let W := W.set (i % 4) (vsm3partw2 t (tblLanes (atq W ((i + 2) % 4)) (atq W ((i + 3) % 4)) 2)
    (tblLanes (atq W ((i + 0) % 4)) (atq W ((i + 1) % 4)) 3))
  { s with W := W }

/-- `compressfunc_sm3_ni`, `gbt-32905-arm.c:23-109`. -/
def armSm3 (shl : BitVec 32 → Nat → BitVec 32) (V : List (BitVec 32)) (M : List (BitVec 8)) : List (BitVec 32) :=
  let abcd := rev4 ⟨at_ V 0, at_ V 1, at_ V 2, at_ V 3⟩
  let efgh := rev4 ⟨at_ V 4, at_ V 5, at_ V 6, at_ V 7⟩
  let W := (List.range 4).map (armLoad M)
  let s := (List.range 16).foldl (armSm3Step shl) ⟨W, abcd, efgh⟩
  [at_ V 0 ^^^ s.abcd.l3, at_ V 1 ^^^ s.abcd.l2, at_ V 2 ^^^ s.abcd.l1, at_ V 3 ^^^ s.abcd.l0,
   at_ V 4 ^^^ s.efgh.l3, at_ V 5 ^^^ s.efgh.l2, at_ V 6 ^^^ s.efgh.l1, at_ V 7 ^^^ s.efgh.l0]

end Fips180

namespace Sm4
open Spec.Isa Fips180

/-- Four words of a table from word `o`: `vld1q_u32(p + o)`. -/
def ldq (l : List Sbox.W) (o : Nat) : Q := ⟨l.getD o 0, l.getD (o + 1) 0, l.getD (o + 2) 0, l.getD (o + 3) 0⟩

/-- The octets of a vector in memory: `vst1q_u32`. -/
def stq (q : Q) : List Byte :=
  [q.l0, q.l1, q.l2, q.l3].flatMap fun w => [w.extractLsb' 0 8, w.extractLsb' 8 8, w.extractLsb' 16 8, w.extractLsb' 24 8]

/-- `NI_SM4Feistel`, `sm4-arm.c:6-53`. -/
def armFeistel (inp : List Byte) (rk : List Sbox.W) (rev : Bool) : List Byte :=
  let X := armLoad inp 0
  let X := (List.range 8).foldl (fun X i =>
    let rk := if rev then rev4 (ldq rk (28 - i * 4)) else ldq rk (i * 4)
    vsm4e X rk) X
  let X := rev4 X
  rev32 (stq X)

/-- `NI_SM4Encrypt`, `NI_SM4Decrypt`, `sm4-arm.c:55-63`. -/
def armEncrypt (inp : List Byte) (rk : List Sbox.W) : List Byte := armFeistel inp rk false
def armDecrypt (inp : List Byte) (rk : List Sbox.W) : List Byte := armFeistel inp rk true

/-- `NI_SM4KeySched`, `sm4-arm.c:68-87`; the stored vectors are the list of their lanes. -/
def armKeySched (key : List Byte) : List Sbox.W :=
  let K := armLoad key 0
  let K := K.xor (ldq FK 0)
  ((List.range 8).foldl (fun (s : Q × List Sbox.W) i =>
    let K := vsm4ekey s.1 (ldq CK (i * 4))
    (K, s.2 ++ [K.l0, K.l1, K.l2, K.l3])) (K, [])).2

end Sm4

namespace Keccak
open Spec.Isa

/-- `vcombine_u64(vcreate_u64(lo), vcreate_u64(hi))`. -/
def vcomb (lo hi : W) : D := ⟨lo, hi⟩

/-- `veor3q_u64(veor3q_u64(row 0, row 1, row 2), row 3, row 4)` of columns `x`, `x'`, the pattern of `keccak-arm.c.h:51-85`. -/
def colPair (A : State) (x x' : Nat) : D :=
  veor3 (veor3 (vcomb (get A 0 x) (get A 0 x')) (vcomb (get A 1 x) (get A 1 x')) (vcomb (get A 2 x) (get A 2 x')))
    (vcomb (get A 3 x) (get A 3 x')) (vcomb (get A 4 x) (get A 4 x'))

/-- `theta64`, `keccak-arm.c.h:46-112`. -/
def theta64 (A : State) : State :=
  let C0 := colPair A 4 0
  let C1 := colPair A 1 2
  let C2 := colPair A 3 4
  let C3 := colPair A 0 1
  let D := vrax1 C0 C1
  let A := (List.range 5).foldl (fun A y =>
    let T := (vcomb (get A y 0) (get A y 1)).xor D
    let A := put A y 0 T.l0
    put A y 1 T.l1) A
  let D := vrax1 C1 C2
  let A := (List.range 5).foldl (fun A y =>
    let T := (vcomb (get A y 2) (get A y 3)).xor D
    let A := put A y 2 T.l0
    put A y 3 T.l1) A
  let D := vrax1 C2 C3
  (List.range 5).foldl (fun A y =>
    let T := (vcomb (get A y 4) 0).xor D
    put A y 4 T.l0) A

/-- `chi64`, `keccak-arm.c.h:117-148`. -/
def chi64 (A : State) : State :=
  (List.range 5).foldl (fun A y =>
    let V0 := vcomb (get A y 0) (get A y 1)
    let V1 := vcomb (get A y 2) (get A y 3)
    let V2 := vcomb (get A y 4) (get A y 0)
    let V3 := vcomb (get A y 1) (get A y 2)
    let V4 := vcomb (get A y 3) (get A y 4)
    let T := vbcax V0 V1 V3
    let A := put A y 0 T.l0
    let A := put A y 1 T.l1
    let T := vbcax V1 V2 V4
    let A := put A y 2 T.l0
    let A := put A y 3 T.l1
    let T := vbcax V2 V3 V0
    put A y 4 T.l0) A

/-- One round of the loop of the permutation, `keccak-arm.c.h:167-171`. -/
def roundStepNi (rounds : Nat) (s : State × BitVec 32) (ir : Nat) : State × BitVec 32 :=
  let A := if ir + rounds ≥ 24 then chi64 (pi (rho (theta64 s.1))) else s.1
  let (RC, lfsr) := iotaLoop s.2
  (if ir + rounds ≥ 24 then put A 0 0 (get A 0 0 ^^^ RC) else A, lfsr)

/-- `KeccakP1600_Permute_ni`, `keccak-arm.c.h:153-174`. -/
def permuteNi (rounds : Nat) (inp : List Byte) : List Byte :=
  let A := (List.range 25).map (ld inp)
  let s := (List.range 24).foldl (roundStepNi rounds) (A, 1)
  s.1.flatMap st

end Keccak
