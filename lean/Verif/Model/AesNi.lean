import Verif.Spec.Intrinsics
import Verif.Model.Aes

/-!
# Model of `src/1-symm/rijndael-x86.c`, `rijndael-arm.c` and `rijndael-ppc.c`

A vector register is the list of its sixteen octets in memory order; octets of `w` outside the list read as 0 (the callers pass `16 (Nr + 1)` octets).
-/
namespace Aes
open Spec Spec.Isa

/-- `_mm_loadu_si128(p + off)`, `vld1q_u8(p + off)`, `vec_xl_be(0, p + off)`. -/
def ldv (p : List Byte) (off : Nat) : List Byte := (List.range 16).map fun i => p.getD (off + i) 0

/-- `NI_Rijndael_Nb4_Cipher`, `rijndael-x86.c:12-33`. -/
def cipherX86 (inp w : List Byte) (Nr : Nat) : List Byte :=
  let state := ldv inp 0
  let rk := ldv w 0
  let state := xorBytes state rk
  let state := (List.range (Nr - 1)).foldl (fun state j =>
    let i := j + 1
    let rk := ldv w (i * 16)
    aesenc state rk) state
  let rk := ldv w (Nr * 16)
  aesenclast state rk

/-- The loop `for(i=Nr; --i>0; )`, `rijndael-x86.c:52-56`. -/
def invLoopX86 (w : List Byte) : Nat → List Byte → List Byte
  | 0, state => state
  | i + 1, state =>
    let rk := ldv w ((i + 1) * 16)
    let rk := aesimc rk
    invLoopX86 w i (aesdec state rk)

/-- `NI_Rijndael_Nb4_InvCipher`, `rijndael-x86.c:41-63`. -/
def invCipherX86 (inp w : List Byte) (Nr : Nat) : List Byte :=
  let state := ldv inp 0
  let rk := ldv w (Nr * 16)
  let state := xorBytes state rk
  let state := invLoopX86 w (Nr - 1) state
  let rk := ldv w 0
  aesdeclast state rk

/-- `NI_Rijndael_Nb4_Cipher`, `rijndael-arm.c:14-35`. -/
def cipherArm (inp w : List Byte) (Nr : Nat) : List Byte :=
  let state := ldv inp 0
  let rk := ldv w 0
  let state := aese state rk
  let state := (List.range (Nr - 1)).foldl (fun state j =>
    let i := j + 1
    let rk := ldv w (i * 16)
    let state := aesmc state
    aese state rk) state
  let rk := ldv w (Nr * 16)
  xorBytes state rk

/-- The loop `for(i=Nr; --i>0; )`, `rijndael-arm.c:53-58`. -/
def invLoopArm (w : List Byte) : Nat → List Byte → List Byte
  | 0, state => state
  | i + 1, state =>
    let rk := ldv w ((i + 1) * 16)
    let rk := aesimc rk
    let state := aesimc state
    invLoopArm w i (aesd state rk)

/-- `NI_Rijndael_Nb4_InvCipher`, `rijndael-arm.c:43-65`. -/
def invCipherArm (inp w : List Byte) (Nr : Nat) : List Byte :=
  let state := ldv inp 0
  let rk := ldv w (Nr * 16)
  let state := aesd state rk
  let state := invLoopArm w (Nr - 1) state
  let rk := ldv w 0
  xorBytes state rk

/-- `NI_Rijndael_Nb4_Cipher`, `rijndael-ppc.c:14-35`. -/
def cipherPpc (inp w : List Byte) (Nr : Nat) : List Byte :=
  let state := ldv inp 0
  let rk := ldv w 0
  let state := xorBytes state rk
  let state := (List.range (Nr - 1)).foldl (fun state j =>
    let i := j + 1
    let rk := ldv w (i * 16)
    vcipher state rk) state
  let rk := ldv w (Nr * 16)
  vcipherlast state rk

/-- The loop `for(i=Nr; --i>0; )`, `rijndael-ppc.c:54-57`. -/
def invLoopPpc (w : List Byte) : Nat → List Byte → List Byte
  | 0, state => state
  | i + 1, state =>
    let rk := ldv w ((i + 1) * 16)
    invLoopPpc w i (vncipher state rk)

/-- `NI_Rijndael_Nb4_InvCipher`, `rijndael-ppc.c:43-64`. -/
def invCipherPpc (inp w : List Byte) (Nr : Nat) : List Byte :=
  let state := ldv inp 0
  let rk := ldv w (Nr * 16)
  let state := xorBytes state rk
  let state := invLoopPpc w (Nr - 1) state
  let rk := ldv w 0
  vncipherlast state rk

end Aes
