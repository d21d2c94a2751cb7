import Verif.Spec.Words

/-!
# Model of `src/1-symm/sponge.c`, `src/2-hash/sha3.c`, `src/2-xof/shake.c`, `src/2-mac/kmac.c`

The permutation is a parameter `perm` on the byte state.  (The fully concrete Keccak-p permutation is in
`Verif/Model/Keccak.lean`.)
-/

namespace Sponge
abbrev Byte := BitVec 8

/-- `sponge_t` with its two appended state blocks, `sponge.h:11-39` (the block size is the length of
`state`; the permutation is passed separately). -/
structure Ctx where
  rate : Nat
  lopad : Byte
  hipad : Byte
  finalized : Bool
  filled : Nat
  state : List Byte
  saved : List Byte
deriving DecidableEq

/-- `SPONGE_INIT` with a zeroed state, `sponge.h:41-46`; `blk` is `BLOCK_BYTES(p)`. -/
def init (rate : Nat) (lo hi : Byte) (blk : Nat) : Ctx :=
  { rate, lopad := lo, hipad := hi, finalized := false, filled := 0,
    state := List.replicate blk 0, saved := List.replicate blk 0 }

variable (perm : List Byte → List Byte)

/-- The body of the `while(len)` loop of `Sponge_Update`, `sponge.c:32-42`. -/
def absorbByte (s : Ctx) (b : Byte) : Ctx :=
  let s := { s with state := s.state.modify s.filled (· ^^^ b), filled := s.filled + 1 }
  if s.filled = s.rate then { s with state := perm s.state, filled := 0 } else s

/-- `Sponge_Update` with non-NULL data, `sponge.c:6-43`. -/
def update (s : Ctx) (data : List Byte) : Ctx := data.foldl (absorbByte perm) s

/-- `Sponge_Update(s, NULL, 1)`, `sponge.c:11-30` and `:38-40`: always permutes. -/
def updateNull (s : Ctx) : Ctx := { s with state := perm s.state, filled := 0 }

/-- `Sponge_Final`, `sponge.c:45-62`. -/
def final (s : Ctx) : Ctx :=
  if s.finalized then s
  else
    let st := s.state.modify s.filled (· ^^^ s.lopad)
    let st := st.modify (s.rate - 1) (· ^^^ s.hipad)
    { s with state := perm st, filled := 0, finalized := true }

/-- The body of the loop of `Sponge_Read`, `sponge.c:69-77`. -/
def readByte (s : Ctx) : Byte × Ctx :=
  let b := s.state.getD s.filled 0
  let s := { s with filled := s.filled + 1 }
  (b, if s.filled = s.rate then { s with state := perm s.state, filled := 0 } else s)

/-- `Sponge_Read`, `sponge.c:64-78`. -/
def read (s : Ctx) : (len : Nat) → List Byte × Ctx
  | 0 => ([], s)
  | len + 1 =>
    let (b, s) := readByte perm s
    let (bs, s) := read s len
    (b :: bs, s)

/-- `Sponge_Save`, `sponge.c:80-88`. -/
def save (s : Ctx) : Ctx := { s with saved := s.state }

/-- `Sponge_Restore`, `sponge.c:90-99`. -/
def restore (s : Ctx) : Ctx := { s with state := s.saved, filled := 0 }

/-! ### SHA-3 (`sha3.c`) -/

/-- `SHA3_*_Init`, `sha3.c:7-19`; `rate` is `200 - 2*hlen`. -/
def sha3Init (rate : Nat) : Ctx := init rate 0x06 0x80 200

/-- `SHA3_Final`, `sha3.c:30-45`: the `t` output bytes and the new context. -/
def sha3Final (x : Ctx) (t : Nat) : List Byte × Ctx :=
  let hlen := (200 - x.rate) / 2
  let x := if x.finalized then x else save (final perm x)
  let x := restore x
  let (out, x) := read perm x (if t < hlen then t else hlen)
  (out ++ List.replicate (t - hlen) 0, x)

/-! ### SHAKE (`shake.c`) -/

/-- `SHAKE128_Init`, `SHAKE256_Init`, `shake.c:7-21`. -/
def shakeInit (rate : Nat) : Ctx := init rate 0x1f 0x80 200

/-- `SHAKE_Final`, `shake.c:28-40`. -/
def shakeFinal (x : Ctx) : Ctx := if x.finalized then restore x else save (final perm x)

/-! ### cSHAKE (`shake.c`) -/

/-- `ilen`, `shake.c:47-60`. -/
def ilen (v : BitVec 64) : Nat :=
  let v := v.toNat
  if v < 2 ^ 56 then
    if v < 2 ^ 48 then
      if v < 2 ^ 40 then
        if v < 2 ^ 32 then
          if v < 2 ^ 24 then
            if v < 2 ^ 16 then
              if v < 2 ^ 8 then 1 else 2
            else 3
          else 4
        else 5
      else 6
    else 7
  else 8

/-- `htobe64` seen as bytes `b.c[0..7]`, `shake.c:64-69`. -/
def be64 (v : BitVec 64) : List Byte := (List.range 8).map fun i => (v >>> (8 * (7 - i))).setWidth 8

/-- `cshake_left_encode`, `shake.c:62-74`. -/
def leftEncode (x : Ctx) (v : BitVec 64) : Ctx :=
  let o := ilen v
  let x := update perm x [BitVec.ofNat 8 o]
  update perm x (((be64 v).drop (8 - o)).take o)

/-- `cshake_right_encode`, `shake.c:76-88`. -/
def rightEncode (x : Ctx) (v : BitVec 64) : Ctx :=
  let o := ilen v
  let x := update perm x (((be64 v).drop (8 - o)).take o)
  update perm x [BitVec.ofNat 8 o]

/-- `cshake_encode_string`, `shake.c:90-97`; `len * 8` is computed in `size_t`.  (With a null `S` of
non-zero length the code would take the padding branch of `Sponge_Update`; strings are real here.) -/
def encodeString (x : Ctx) (S : List Byte) : Ctx :=
  let x := leftEncode perm x (BitVec.ofNat 64 S.length * 8#64)
  update perm x S

/-- `SHAKE_Xctrl(x, SHAKE_cSHAKE_customize, {N, S}, 2, 0)`, `shake.c:99-143`. -/
def customize (x : Ctx) (N S : List Byte) : Ctx :=
  let rate := x.rate
  if N.length = 0 ∧ S.length = 0 then init rate 0x1f 0x80 200
  else
    let x := init rate 0x04 0x80 200
    let x := leftEncode perm x (BitVec.ofNat 64 rate)
    let x := encodeString perm x N
    let x := encodeString perm x S
    updateNull perm x

/-! ### KMAC (`kmac.c`) -/

/-- The bytes of `"KMAC"`, `kmac.c:16`. -/
def kmacName : List Byte := [0x4B, 0x4D, 0x41, 0x43]

/-- `KMAC_VInit`, `kmac.c:6-32`; `none` is the NULL return. -/
def kmacInit (k s : List Byte) (rate : Nat) : Option Ctx :=
  if rate ≥ 200 then none
  else
    let x := init rate 0x0f 0x80 200
    let x := customize perm x kmacName s
    let x := leftEncode perm x (BitVec.ofNat 64 rate)
    let x := encodeString perm x k
    some (updateNull perm x)

/-- `KMAC_Final`, `kmac.c:107-122`. -/
def kmacFinal (x : Ctx) (t : Nat) : List Byte × Ctx :=
  let x := if x.finalized then restore x else save x
  let x := rightEncode perm x (BitVec.ofNat 64 t * 8#64)
  let x := final perm x
  read perm x t

/-- `KMAC_XofFinal`, `kmac.c:124-136`. -/
def kmacXofFinal (x : Ctx) : Ctx :=
  let x := if x.finalized then restore x else save x
  let x := rightEncode perm x 0#64
  final perm x

end Sponge
