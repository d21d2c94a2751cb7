import Verif.Model.EcMt

/-!
# Model of `src/3-rfc-7748,8032/rfc-7748.c` with `src/2-ec/curve25519.c` and `curve448.c`

The context is the record of its four data fields; a field that a function leaves uninitialised is a
parameter of the model. A random source is represented by the octets it delivers.
-/

namespace Xecdh
open Vlong Ec

abbrev Byte := BitVec 8

/-- `ecMt_curve_t`, `ecMt.h:101-115`; `clamp` is the part of `gen_scl` acting on `sk`, `c` is
`VLONG_BITS_WCNT(pbits)`. -/
structure MtCurve where
  pbits : Nat
  a : Nat
  up : Nat
  sslen : Nat
  clamp : List Byte → List Byte
  a24 : W
  aux : Aux
  c : Nat

/-- The three statements on `sk` in `curve25519.c:21-23`. -/
def clamp25519 (sk : List Byte) : List Byte :=
  ((sk.modify 0 (· &&& 248)).modify 31 (· &&& 127)).modify 31 (· ||| 64)

/-- The two statements on `sk` in `curve448.c:21-22`. -/
def clamp448 (sk : List Byte) : List Byte := (sk.modify 0 (· &&& 252)).modify 55 (· ||| 128)

/-- `crv25519`, `curve25519.c:6-9` and `:31-38`. -/
def crv25519 : MtCurve := ⟨255, 486662, 9, 32, clamp25519, a24_25519, aux25519, 11⟩
/-- `crv448`, `curve448.c:6-9` and `:30-37`. -/
def crv448 : MtCurve := ⟨448, 156326, 5, 56, clamp448, a24_448, aux448, 17⟩

/-- `XECDH_Ctx_Hdr_t`, `rfc-7748.h:25-31`. -/
structure Ctx where
  curve : MtCurve
  k : List W
  K : List W
  P : List W
  status : Int

/-- `A24` of `rfc-7748.c:16`. -/
def a24Of (crv : MtCurve) : W := BitVec.ofNat 32 ((crv.a - 2) / 4)

/-- `xecdh_gen_scl`, `curve25519.c:11-29` (`curve448.c:11-28`): the new `k` and `K`. -/
def genScl (crv : MtCurve) (K : List W) (sk : List Byte) : List W × List W :=
  let k := decLSB crv.c (crv.clamp sk)
  (k, mtPointScale crv.aux crv.a24 crv.c k K crv.pbits)

/-- The words of the base point, `rfc-7748.c:52-53` and `:183-184`. -/
def baseWords (crv : MtCurve) : List W :=
  (List.range crv.c).map fun t => if t = 0 then BitVec.ofNat 32 crv.up else 0

/-- `XECDH_Keygen`, `rfc-7748.c:27-61`; `sk` are the octets of the generator, `P0` the memory of `P`. -/
def keygen (crv : MtCurve) (sk : List Byte) (P0 : List W) : Ctx :=
  let g := genScl crv (baseWords crv) sk
  ⟨crv, g.1, g.2, P0, 0⟩

/-- `XECDH_Encode_PrivateKey`, `rfc-7748.c:65-77`, with a buffer: the octets, or failure. -/
def encodePriv (x : Ctx) (enclen : Nat) : Option (List Byte) :=
  if enclen ≠ x.curve.sslen then none else some (encLSB x.k enclen)

/-- `XECDH_Decode_PrivateKey`, `rfc-7748.c:79-97`, and `stubprng`, `:7-11`. -/
def decodePriv (crv : MtCurve) (enc : List Byte) (P0 : List W) : Option Ctx :=
  if enc.length ≠ crv.sslen then none else some (keygen crv (enc.take crv.sslen) P0)

/-- `XECDH_Encode_PublicKey`, `rfc-7748.c:101-113`. -/
def encodePub (x : Ctx) (enclen : Nat) : Option (List Byte) :=
  if enclen ≠ x.curve.sslen then none else some (encLSB x.K enclen)

/-- `vl->v[7] &= INT32_MAX` on Curve25519, `rfc-7748.c:139-140` and `:273-274`. -/
def maskU (crv : MtCurve) (vl : List W) : List W :=
  if crv.a = 486662 ∧ crv.up = 9 ∧ crv.sslen = 32 then vl.modify 7 (· &&& 0x7fffffff#32) else vl

/-- `XECDH_Decode_PublicKey`, `rfc-7748.c:117-144`; `k0`, `P0` are the memory of `k` and `P`. -/
def decodePub (crv : MtCurve) (enc : List Byte) (k0 P0 : List W) : Ctx :=
  ⟨crv, k0, maskU crv (decLSB crv.c enc), P0, 0⟩

/-- The copy into the caller's buffer, `rfc-7748.c:177-181` and `:222-226`. -/
def copySS (tmp : List Byte) (ssl sslen : Nat) : List Byte :=
  (List.range sslen).map fun t => if t < ssl then tmp.getD t 0 else 0

/-- `XECDH_Enc`, `rfc-7748.c:146-191`, with a buffer: the secret and the context. -/
def enc (x : Ctx) (sslen : Nat) (sk : List Byte) : List Byte × Ctx :=
  let crv := x.curve
  let P := cpy crv.c x.K
  let g := genScl crv P sk
  let tmp := encLSB g.2 crv.sslen
  let P := baseWords crv
  (copySS tmp crv.sslen sslen,
    { x with k := g.1, P := mtPointScale crv.aux (a24Of crv) crv.c g.1 P crv.pbits })

/-- `XECDH_Dec`, `rfc-7748.c:197-243`, with a buffer: the secret and the context. -/
def dec (x : Ctx) (sslen : Nat) : List Byte × Ctx :=
  let crv := x.curve
  let x' := if x.status > 0 then x else
    { x with P := mtPointScale crv.aux (a24Of crv) crv.c x.k x.P crv.pbits, status := crv.sslen }
  (copySS (encLSB x'.P crv.sslen) crv.sslen sslen, x')

/-- `XECDH_Encode_Ciphertext`, `rfc-7748.c:249-258`, with a buffer. -/
def encodeCt (x : Ctx) (ctlen : Nat) : Option (List Byte) :=
  if ctlen ≠ x.curve.sslen then none else some (encLSB x.P ctlen)

/-- `XECDH_Decode_Ciphertext`, `rfc-7748.c:264-277`. -/
def decodeCt (x : Ctx) (ct : List Byte) : Ctx :=
  { x with status := 0, P := maskU x.curve (decLSB x.curve.c ct) }

end Xecdh
