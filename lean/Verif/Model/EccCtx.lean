import Verif.Model.Pkcs1Glue

/-!
# Working contexts of the elliptic curve schemes

`src/3-ecc-common/ecc-common.{h,c}`, `src/3-sec1/{ecdsa,ecdh-kem}.{h,c}`, `src/3-sm2/sm2sig.{h,c}`, `src/3-rfc-7748,8032/{eddsa.h,eddsa-misc.c,rfc-7748.h,rfc-7748.c}`,
`src/2-ec/{ecp-xyz,ecEd,ecMt}.{h,c}`.  A context is one object in memory; the memory is `RsaDer.Mem`, 32-bit words counted from the start of the object
(LP64 data model, working areas of hash functions a multiple of 4 octets).  What is modelled here is the set-up of a context (where the parts are
put and the word counts they are given) and the sizes that are announced; the arithmetic on the parts is modelled in `EcField`, `Ecp`, `EcEd`, `EcMt`.
-/

namespace EccCtx
open Vlong
open RsaDer (Mem)
open Pkcs1 (bitsWcnt)
open Pkcs1Glue (HashObj two funcs outBytes store)

/-- `VLONG_BITS_SIZE`, `vlong.h:36-40`. -/
def bitsSize (bits : Nat) : Nat := 4 * (bitsWcnt bits + 1)

/-- `*p = ...;` with a structure of the given words, `p` at word `i`. -/
def storeAt (m : Mem) (i : Nat) (ws : List W) : Mem := fun j => if i ≤ j ∧ j < i + ws.length then ws.getD (j - i) 0 else m j

/-- An object at word `base` that is a header of `n` offsets followed by `n` integers: the header is stored, then through each offset the
word count of the integer.  The C functions below are unrolled. -/
def partsInit (n : Nat) (m : Mem) (base bits : Nat) : Mem :=
  (List.range n).foldl (fun m i => m.put (base + (m (base + i)).toNat / 4) (BitVec.ofNat 32 (bitsWcnt bits)))
    (storeAt m base ((List.range n).map fun i => BitVec.ofNat 32 (4 * n + bitsSize bits * i)))

/-- `ecp_xyz_init`, `ecp-xyz.c:361-368`, with `ECP_XYZ_HDR_INIT`, `ecp-xyz.h:134-142`. -/
def ecpXyzInit : Mem → Nat → Nat → Mem := partsInit 3

/-- `ecp_opctx_init`, `ecp-xyz.c:370-381`, with `ECP_OPCTX_HDR_INIT`, `ecp-xyz.h:165-179`. -/
def ecpOpctxInit : Mem → Nat → Nat → Mem := partsInit 6

/-- `ecEd_xytz_init`, `ecEd.c:296-304`, with `ECED_XYTZ_HDR_INIT`, `ecEd.h:105-115`. -/
def edXytzInit : Mem → Nat → Nat → Mem := partsInit 4

/-- `ecEd_opctx_init`, `ecEd.c:306-315`, with `ECED_OPCTX_HDR_INIT`, `ecEd.h:140-152`. -/
def edOpctxInit : Mem → Nat → Nat → Mem := partsInit 5

/-- `ecMt_opctx_init`, `ecMt.c:136-152`, with `ECMT_OPCTX_HDR_INIT`, `ecMt.h:49-75`. -/
def mtOpctxInit : Mem → Nat → Nat → Mem := partsInit 12

/-! ## Short Weierstrass curves -/

/-- A curve object `x_Curve(q,bits,...)`, `ecp-xyz.h:212-227`: the number of bits the sizes are computed from, the address of the curve and the
member `plen` found there. -/
structure Curve where
  bits : Nat
  plen : Nat
  ptr : BitVec 64

/-- `i_secp256r1`, `curves-secp.h:14`; `plen` from `curve-secp256r1.c:124`. -/
def p256 (ptr : BitVec 64) : Curve := { bits := 256, plen := 32, ptr := ptr }
/-- `i_secp384r1`, `curves-secp.h:15`; `plen` from `curve-secp384r1.c:144`. -/
def p384 (ptr : BitVec 64) : Curve := { bits := 384, plen := 48, ptr := ptr }
/-- `i_curveSM2`, `curveSM2.h:11`; `plen` from `curveSM2.c:124`. -/
def sm2 (ptr : BitVec 64) : Curve := { bits := 256, plen := 32, ptr := ptr }

/-- `crv(bytesOpCtx)`: `ECP_OPCTX_SIZE`, `ecp-xyz.h:129-132`. -/
def ecpOpctxSize (bits : Nat) : Nat := 24 + bitsSize bits * 6
/-- `crv(bytesECXYZ)`: `ECP_XYZ_SIZE`, `ecp-xyz.h:124-127`. -/
def ecpXyzSize (bits : Nat) : Nat := 12 + bitsSize bits * 3

/-- `ECC_SIZE_OF_CTX_HDR`, `ecc-common.h:72-75`; `h` is `hash(contextBytes)`. -/
def hdrSize (h : Nat) : Nat := if h ≠ 0 then 160 else 48

/-- `ECC_CTX_SIZE`, `ecc-common.h:77-84`. -/
def eccSize (c : Curve) (h : Nat) : Nat := ecpOpctxSize c.bits + ecpXyzSize c.bits * 4 + bitsSize c.bits * 2 + h + hdrSize h

/-- `ECC_CTX_INIT` of an `ECC_Base_Ctx_Hdr_t`, `ecc-common.h:86-118`, members in the order of `ecc-common.h:13-31`: `offset_d`, `offset_Q`,
`offset_k`, `offset_R`, `offset_Tmp1`, `offset_Tmp2`, `offset_opctx`, `status`, `context_type`, `curve`. -/
def eccHdr (c : Curve) (h : Nat) : List W :=
  let b := hdrSize h + h
  let xyz := ecpXyzSize c.bits
  let o := ecpOpctxSize c.bits
  [BitVec.ofNat 32 (b + o + xyz * 4 + bitsSize c.bits * 0), BitVec.ofNat 32 (b + o + xyz * 0),
   BitVec.ofNat 32 (b + o + xyz * 4 + bitsSize c.bits * 1), BitVec.ofNat 32 (b + o + xyz * 1),
   BitVec.ofNat 32 (b + o + xyz * 2), BitVec.ofNat 32 (b + o + xyz * 3), BitVec.ofNat 32 b, 0] ++ two 0 ++ two c.ptr

/-- `ecc_ctxinit_basic`, `ecc-common.c:56-77`. -/
def eccInit (c : Curve) (h : Nat) (m : Mem) : Mem :=
  let bits := c.plen * 8
  let m := store m (eccHdr c h)
  let m := m.put (m.at_ 0) (BitVec.ofNat 32 (Der.bytesWcnt c.plen))
  let m := m.put (m.at_ 2) (BitVec.ofNat 32 (Der.bytesWcnt c.plen))
  let m := ecpXyzInit m (m.at_ 3) bits
  let m := ecpXyzInit m (m.at_ 1) bits
  let m := ecpXyzInit m (m.at_ 4) bits
  let m := ecpXyzInit m (m.at_ 5) bits
  ecpOpctxInit m (m.at_ 6) bits

/-- What `ECDSA_Keygen`, `ECDSA_Decode_PrivateKey` and `ECDSA_Decode_PublicKey` write to the header after the key has been made or read:
`hlen`, `hfuncs`, `context_type`, `offset_hashctx`, `ecdsa.c:18-24`, `42-50` and `76-84`; the same for SM2, `sm2sig.c:73-80`, `103-111`. -/
def hashFields (a : HashObj) (m : Mem) : Mem :=
  let m := storeAt m 28 (two (BitVec.ofInt 64 (outBytes a)))
  let m := storeAt m 32 (funcs a)
  let m := storeAt m 8 (two 2)
  storeAt m 30 (two 160)

/-- The set-up of an ECDSA or SM2 context; `key` is what making or reading the key does to the memory in between. -/
def dssInit (c : Curve) (a : HashObj) (key : Mem → Mem) (m : Mem) : Mem := hashFields a (key (eccInit c a.contextBytes m))

/-- The set-up of an ECDH-KEM context: the hash function is `iCryptoObj_Null`, `ecdh-kem.c:17-22`, `36-41`, `63-68`, `mysuitea-common.c:5`. -/
def kemInit (c : Curve) (m : Mem) : Mem := eccInit c 0 m

/-! ## Edwards curves -/

/-- A curve object `xCurveEd(q,bits,...)`, `ecEd.h:192-200`, and the member `pbits` found at the address. -/
structure CurveEd where
  bits : Nat
  pbits : Nat
  ptr : BitVec 64

/-- `iCurveEd25519`, `curves-Ed.h:14`; `curve-Ed25519.c:55`. -/
def ed25519 (ptr : BitVec 64) : CurveEd := { bits := 256, pbits := 255, ptr := ptr }
/-- `iCurveEd448`, `curves-Ed.h:15`; `curve-Ed448.c:79`. -/
def ed448 (ptr : BitVec 64) : CurveEd := { bits := 448, pbits := 448, ptr := ptr }

/-- `ECED_OPCTX_SIZE`, `ecEd.h:100-103`. -/
def edOpctxSize (bits : Nat) : Nat := 20 + bitsSize bits * 5
/-- `ECED_XYTZ_SIZE`, `ecEd.h:95-98`. -/
def edXytzSize (bits : Nat) : Nat := 16 + bitsSize bits * 4

/-- `EDDSA_CTX_SIZE`, `eddsa.h:42-49`: the working area of the hash function is counted twice. -/
def edSize (c : CurveEd) (h : Nat) : Nat := edOpctxSize c.bits + edXytzSize c.bits * 4 + bitsSize c.bits * 2 + h * 2 + 472

/-- `EDDSA_CTX_INIT`, `eddsa.h:51-91`, members in the order of `eddsa.h:12-35`: 384 octets `ctxstr`, `sk`, `prefix`, then `offset_s`, `offset_A`,
`offset_r`, `offset_R`, `offset_Tmp1`, `offset_Tmp2`, `offset_opctx`, `status`, `flags`, `offset_hashctx`, `hashctx_size`, `curve`, `hfuncs`. -/
def edHdr (c : CurveEd) (h : Nat) : List W :=
  let b := 472 + h * 1
  let xytz := edXytzSize c.bits
  let o := edOpctxSize c.bits
  List.replicate 96 0 ++
  [BitVec.ofNat 32 (b + o + xytz * 4 + bitsSize c.bits * 0), BitVec.ofNat 32 (b + o + xytz * 0),
   BitVec.ofNat 32 (b + o + xytz * 4 + bitsSize c.bits * 1), BitVec.ofNat 32 (b + o + xytz * 1),
   BitVec.ofNat 32 (b + o + xytz * 2), BitVec.ofNat 32 (b + o + xytz * 3), BitVec.ofNat 32 b, 0, 0, BitVec.ofNat 32 (472 + h * 0)] ++
  two 0 ++ two c.ptr ++ List.replicate 8 0

/-- `eddsa_ctxinit_basic`, `eddsa-misc.c:21-49`. -/
def edInit (c : CurveEd) (a : HashObj) (m : Mem) : Mem :=
  let m := store m (edHdr c a.contextBytes)
  let m := m.put (m.at_ 96) (BitVec.ofNat 32 (bitsWcnt c.pbits))
  let m := m.put (m.at_ 98) (BitVec.ofNat 32 (bitsWcnt c.pbits))
  let m := edXytzInit m (m.at_ 97) c.pbits
  let m := edXytzInit m (m.at_ 99) c.pbits
  let m := edXytzInit m (m.at_ 100) c.pbits
  let m := edXytzInit m (m.at_ 101) c.pbits
  let m := edOpctxInit m (m.at_ 102) c.pbits
  let m := m.put 103 0
  let m := m.put 104 0
  let m := storeAt m 110 (funcs a)
  storeAt m 106 (two (BitVec.ofNat 64 a.contextBytes))

/-! ## Montgomery curves -/

/-- A curve object `xX25519`, `xX448`, `curves-Mt.h:11-26`, and the member `pbits` found at the address. -/
structure CurveMt where
  bits : Nat
  pbits : Nat
  ptr : BitVec 64

/-- `iX25519`, `curves-Mt.h:11-17`; `curve25519.c:32`. -/
def x25519 (ptr : BitVec 64) : CurveMt := { bits := 255, pbits := 255, ptr := ptr }
/-- `iX448`, `curves-Mt.h:19-25`; `curve448.c:31`. -/
def x448 (ptr : BitVec 64) : CurveMt := { bits := 448, pbits := 448, ptr := ptr }

/-- `ECMT_OPCTX_SIZE`, `ecMt.h:44-47`. -/
def mtOpctxSize (bits : Nat) : Nat := 48 + bitsSize bits * 12

/-- `XECDH_CTX_SIZE`, `rfc-7748.h:76-80`. -/
def mtSize (c : CurveMt) : Nat := 32 + mtOpctxSize c.bits + bitsSize c.bits * 3

/-- `XECDH_CTX_HDR_INIT`, `rfc-7748.h:82-96`, members in the order of `rfc-7748.h:26-32`: `offset_k`, `offset_K`, `offset_P`, `offset_opctx`,
`status`, `curve`. -/
def mtHdr (c : CurveMt) : List W :=
  [BitVec.ofNat 32 (32 + mtOpctxSize c.bits + bitsSize c.bits * 0), BitVec.ofNat 32 (32 + mtOpctxSize c.bits + bitsSize c.bits * 1),
   BitVec.ofNat 32 (32 + mtOpctxSize c.bits + bitsSize c.bits * 2), 32] ++ two 0 ++ two c.ptr

/-- The set-up of a context in `XECDH_Keygen`, `rfc-7748.c:39-47`, and `XECDH_Decode_PublicKey`, `rfc-7748.c:118-130`. -/
def mtInit (c : CurveMt) (m : Mem) : Mem :=
  let m := store m (mtHdr c)
  let m := mtOpctxInit m (m.at_ 3) c.pbits
  let m := m.put (m.at_ 0) (BitVec.ofNat 32 (bitsWcnt c.pbits))
  let m := m.put (m.at_ 1) (BitVec.ofNat 32 (bitsWcnt c.pbits))
  m.put (m.at_ 2) (BitVec.ofNat 32 (bitsWcnt c.pbits))

end EccCtx
