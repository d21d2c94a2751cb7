import Verif.Model.RsaDer
import Verif.Model.RsaKeygen

/-!
# PKCS #1 key contexts: `src/3-pkcs1/pkcs1.c`, `pkcs1.h`

A context is one object in memory: a header of 88 octets (LP64), the working area of the two hash functions, the RSA context.  The memory
is `RsaDer.Mem`, 32-bit words counted from the start of the object; the working area of the hash functions is taken to be a multiple of
4 octets, as `sizeof` of every hash context of the library is.
-/

namespace Pkcs1Glue
open Vlong
open RsaDer (Mem Res Byte)

/-- What a hash function object answers to the queries `contextBytes`, `outBytes`, `outTruncBytes`, and the addresses of its functions,
`mysuitea-common.h:549-584`. -/
structure HashObj where
  contextBytes : Nat
  outBytes : Int
  outTruncBytes : Int
  init : BitVec 64
  update : BitVec 64
  xfinal : BitVec 64
  read : BitVec 64
  final : BitVec 64

/-- `OUT_BYTES`, `mysuitea-common.h:560-561`. -/
def outBytes (h : HashObj) : Int := if h.outBytes > 4 then h.outBytes else h.outTruncBytes

/-- `PKCS1_HASH_CTX_SIZE`, `pkcs1-padding.h:75-80`. -/
def hashCtx (a b : HashObj) : Nat := if a.contextBytes > b.contextBytes then a.contextBytes else b.contextBytes

/-- A 64-bit value in memory, little-endian. -/
def two (p : BitVec 64) : List W := [p.setWidth 32, (p >>> 32).setWidth 32]

/-- `HASH_FUNCS_SET_INIT`, `hash-funcs-set.h:20-27`. -/
def funcs (h : HashObj) : List W :=
  two h.init ++ two h.update ++ two h.xfinal ++ two (if h.xfinal ≠ 0 then h.read else h.final)

/-- `PKCS1_PADDING_ORACLES_BASE_INIT`, `pkcs1-padding.h:49-57`: `status`, `slen`, `hlen_msg`, `hlen_mgf`, the two sets of functions. -/
def poBase (a b : HashObj) : List W :=
  [0, BitVec.ofInt 32 (outBytes a), BitVec.ofInt 32 (outBytes a), BitVec.ofInt 32 (outBytes b)] ++ funcs a ++ funcs b

/-- `PKCS1_PRIV_CTX_INIT`, `pkcs1.h:50-57`. -/
def privInit (a b : HashObj) : List W := two (BitVec.ofNat 64 (88 + hashCtx a b)) ++ poBase a b

/-- `PKCS1_PUB_CTX_INIT`, `pkcs1.h:92-99`: `sizeof(ptrdiff_t)` and `PKCS1_PADDING_ORACLES_CTX_SIZE`, `pkcs1-padding.h:83-85`. -/
def pubInit (a b : HashObj) : List W := two (BitVec.ofNat 64 (8 + (80 + hashCtx a b))) ++ poBase a b

/-- `*x = ...;` with a structure of the given words. -/
def store (m : Mem) (ws : List W) : Mem := fun j => if j < ws.length then ws.getD j 0 else m j

/-- `x->offset_rsa_privctx`, `x->offset_rsa_pubctx`: the first member. -/
def offset (m : Mem) : Nat := ((m 0).zeroExtend 64 ||| (m 1).zeroExtend 64 <<< 32).toNat

/-- The object at `DeltaTo(x, offset)`, `struct-delta.c.h:5-6`. -/
def rsaPart (m : Mem) : Mem := fun j => m (offset m / 4 + j)

/-- The memory after a function that was given that object has changed it to `r`. -/
def putRsa (m r : Mem) : Mem := fun j => if offset m / 4 ≤ j then r (j - offset m / 4) else m j

/-- `PKCS1_Decode_RSAPublicKey`, `pkcs1.c:111-133`. -/
def decodePub (a b : HashObj) (x : Option Mem) (enc : List Byte) : Res (Nat × Option Mem) := do
  let x := x.map fun m => store m (pubInit a b)
  let (ret, r) ← RsaDer.decodePub (x.map rsaPart) enc
  let ret := ret + 88
  let ret := ret + hashCtx a b
  return (ret, x.bind fun m => r.map (putRsa m))

/-- `PKCS1_Decode_RSAPrivateKey`, `pkcs1.c:53-75`. -/
def decodePriv (a b : HashObj) (x : Option Mem) (enc : List Byte) : Res (Nat × Option Mem) := do
  let x := x.map fun m => store m (privInit a b)
  let (ret, r) ← RsaDer.decodePriv (x.map rsaPart) enc
  let ret := ret + 88
  let ret := ret + hashCtx a b
  return (ret, x.bind fun m => r.map (putRsa m))

/-- `PKCS1_Encode_RSAPrivateKey`, `pkcs1.c:43-51`. -/
def encodePriv (junk : List Byte) (m : Mem) (buf : Option (List Byte)) : Res (Option (List Byte) × Nat) :=
  RsaDer.encodePriv junk (rsaPart m) buf

/-- `PKCS1_Export_RSAPublicKey`, `pkcs1.c:77-90`. -/
def exportPub (m : Mem) (buf : Option (List Byte)) : Res (Option (List Byte) × Nat) := RsaDer.exportPub (rsaPart m) buf

/-- `PKCS1_Encode_RSAPublicKey`, `pkcs1.c:96-109`. -/
def encodePub (m : Mem) (buf : Option (List Byte)) : Res (Option (List Byte) × Nat) := RsaDer.encodePub (rsaPart m) buf

/-- `PKCS1_Keygen` with a context, `pkcs1.c:13-32`; see `RsaKeygen.keygen`. -/
def keygen (a b : HashObj) (rng : RsaKeygen.Rng) (junk : RsaKeygen.Junk) (mf cf rf bits c : Nat) (m : Mem) : Option Mem :=
  let m := store m (privInit a b)
  (RsaKeygen.keygen rng junk mf cf rf bits c (rsaPart m)).map (putRsa m)

/-- `PKCS1_Keygen` without a context, `pkcs1.c:28-38`. -/
def keygenSize (a b : HashObj) (bits c : Nat) : Nat :=
  let ret := RsaKeygen.ctxSize bits c
  let ret := ret + 88
  ret + hashCtx a b

/-- `RSA_PUB_CTX_SIZE`, `rsa.h:90-96`. -/
def rsaPubSize (bits : Nat) : Nat := 4 * (Pkcs1.bitsWcnt bits + 1) * (4 + 1) + 4 * (Pkcs1.bitsWcnt 17 + 1) + 28

/-- An element of a parameter array: `CryptoParam_t`, `mysuitea-common.h:80-89`, of which only `info` or `aux` is used. -/
structure Param where
  info : HashObj
  aux : Nat

/-- The answers that are sizes: `bytesCtxPriv`, `bytesCtxPub`. -/
inductive Query
  | ctxPriv
  | ctxPub

/-- `cRSA_PKCS1`, `pkcs1.h:147-153`, with `PKCS1_PRIV_CTX_SIZE` and `PKCS1_PUB_CTX_SIZE`, `pkcs1.h:35-48` and `78-90`. -/
def cRsa (a b : HashObj) (bits c : Nat) : Query → Nat
  | .ctxPriv => hashCtx a b + RsaKeygen.ctxSize bits c + 88
  | .ctxPub => hashCtx a b + rsaPubSize bits + 88

/-- A `t` object of the four schemes asked with a parameter array `P` that is not NULL: `assert( P[i].aux >= 2 )` (reading outside of the array
is `oob`, a failed assertion `abort`), then the answer. -/
def tQuery (i : Nat) (P : List Param) (q : Query) : Res Nat :=
  match P[i]? with
  | none => .oob
  | some x =>
    if x.aux < 2 then .abort
    else match P with
      | p0 :: p1 :: p2 :: p3 :: _ => .ok (cRsa p0.info p1.info p2.aux p3.aux q)
      | _ => .oob

/-- `tRSAES_OAEP`, `rsaes-oaep.c:5-14`; `tRSAES_PKCS1_v1_5` and `tRSASSA_PKCS1_v1_5` are the same (`rsaes-pkcs1-v1_5.c:5-14`,
`rsassa-pkcs1-v1_5.c:83-92`). -/
def tOaep : List Param → Query → Res Nat := tQuery 3

/-- `tRSASSA_PSS`, `rsassa-pss.c:5-14`. -/
def tPss : List Param → Query → Res Nat := tQuery 4

end Pkcs1Glue
