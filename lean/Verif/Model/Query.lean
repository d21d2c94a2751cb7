import Verif.Model.Ccm
import Verif.Model.Mac
import Verif.Model.Camellia

/-!
# The uniform algorithm interface: what the objects announce

`iXXX(q)` / `cXXX(q)` of the headers as functions from a query to an integer, with `sizeof` of the context structures
computed from their members by the C layout rule for the LP64 data model (`int` 4, `short` 2, pointers and `size_t` 8).
Function-pointer queries (`EncFunc`, `KInitFunc`, ...) are not values of this model: the functions they name are the other
model files.
-/
namespace Query

/-- The queries answered with a number, `mysuitea-common.h:181-230`. -/
inductive Q
  | outBytes | blockBytes | keyBytes | keyschedBytes | contextBytes | ivBytes | tagBytes | chunkBytes | outTruncBytes
deriving DecidableEq

/-- `iCryptoObj_t`, `mysuitea-common.h:77`. -/
abbrev Obj := Q → Int

/-! ### Structure layout -/

/-- A member: its size and its alignment. -/
structure Field where
  size : Nat
  align : Nat

/-- The next multiple of `a`. -/
def alignUp (n a : Nat) : Nat := (n + a - 1) / a * a

/-- Where each member starts, and where the last one ends: every member at the next multiple of its alignment. -/
def place : Nat → List Field → List Nat × Nat
  | o, [] => ([], o)
  | o, f :: fs => let s := alignUp o f.align; let r := place (s + f.size) fs; (s :: r.1, r.2)

/-- The offsets of the members. -/
def offsets (fs : List Field) : List Nat := (place 0 fs).1
/-- The alignment of the structure. -/
def alignOf (fs : List Field) : Nat := fs.foldl (fun a f => max a f.align) 1
/-- `sizeof`. -/
def cSizeOf (fs : List Field) : Nat := alignUp (place 0 fs).2 (alignOf fs)

def u8s (n : Nat) : Field := ⟨n, 1⟩
def u16s (n : Nat) : Field := ⟨2 * n, 2⟩
def u32s (n : Nat) : Field := ⟨4 * n, 4⟩
def u64s (n : Nat) : Field := ⟨8 * n, 8⟩
/-- A structure as a member of another, `n` times. -/
def inner (n : Nat) (fs : List Field) : Field := ⟨n * cSizeOf fs, alignOf fs⟩

/-- `sha1_t`, `sha.h:11-21`: `finalized`, `filled`, `len`, `H[5]`, `pad_H6`, the message block. -/
def sha1T : List Field := [u32s 1, u32s 1, u64s 1, u32s 5, u32s 1, u32s 16]
/-- `sha256_t`, `sha.h:31-40`; `sm3_t`, `sm3.h:11-20`. -/
def sha256T : List Field := [u32s 1, u32s 1, u64s 1, u32s 8, u32s 16]
/-- `sha512_t`, `sha.h:53-62`. -/
def sha512T : List Field := [u32s 1, u32s 1, u64s 1, u64s 8, u64s 16]
/-- `sponge_t`, `sponge.h:11-39`. -/
def spongeT : List Field := [u32s 1, u32s 1, u32s 1, u32s 1, u64s 1, u64s 1]
/-- `sha3_t`, `sha3.h:13-19`; `shake_t`, `shake.h:12-18`; `kmac_t`, `kmac.h:13`: the sponge and two permutation blocks. -/
def sha3T : List Field := [inner 1 spongeT, u64s 25, u64s 25]
/-- `gimli_xof_t`, `gimli-xof.h:13-19`. -/
def gimliT : List Field := [inner 1 spongeT, u32s 12, u32s 12]
/-- `blake2b_t`, `blake2.h:11-19`. -/
def blake2bT : List Field := [u8s 128, u64s 8, u64s 1, u32s 1, u32s 1, u32s 1, u32s 1]
/-- `blake2s_t`, `blake2.h:24-32`. -/
def blake2sT : List Field := [u8s 64, u32s 8, u64s 1, u32s 1, u32s 1, u32s 1, u32s 1]
/-- `blake3_node_t`, `blake3.h:11-22`. -/
def blake3NodeT : List Field := [u8s 1, u8s 1, u16s 1, u32s 1, u64s 1, u64s 1, u32s 256]
/-- `blake3_t`, `blake3.h:36-60`. -/
def blake3T : List Field := [u32s 8, u64s 1, u8s 1, u8s 1, u16s 1, u16s 1, u16s 65, inner 65 blake3NodeT]
/-- `k12_inner_node_t`, `KangarooTwelve.h:20-25`. -/
def k12NodeT : List Field := [u16s 1, u16s 1, u32s 1, u8s 8192]
/-- `K12_Ctx_t`, `KangarooTwelve.h:33-46`. -/
def k12T : List Field := [inner 64 k12NodeT, inner 1 [inner 1 spongeT, u64s 25], u64s 1, u64s 1, u64s 1, u64s 1]
/-- `hmac_t`, `hmac.h:11-22`: `K0`, `tag`, `B`, `L`, `finalized`, `pad1`, `offset`, and three functions. -/
def hmacT : List Field := [u8s 256, u8s 64, u32s 1, u32s 1, u32s 1, u32s 1, u64s 1, u64s 1, u64s 1, u64s 1]
/-- `cmac_t`, `cmac.h:17-33`. -/
def cmacT : List Field := [u8s 16, u8s 16, u8s 16, u64s 1, u64s 1, u64s 1, u64s 1]
/-- `gcm_t`, `gcm.h:10-16`. -/
def gcmT : List Field := [u32s 4, u64s 1, u64s 1]
/-- `ccm_t`, `ccm.h:11-15`. -/
def ccmT : List Field := [u64s 1, u64s 1]
/-- `chacha_aead_t`, `chacha20-poly1305.h:13-16`, with `poly1305_t`, `poly1305.h:13-15`. -/
def chachaT : List Field := [u32s 16, inner 1 [u32s 5, u32s 5, u32s 5]]
/-- `hmac_drbg_t`, `hmac-drbg.h:11-27`. -/
def hmacDrbgT : List Field := [u32s 1, u32s 1, u16s 1, u16s 1, u32s 1, u64s 1, u64s 1, u64s 1, u64s 1]
/-- `ctr_drbg_t`, `ctr-drbg.h:14-29`. -/
def ctrDrbgT : List Field := [u64s 1, u64s 1, u64s 1, u64s 1, u64s 1, u64s 1, u64s 1, u64s 1]
/-- `camellia128_kschd_t` and `camellia256_kschd_t`, `camellia.h:8-17`. -/
def camelliaT (bits : Nat) : List Field := if bits = 128 then [u64s 1, u64s 1, u64s 1, u64s 1] else
  [u64s 1, u64s 1, u64s 1, u64s 1, u64s 1, u64s 1, u64s 1, u64s 1]

/-! ### Block ciphers -/

/-- `cAES(bits,q)`, `rijndael.h:29-33`. -/
def cAES (bits : Nat) : Obj
  | .blockBytes => 16 | .keyBytes => bits / 8 | .keyschedBytes => (bits / 32 + 6 + 1) * 16 | _ => 0
/-- `cSM4(q)`, `sm4.h:16-20`. -/
def cSM4 : Obj | .blockBytes => 16 | .keyBytes => 16 | .keyschedBytes => 32 * 4 | _ => 0
/-- `cSEED(q)`, `seed.h:12-16`. -/
def cSEED : Obj | .blockBytes => 16 | .keyBytes => 16 | .keyschedBytes => 16 * 8 | _ => 0
/-- `cARIA(bits,q)`, `aria.h:20-24`. -/
def cARIA (bits : Nat) : Obj
  | .blockBytes => 16 | .keyBytes => bits / 8 | .keyschedBytes => (bits / 32 + 8 + 1) * 16 | _ => 0
/-- `cCamellia(bits,q)`, `camellia.h:32-36`. -/
def cCamellia (bits : Nat) : Obj
  | .blockBytes => 16 | .keyBytes => bits / 8 | .keyschedBytes => cSizeOf (camelliaT bits) | _ => 0

/-! ### Hash functions -/

/-- `cSHA1(q)`, `sha.h:77-81`. -/
def cSHA1 : Obj | .outBytes => 20 | .blockBytes => 64 | .contextBytes => cSizeOf sha1T | _ => 0
/-- `cSHAoN(bits,blk,q)`, `sha.h:89-93`; `t` is the context structure. -/
def cSHAoN (bits blk : Nat) (t : List Field) : Obj
  | .outBytes => bits / 8 | .blockBytes => blk | .contextBytes => cSizeOf t | _ => 0
/-- `cSHA512tN(bits,q)`, `sha.h:101-105`. -/
def cSHA512tN (bits : Nat) : Obj | .outBytes => bits / 8 | .blockBytes => 128 | .contextBytes => cSizeOf sha512T | _ => 0
/-- `sha.h:113-118`. -/
def cSHA224 : Obj := cSHAoN 224 64 sha256T
def cSHA256 : Obj := cSHAoN 256 64 sha256T
def cSHA384 : Obj := cSHAoN 384 128 sha512T
def cSHA512 : Obj := cSHAoN 512 128 sha512T
def cSHA512t224 : Obj := cSHA512tN 224
def cSHA512t256 : Obj := cSHA512tN 256
/-- `cSM3(q)`, `sm3.h:26-30`. -/
def cSM3 : Obj | .outBytes => 32 | .blockBytes => 64 | .contextBytes => cSizeOf sha256T | _ => 0
/-- `cSHA3(bits,q)`, `sha3.h:38-42`. -/
def cSHA3 (bits : Nat) : Obj
  | .outBytes => bits / 8 | .blockBytes => (1600 - bits * 2) / 8 | .contextBytes => cSizeOf sha3T | _ => 0
/-- `cSHAKE(bits,q)`, `shake.h:50-55`. -/
def cSHAKE (bits : Nat) : Obj
  | .outBytes => -1 | .outTruncBytes => bits * 2 / 8 | .blockBytes => (1600 - bits * 2) / 8 | .contextBytes => cSizeOf sha3T | _ => 0
/-- `cGimli_XOF(q)`, `gimli-xof.h:30-35`. -/
def cGimli_XOF : Obj
  | .outBytes => -1 | .outTruncBytes => 32 | .blockBytes => 16 | .contextBytes => cSizeOf gimliT | _ => 0
/-- `cBLAKE2b(bits,q)`, `cBLAKE2s(bits,q)`, `blake2.h:90-94`, `:102-106`. -/
def cBLAKE2b (bits : Nat) : Obj
  | .outBytes => bits / 8 | .blockBytes => 128 | .contextBytes => cSizeOf blake2bT | _ => 0
def cBLAKE2s (bits : Nat) : Obj
  | .outBytes => bits / 8 | .blockBytes => 64 | .contextBytes => cSizeOf blake2sT | _ => 0
/-- `ckBLAKE2b(bits,q)`, `ckBLAKE2s(bits,q)`, `blake2.h:137-139`, `:146-148`. -/
def ckBLAKE2b (bits : Nat) : Obj | .keyBytes => -64 | q => cBLAKE2b bits q
def ckBLAKE2s (bits : Nat) : Obj | .keyBytes => -32 | q => cBLAKE2s bits q
/-- `cBLAKE3(q)`, `blake3.h:79-85`. -/
def cBLAKE3 : Obj
  | .outBytes => -1 | .outTruncBytes => 32 | .blockBytes => 64 | .chunkBytes => 1024 | .contextBytes => cSizeOf blake3T | _ => 0
/-- `cKT128(q)`, `cKT256(q)`, `cMarsupilamiFourteen(q)`, `KangarooTwelve.h:88-94`, `:104-110`, `:123-129`. -/
def cKT128 : Obj
  | .outBytes => -1 | .outTruncBytes => 32 | .blockBytes => 200 - 32 | .chunkBytes => 8192 | .contextBytes => cSizeOf k12T | _ => 0
def cKT256 : Obj
  | .outBytes => -1 | .outTruncBytes => 64 | .blockBytes => 200 - 64 | .chunkBytes => 8192 | .contextBytes => cSizeOf k12T | _ => 0

/-- `OUT_BYTES(obj)`, `mysuitea-common.h:560-561`. -/
def OUT_BYTES (o : Obj) : Int := if o .outBytes > 4 then o .outBytes else o .outTruncBytes

/-! ### Constructions over another object -/

/-- `cHMAC(hash,q)`, `hmac.h:68-72`. -/
def cHMAC (h : Obj) : Obj
  | .outBytes => h .outBytes | .blockBytes => h .blockBytes | .keyBytes => -h .blockBytes
  | .contextBytes => cSizeOf hmacT + h .contextBytes | _ => 0
/-- `cCMAC(bc,q)`, `cmac.h:71-75`. -/
def cCMAC (bc : Obj) : Obj
  | .outBytes => bc .blockBytes | .blockBytes => bc .blockBytes | .keyBytes => bc .keyBytes
  | .contextBytes => cSizeOf cmacT + bc .keyschedBytes | _ => 0
/-- `cGCM(bc,q)`, `gcm.h:53-57`. -/
def cGCM (bc : Obj) : Obj
  | .keyBytes => bc .keyBytes | .contextBytes => cSizeOf gcmT + bc .keyschedBytes | .ivBytes => 12 | .tagBytes => 16 | _ => 0
/-- `cCCM(bc,q)`, `ccm.h:50-54`. -/
def cCCM (bc : Obj) : Obj
  | .keyBytes => bc .keyBytes | .contextBytes => cSizeOf ccmT + bc .keyschedBytes | .ivBytes => -13 | .tagBytes => -16 | _ => 0
/-- `cChaCha_AEAD(q)`, `chacha20-poly1305.h:37-41`. -/
def cChaCha_AEAD : Obj
  | .keyBytes => 32 | .contextBytes => cSizeOf chachaT | .ivBytes => 12 | .tagBytes => 16 | _ => 0
/-- `cKMAC(bits,q)`, `kmac.h:63-69`. -/
def cKMAC (bits : Nat) : Obj
  | .outBytes => -1 | .outTruncBytes => bits * 2 / 8 | .blockBytes => 200 - (bits / 8) * 2 | .keyBytes => -((bits / 8) * 2)
  | .contextBytes => cSizeOf sha3T | _ => 0
/-- `cHMAC_DRBG(prf,q)`, `hmac-drbg.h:72-75` with `HMAC_DRBG_CTX_LEN`, `:29-30`; `seedBytes` is `keyBytes`. -/
def cHMAC_DRBG (prf : Obj) : Obj
  | .contextBytes => cSizeOf hmacDrbgT + OUT_BYTES prf * 2 + prf .contextBytes | .keyBytes => -1 | _ => 0
/-- `cCTR_DRBG(bc,q)`, `ctr-drbg.h:99-102` with `CTR_DRBG_CTX_LEN`, `:31-34`. -/
def cCTR_DRBG (bc : Obj) : Obj
  | .contextBytes => cSizeOf ctrDrbgT + bc .blockBytes + bc .keyBytes + bc .keyschedBytes | .keyBytes => -1 | _ => 0

/-! ### Parametrised objects -/

/-- `CryptoParam_t`, `mysuitea-common.h:80-89`: `info` alone (`param` is NULL), or one of the templates `tHMAC`, `tCMAC`,
`tGCM`, `tCCM`, `tHMAC_DRBG`, `tCTR_DRBG` with a parameter. -/
inductive Param
  | info (o : Obj)
  | tHMAC (p : Param) | tCMAC (p : Param) | tGCM (p : Param) | tCCM (p : Param) | tHMAC_DRBG (p : Param) | tCTR_DRBG (p : Param)

/-- `cT(q)`: `P->param ? P->template(P->param, q) : P->info(q)`, `hmac.c:69` and the same macro in `cmac.c`, `gcm.c`, `ccm.c`,
`hmac-drbg.c`, `ctr-drbg.c`; the templates are `xHMAC(T,q)` and so on, `hmac.c:71`, `cmac.c:100`, `gcm.c:164`, `ccm.c:369`,
`hmac-drbg.c:99-102`, `ctr-drbg.c:297`. -/
def cT : Param → Obj
  | .info o => o
  | .tHMAC p => cHMAC (cT p)
  | .tCMAC p => cCMAC (cT p)
  | .tGCM p => cGCM (cT p)
  | .tCCM p => cCCM (cT p)
  | .tHMAC_DRBG p => cHMAC_DRBG (cT p)
  | .tCTR_DRBG p => cCTR_DRBG (cT p)

/-! ### What initialisation puts in the headers -/

/-- The numbers of `HMAC_INIT(hash)`, `hmac.h:32-43`. -/
structure HmacHdr where
  B : Nat
  L : Nat
  offset : Nat
def HMAC_INIT (h : Obj) : HmacHdr := ⟨(h .blockBytes).toNat, (OUT_BYTES h).toNat, cSizeOf hmacT⟩

/-- `HMAC_DRBG_INIT(prf)`, `hmac-drbg.h:32-42`. -/
structure HmacDrbgHdr where
  offset_k : Nat
  offset_v : Nat
  prf_outlen : Nat
  prf_ctx_offset : Nat
def HMAC_DRBG_INIT (prf : Obj) : HmacDrbgHdr :=
  ⟨cSizeOf hmacDrbgT + (OUT_BYTES prf).toNat * 0, cSizeOf hmacDrbgT + (OUT_BYTES prf).toNat * 1, (OUT_BYTES prf).toNat,
    cSizeOf hmacDrbgT + (OUT_BYTES prf).toNat * 2⟩

/-- `CTR_DRBG_INIT(bc)`, `ctr-drbg.h:36-48`. -/
structure CtrDrbgHdr where
  bc_blksize : Nat
  bc_keysize : Nat
  offset_k : Nat
  offset_v : Nat
  bc_kschdsize : Nat
  kschd_offset : Nat
def CTR_DRBG_INIT (bc : Obj) : CtrDrbgHdr :=
  ⟨(bc .blockBytes).toNat, (bc .keyBytes).toNat, cSizeOf ctrDrbgT + (bc .keyschedBytes).toNat,
    cSizeOf ctrDrbgT + ((bc .keyschedBytes).toNat + (bc .keyBytes).toNat), (bc .keyschedBytes).toNat, cSizeOf ctrDrbgT⟩

/-- The size checks of `CTR_DRBG_T_InstInit`, `ctr-drbg.c:308-313`; the limits are `ctr-drbg.h:9-10`. -/
def ctrInstOk (x : CtrDrbgHdr) : Bool :=
  if x.bc_blksize > 16 || x.bc_keysize > 32 then false
  else if x.bc_blksize < 8 || x.bc_keysize < 8 then false
  else true

/-- `CCM_*_Init(x, k, klen)`, `ccm.c.h:3-15`, `CCM_T_Init`, `ccm.c:371-382`: the key check; `kb` is `(size_t)KEY_BYTES(bc)`. -/
def ccmInit (kb klen : Nat) : Bool := if klen ≠ kb then false else true

/-- The schedules of Camellia as the octets of memory see them: the members of `camellia128_kschd_t` and `camellia256_kschd_t` in order, `camellia.h:8-17`. -/
def camWords (n : Nat) (k : Camellia.Key) : List (BitVec 64) := [k.LL, k.LR, k.AL, k.AR, k.RL, k.RR, k.BL, k.BR].take n
/-- The members read back, `camellia.h:8-17`. -/
def camKey (w : List (BitVec 64)) : Camellia.Key :=
  { LL := w.getD 0 0, LR := w.getD 1 0, AL := w.getD 2 0, AR := w.getD 3 0, RL := w.getD 4 0, RR := w.getD 5 0, BL := w.getD 6 0, BR := w.getD 7 0 }

end Query
