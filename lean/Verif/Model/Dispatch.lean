import Verif.Model.Query
import Verif.Model.Fips180
import Verif.Model.MD
import Verif.Model.Keccak
import Verif.Model.Sponge
import Verif.Model.Blake2
import Verif.Model.Aes
import Verif.Model.Sm4
import Verif.Model.Seed
import Verif.Model.Aria
import Verif.Model.Pkcs1
import Verif.Model.EccCtx

/-!
# The uniform algorithm interface: the functions that the objects name

`iXXX(q)` answers some queries with the address of a function.  An address is a symbol (`Sym`) here; what a call through it does is `callInit`,
`callUpdate`, ..., on contexts of the types the suite has (`St`, `KS`).  A call through a pointer on a context of another type, or through a null
pointer, is undefined behaviour in C: `none`.
-/
namespace Dispatch
open Query Fips180
abbrev Byte := BitVec 8

/-- The queries answered with a function, `mysuitea-common.h:231-275`. -/
inductive FQ
  | encFunc | decFunc | kschdFunc | kInitFunc | initFunc | updateFunc | finalFunc | xofFinalFunc | readFunc
deriving DecidableEq

/-- The functions the objects name.  `SHA3_Init b` is `SHA3_b_Init` and so on. -/
inductive Sym
  | SHA1_Init | SHA1_Update | SHA1_Final
  | SHA224_Init | SHA256_Init | sha256_update | SHA224_Final | SHA256_Final
  | SHA384_Init | SHA512_Init | SHA512t224_Init | SHA512t256_Init | sha512_update
  | SHA384_Final | SHA512_Final | SHA512t224_Final | SHA512t256_Final
  | SM3_Init | SM3_Update | SM3_Final
  | SHA3_Init (bits : Nat) | SHA3_Update | SHA3_Final
  | SHAKE_Init (bits : Nat) | SHAKE_Write | SHAKE_Final | SHAKE_Read
  | BLAKE2b_Init (bits : Nat) | kBLAKE2b_Init (bits : Nat) | blake2b_update | blake2b_final
  | BLAKE2s_Init (bits : Nat) | kBLAKE2s_Init (bits : Nat) | blake2s_update | blake2s_final
  | AES_KeyExpansion (bits : Nat) | AES_Cipher (bits : Nat) | AES_InvCipher (bits : Nat)
  | SM4_KeySched | SM4_Encrypt | SM4_Decrypt | SEED_KeySched | SEED_Encrypt | SEED_Decrypt
  | ARIA_KeySched (bits : Nat) | ARIA_Encrypt (bits : Nat) | ARIA_Decrypt (bits : Nat)
  | Camellia_KeySched (bits : Nat) | Camellia_Encrypt (bits : Nat) | Camellia_Decrypt (bits : Nat)
  | HMAC_Init (hash : Nat) | HMAC_T_Init | HMAC_Update | HMAC_Final
deriving DecidableEq

/-- An `iCryptoObj_t` in full. -/
structure IObj where
  num : Obj
  fn : FQ → Option Sym

/-! ### The objects -/

/-- `xSHA1(q)`, `sha.h:83-87`; `iSHA1`, `sha.c:397`. -/
def iSHA1 : IObj := ⟨cSHA1, fun | .initFunc => some .SHA1_Init | .updateFunc => some .SHA1_Update | .finalFunc => some .SHA1_Final | _ => none⟩
/-- `xSHAoN(bits,blk,q)`, `sha.h:95-99`, with `SHA224_Update`, `SHA256_Update` from `sha.h:42-43`. -/
def iSHA224 : IObj := ⟨cSHA224, fun | .initFunc => some .SHA224_Init | .updateFunc => some .sha256_update | .finalFunc => some .SHA224_Final | _ => none⟩
def iSHA256 : IObj := ⟨cSHA256, fun | .initFunc => some .SHA256_Init | .updateFunc => some .sha256_update | .finalFunc => some .SHA256_Final | _ => none⟩
/-- The same, `SHA384_Update`, `SHA512_Update` from `sha.h:64-65`. -/
def iSHA384 : IObj := ⟨cSHA384, fun | .initFunc => some .SHA384_Init | .updateFunc => some .sha512_update | .finalFunc => some .SHA384_Final | _ => none⟩
def iSHA512 : IObj := ⟨cSHA512, fun | .initFunc => some .SHA512_Init | .updateFunc => some .sha512_update | .finalFunc => some .SHA512_Final | _ => none⟩
/-- `xSHA512tN(bits,q)`, `sha.h:107-111`, with `sha.h:70-71`. -/
def iSHA512t224 : IObj :=
  ⟨cSHA512t224, fun | .initFunc => some .SHA512t224_Init | .updateFunc => some .sha512_update | .finalFunc => some .SHA512t224_Final | _ => none⟩
def iSHA512t256 : IObj :=
  ⟨cSHA512t256, fun | .initFunc => some .SHA512t256_Init | .updateFunc => some .sha512_update | .finalFunc => some .SHA512t256_Final | _ => none⟩
/-- `xSM3(q)`, `sm3.h:32-36`. -/
def iSM3 : IObj := ⟨cSM3, fun | .initFunc => some .SM3_Init | .updateFunc => some .SM3_Update | .finalFunc => some .SM3_Final | _ => none⟩
/-- `xSHA3(bits,q)`, `sha3.h:44-48`, with `sha3.h:27-36`. -/
def iSHA3 (bits : Nat) : IObj :=
  ⟨cSHA3 bits, fun | .initFunc => some (.SHA3_Init bits) | .updateFunc => some .SHA3_Update | .finalFunc => some .SHA3_Final | _ => none⟩
/-- `xSHAKE(bits,q)`, `shake.h:57-63`; `WriteFunc` is `UpdateFunc`. -/
def iSHAKE (bits : Nat) : IObj :=
  ⟨cSHAKE bits, fun
    | .initFunc => some (.SHAKE_Init bits) | .updateFunc => some .SHAKE_Write | .xofFinalFunc => some .SHAKE_Final
    | .readFunc => some .SHAKE_Read | _ => none⟩
/-- `xBLAKE2b(bits,q)`, `xkBLAKE2b(bits,q)`, `blake2.h:96-100`, `:141-144`, with `:64-67`, `:79-82`. -/
def iBLAKE2b (bits : Nat) : IObj :=
  ⟨cBLAKE2b bits, fun | .initFunc => some (.BLAKE2b_Init bits) | .updateFunc => some .blake2b_update | .finalFunc => some .blake2b_final | _ => none⟩
def ikBLAKE2b (bits : Nat) : IObj :=
  ⟨ckBLAKE2b bits, fun | .kInitFunc => some (.kBLAKE2b_Init bits) | q => (iBLAKE2b bits).fn q⟩
/-- `xBLAKE2s(bits,q)`, `xkBLAKE2s(bits,q)`, `blake2.h:108-112`, `:150-153`, with `:73-76`, `:85-88`. -/
def iBLAKE2s (bits : Nat) : IObj :=
  ⟨cBLAKE2s bits, fun | .initFunc => some (.BLAKE2s_Init bits) | .updateFunc => some .blake2s_update | .finalFunc => some .blake2s_final | _ => none⟩
def ikBLAKE2s (bits : Nat) : IObj :=
  ⟨ckBLAKE2s bits, fun | .kInitFunc => some (.kBLAKE2s_Init bits) | q => (iBLAKE2s bits).fn q⟩

/-- `xAES(bits,q)` without the instruction set extensions, `rijndael.h:36-40` (for those see C76). -/
def iAES (bits : Nat) : IObj :=
  ⟨cAES bits, fun | .encFunc => some (.AES_Cipher bits) | .decFunc => some (.AES_InvCipher bits) | .kschdFunc => some (.AES_KeyExpansion bits) | _ => none⟩
/-- `xSM4(q)`, `sm4.h:23-27`. -/
def iSM4 : IObj := ⟨cSM4, fun | .encFunc => some .SM4_Encrypt | .decFunc => some .SM4_Decrypt | .kschdFunc => some .SM4_KeySched | _ => none⟩
/-- `xSEED(q)`, `seed.h:18-22`. -/
def iSEED : IObj := ⟨cSEED, fun | .encFunc => some .SEED_Encrypt | .decFunc => some .SEED_Decrypt | .kschdFunc => some .SEED_KeySched | _ => none⟩
/-- `xARIA(bits,q)`, `aria.h:26-30`. -/
def iARIA (bits : Nat) : IObj :=
  ⟨cARIA bits, fun | .encFunc => some (.ARIA_Encrypt bits) | .decFunc => some (.ARIA_Decrypt bits) | .kschdFunc => some (.ARIA_KeySched bits) | _ => none⟩
/-- `xCamellia(bits,q)`, `camellia.h:38-42`; `Camellia192_Encrypt` is `Camellia256_Encrypt`, `:29-30`. -/
def iCamellia (bits : Nat) : IObj :=
  ⟨cCamellia bits, fun
    | .encFunc => some (.Camellia_Encrypt (if bits = 192 then 256 else bits))
    | .decFunc => some (.Camellia_Decrypt (if bits = 192 then 256 else bits))
    | .kschdFunc => some (.Camellia_KeySched bits) | _ => none⟩

/-! ### Calls on hash contexts -/

/-- The contexts of the hash functions, by the structure they are. -/
inductive St
  | s32 (c : MD.Ctx (List (BitVec 32))) | s64 (c : MD.Ctx (List (BitVec 64))) | sp (c : Sponge.Ctx)
  | b2b (c : Blake2.Ctx 64) | b2s (c : Blake2.Ctx 32)

/-- A call of an `InitFunc`, `sha.c:9-19`, `:157-199`, `:281-381`, `sm3.c:70-83`, `sha3.c:7-42`, `shake.c:7-45`, `blake2.c:147-150`, `:235-238`. -/
def callInit : Sym → St → Option St
  | .SHA1_Init, .s32 c => some (.s32 (MD.init algSha1 c.msg))
  | .SHA224_Init, .s32 c => some (.s32 (MD.init algSha224 c.msg))
  | .SHA256_Init, .s32 c => some (.s32 (MD.init algSha256 c.msg))
  | .SHA384_Init, .s64 c => some (.s64 (MD.init algSha384 c.msg))
  | .SHA512_Init, .s64 c => some (.s64 (MD.init algSha512 c.msg))
  | .SHA512t224_Init, .s64 c => some (.s64 (MD.init algSha512t224 c.msg))
  | .SHA512t256_Init, .s64 c => some (.s64 (MD.init algSha512t256 c.msg))
  | .SM3_Init, .s32 c => some (.s32 (MD.init algSm3 c.msg))
  | .SHA3_Init b, .sp _ => some (.sp (Sponge.sha3Init ((1600 - b * 2) / 8)))
  | .SHAKE_Init b, .sp _ => some (.sp (Sponge.shakeInit ((1600 - b * 2) / 8)))
  | .BLAKE2b_Init b, .b2b _ => (Blake2.init Blake2.prmB (b / 8) []).map .b2b
  | .BLAKE2s_Init b, .b2s _ => (Blake2.init Blake2.prmS (b / 8) []).map .b2s
  | _, _ => none

/-- A call of a `KInitFunc` of a keyed hash, `blake2.c:152-155`, `:240-243`; the inner `none` is the null pointer returned. -/
def callKInit : Sym → St → List Byte → Option (Option St)
  | .kBLAKE2b_Init b, .b2b _, k => some ((Blake2.init Blake2.prmB (b / 8) k).map .b2b)
  | .kBLAKE2s_Init b, .b2s _, k => some ((Blake2.init Blake2.prmS (b / 8) k).map .b2s)
  | _, _, _ => none

/-- A call of an `UpdateFunc`, `sha.c:21-41`, `:96-114`, `:217-237`, `sm3.c:8-27`, `sha3.h:27-36`, `shake.h:22`, `blake2.c:157-171`, `:248-262`. -/
def callUpdate : Sym → St → List Byte → Option St
  | .SHA1_Update, .s32 c, d => some (.s32 (MD.update algSha1 c d))
  | .sha256_update, .s32 c, d => some (.s32 (MD.update algSha256 c d))
  | .sha512_update, .s64 c, d => some (.s64 (MD.update algSha512 c d))
  | .SM3_Update, .s32 c, d => some (.s32 (MD.update algSm3 c d))
  | .SHA3_Update, .sp c, d => some (.sp (Sponge.update Keccak.f1600 c d))
  | .SHAKE_Write, .sp c, d => some (.sp (Sponge.update Keccak.f1600 c d))
  | .blake2b_update, .b2b c, d => some (.b2b (Blake2.update Blake2.prmB c d))
  | .blake2s_update, .b2s c, d => some (.b2s (Blake2.update Blake2.prmS c d))
  | _, _, _ => none

/-- A call of a `FinalFunc` or of a `ReadFunc`, which have the same type (`mysuitea-common.h:418-420`): the octets and the context. -/
def callFinal : Sym → St → Nat → Option (List Byte × St)
  | .SHA1_Final, .s32 c, t => let r := MD.finalOut algSha1 c t; some (r.1, .s32 r.2)
  | .SHA224_Final, .s32 c, t => let r := MD.finalOut algSha224 c t; some (r.1, .s32 r.2)
  | .SHA256_Final, .s32 c, t => let r := MD.finalOut algSha256 c t; some (r.1, .s32 r.2)
  | .SHA384_Final, .s64 c, t => let r := MD.finalOut algSha384 c t; some (r.1, .s64 r.2)
  | .SHA512_Final, .s64 c, t => let r := MD.finalOut algSha512 c t; some (r.1, .s64 r.2)
  | .SHA512t224_Final, .s64 c, t => let r := MD.finalOut algSha512t224 c t; some (r.1, .s64 r.2)
  | .SHA512t256_Final, .s64 c, t => let r := MD.finalOut algSha512t256 c t; some (r.1, .s64 r.2)
  | .SM3_Final, .s32 c, t => let r := MD.finalOut algSm3 c t; some (r.1, .s32 r.2)
  | .SHA3_Final, .sp c, t => let r := Sponge.sha3Final Keccak.f1600 c t; some (r.1, .sp r.2)
  | .SHAKE_Read, .sp c, t => let r := Sponge.read Keccak.f1600 c t; some (r.1, .sp r.2)
  | .blake2b_final, .b2b c, t => let r := Blake2.final Blake2.prmB c t; some (r.1, .b2b r.2)
  | .blake2s_final, .b2s c, t => let r := Blake2.final Blake2.prmS c t; some (r.1, .b2s r.2)
  | _, _, _ => none

/-- A call of an `XofFinalFunc`, `shake.c`. -/
def callXFinal : Sym → St → Option St
  | .SHAKE_Final, .sp c => some (.sp (Sponge.shakeFinal Keccak.f1600 c))
  | _, _ => none

/-! ### HMAC over a hash object -/

/-- The members `B`, `L`, `hInit`, `hUpdate`, `hFinal` that `HMAC_INIT(hash)` sets, `hmac.h:32-43`, and calls through them.  Where the call is
undefined behaviour the context stays. -/
def hmacOps (h : IObj) : Mac.HashOps St where
  B := (HMAC_INIT h.num).B
  L := (HMAC_INIT h.num).L
  hInit := fun s => ((h.fn .initFunc).bind fun f => callInit f s).getD s
  hUpdate := fun s d => ((h.fn .updateFunc).bind fun f => callUpdate f s d).getD s
  hFinal := fun s t => ((h.fn .finalFunc).bind fun f => callFinal f s t).getD ([], s)

/-- `CryptoParam_t`, `mysuitea-common.h:80-89`, of a hash or MAC: `info` with no parameter, or the template `tHMAC` with one. -/
inductive IParam
  | info (o : IObj)
  | tHMAC (p : IParam)

/-- The numbers the index of a hash stands for in `HMAC_Init`: the hashes of `hmac-sha.c:6-10` and `hmac-sha3.c:6-9`. -/
def hmacHash : Nat → Option IObj
  | 0 => some iSHA1 | 1 => some iSHA224 | 2 => some iSHA256 | 3 => some iSHA384 | 4 => some iSHA512
  | 5 => some (iSHA3 224) | 6 => some (iSHA3 256) | 7 => some (iSHA3 384) | 8 => some (iSHA3 512) | _ => none

/-- `xHMAC(hash,q)`, `hmac.h:74-78`; `f` is the function for `KInitFunc`. -/
def xHMAC (f : Sym) (h : Obj) : IObj :=
  ⟨cHMAC h, fun | .kInitFunc => some f | .updateFunc => some .HMAC_Update | .finalFunc => some .HMAC_Final | _ => none⟩

/-- `iHMAC_SHA1` and so on, `hmac.c.h:15`. -/
def iHMAC (i : Nat) : Option IObj := (hmacHash i).map fun h => xHMAC (.HMAC_Init i) h.num

/-- `cT(q)`, `hmac.c:69`, with `tHMAC`, `hmac.c:71`. -/
def cTi : IParam → IObj
  | .info o => o
  | .tHMAC p => xHMAC .HMAC_T_Init (cTi p).num

/-- The hash that a call of a `KInitFunc` puts in the context, with the parametrisation passed or none: `HMAC_T_Init`, `hmac.c:73-82`,
`HMAC_xxx_Init`, `hmac.c.h:4-12`.  `none` where the arguments do not match the function. -/
def kInitHash : Sym → Option IParam → Option IObj
  | .HMAC_T_Init, some p => some (cTi p)
  | .HMAC_Init i, none => hmacHash i
  | _, _ => none

/-- `P->param`. -/
def IParam.param : IParam → Option IParam
  | .info _ => none
  | .tHMAC p => some p

/-- The members that `HMAC_DRBG_INIT(cT)` and `HMAC_DRBG_T_InstInit` set, `hmac-drbg.h:32-42`, `hmac-drbg.c:104-115`, and calls through them with
`PRF_INIT`, `hmac-drbg.c:6-9`: the PRF context is a `hmac_t` with the hash context after it. -/
def drbgPrf (P : IParam) : Option (Mac.PrfOps (Mac.Hmac St)) := do
  let f ← (cTi P).fn .kInitFunc
  let h ← kInitHash f P.param
  let u ← (cTi P).fn .updateFunc
  let g ← (cTi P).fn .finalFunc
  if u = .HMAC_Update ∧ g = .HMAC_Final then
    some { outlen := (HMAC_DRBG_INIT (cTi P).num).prf_outlen, pInit := fun x k => Mac.hmacStart (hmacOps h) x.aux k,
           pUpdate := Mac.hmacUpdate (hmacOps h), pFinal := Mac.hmacFinal (hmacOps h) }
  else none

/-! ### The hash of a public-key scheme -/

/-- `HASH_FUNCS_SET_INIT(hash)`, `hash-funcs-set.h:21-28`, and the calls the schemes make through it: `t` octets of the hash of `m`. -/
def hashed (h : IObj) (mem : St) (m : List Byte) (t : Nat) : Option (List Byte × St) := do
  let s ← callInit (← h.fn .initFunc) mem
  let s ← callUpdate (← h.fn .updateFunc) s m
  match h.fn .xofFinalFunc with
  | some f =>
    let s ← callXFinal f s
    callFinal (← h.fn .readFunc) s t
  | none => callFinal (← h.fn .finalFunc) s t

/-- `HASH_FUNCS_SET_INIT(hash)`, `hash-funcs-set.h:21-28`, and `OUT_BYTES(hash)`: how the schemes of `3-*` hash (`pkcs1.c`, `ecdsa.c`, ...):
`initfunc`, `updatefunc`, `xfinalfunc` if there is one, `hfinalfunc`. -/
def pkHash (h : IObj) (mem : St) : Pkcs1.Hash where
  hlen := (OUT_BYTES h.num).toNat
  xof := (h.fn .xofFinalFunc).isSome
  out := fun m i => ((hashed h mem m (i + 1)).map fun r => r.1.getD i 0).getD 0

/-! ### Block ciphers -/

/-- The key schedules, by their structure. -/
inductive KS
  | b8 (w : List (BitVec 8)) | b32 (w : List (BitVec 32)) | b64 (w : List (BitVec 64)) | cam (k : Camellia.Key)

/-- A call of a `KschdFunc`, `rijndael.c:278-280`, `sm4.c`, `seed.c`, `aria.c`, `camellia.c`. -/
def callKschd : Sym → List Byte → Option KS
  | .AES_KeyExpansion b, k => if b = 128 ∨ b = 192 ∨ b = 256 then some (.b8 (Aes.keyExpansion k (b / 32) (b / 32 + 6))) else none
  | .SM4_KeySched, k => some (.b32 (Sm4.keySched k))
  | .SEED_KeySched, k => some (.b64 (Seed.keySched k))
  | .ARIA_KeySched 128, k => some (.b8 (Aria.keySched128 k))
  | .ARIA_KeySched 192, k => some (.b8 (Aria.keySched192 k))
  | .ARIA_KeySched 256, k => some (.b8 (Aria.keySched256 k))
  | .Camellia_KeySched 128, k => some (.cam (Camellia.keySched128 k))
  | .Camellia_KeySched 192, k => some (.cam (Camellia.keySched192 k))
  | .Camellia_KeySched 256, k => some (.cam (Camellia.keySched256 k))
  | _, _ => none

/-- A call of an `EncFunc` or `DecFunc`, `rijndael.c:258-266`, `sm4.c`, `seed.c`, `aria.c`, `camellia.c`. -/
def callCipher : Sym → List Byte → KS → Option (List Byte)
  | .AES_Cipher b, x, .b8 w => if b = 128 ∨ b = 192 ∨ b = 256 then some (Aes.cipher x w (b / 32 + 6)) else none
  | .AES_InvCipher b, x, .b8 w => if b = 128 ∨ b = 192 ∨ b = 256 then some (Aes.invCipher x w (b / 32 + 6)) else none
  | .SM4_Encrypt, x, .b32 w => some (Sm4.encrypt x w)
  | .SM4_Decrypt, x, .b32 w => some (Sm4.decrypt x w)
  | .SEED_Encrypt, x, .b64 w => some (Seed.encrypt x w)
  | .SEED_Decrypt, x, .b64 w => some (Seed.decrypt x w)
  | .ARIA_Encrypt 128, x, .b8 w => some (Aria.encrypt128 x w)
  | .ARIA_Encrypt 192, x, .b8 w => some (Aria.encrypt192 x w)
  | .ARIA_Encrypt 256, x, .b8 w => some (Aria.encrypt256 x w)
  | .ARIA_Decrypt 128, x, .b8 w => some (Aria.decrypt128 x w)
  | .ARIA_Decrypt 192, x, .b8 w => some (Aria.decrypt192 x w)
  | .ARIA_Decrypt 256, x, .b8 w => some (Aria.decrypt256 x w)
  | .Camellia_Encrypt 128, x, .cam k => some (Camellia.encrypt128 x k)
  | .Camellia_Encrypt 256, x, .cam k => some (Camellia.encrypt256 x k)
  | .Camellia_Decrypt 128, x, .cam k => some (Camellia.decrypt128 x k)
  | .Camellia_Decrypt 256, x, .cam k => some (Camellia.decrypt256 x k)
  | _, _, _ => none

/-- `KSCHD_FUNC(bc)(k, w)`, then `ENC_FUNC(bc)(in, out, w)`, as `CMAC_SetKey`, `GCM_xxx_Init`, `CCM_xxx_Init` and `CTR_DRBG_INIT` arrange it
(`cmac.h:36-46`, `gcm.c.h:4-16`, `gcm.c:166-178`, `ccm.c.h:3-15`, `ctr-drbg.h:36-48`). -/
def encOf (bc : IObj) (key x : List Byte) : Option (List Byte) := do
  let w ← callKschd (← bc.fn .kschdFunc) key
  callCipher (← bc.fn .encFunc) x w
/-- The same with `DEC_FUNC(bc)`. -/
def decOf (bc : IObj) (key x : List Byte) : Option (List Byte) := do
  let w ← callKschd (← bc.fn .kschdFunc) key
  callCipher (← bc.fn .decFunc) x w

/-! ### Parameter sets -/

/-- The named curves of `2-ec`. -/
inductive CurveName | secp256r1 | secp384r1 | curveSM2 | Ed25519 | Ed448
deriving DecidableEq
/-- The templates of `3-*`. -/
inductive Algo | tECDSA | tSM2SIG | tEdDSA | tRSASSA_PSS | tRSAES_OAEP | tRSAEncryption | tRSAEncryptionWithHash
deriving DecidableEq

/-- `PKC_Algo_Inst_t` of a scheme on a curve, `mysuitea-common.h:129-132`. -/
structure EcInst where
  secbits : Nat
  algo : Algo
  curve : CurveName
  hash : IObj
/-- `ecdsa-paramset.c:5-29`. -/
def ECDSA_P256 : EcInst := ⟨128, .tECDSA, .secp256r1, iSHA256⟩
def ECDSA_P384 : EcInst := ⟨192, .tECDSA, .secp384r1, iSHA384⟩
/-- `sm2sig-paramset.c:5-16`. -/
def SM2SIG_P256 : EcInst := ⟨128, .tSM2SIG, .curveSM2, iSM3⟩
/-- `eddsa-paramset.c:5-29`. -/
def EdDSA_Ed25519 : EcInst := ⟨128, .tEdDSA, .Ed25519, iSHA512⟩
def EdDSA_Ed448 : EcInst := ⟨224, .tEdDSA, .Ed448, iSHAKE 256⟩

/-- `PKCS1_RSA_Param_t`, `pkcs1-paramset-common.c:5-25`: message hash, MGF hash, modulus bits, number of primes. -/
structure RsaParam where
  hash : IObj
  mgf : IObj
  bits : Nat
  primes : Nat
def PKCS1_RSA_With_SHA256 : RsaParam := ⟨iSHA256, iSHA256, 2048, 2⟩
def PKCS1_RSA_With_SHAKE128 : RsaParam := ⟨iSHAKE 128, iSHAKE 128, 2048, 2⟩
/-- `PKC_Algo_Inst_t` of an RSA scheme. -/
structure RsaInst where
  secbits : Nat
  algo : Algo
  param : RsaParam
/-- `rsassa-pss-paramset.c:5-15`, `rsaes-oaep-paramset.c:5-15`, `rsassa-pkcs1-v1_5-paramset.c:5-9`, `rsaes-pkcs1-v1_5-paramset.c:5-9`. -/
def RSASSA_PSS_SHA256 : RsaInst := ⟨112, .tRSASSA_PSS, PKCS1_RSA_With_SHA256⟩
def RSASSA_PSS_SHAKE128 : RsaInst := ⟨112, .tRSASSA_PSS, PKCS1_RSA_With_SHAKE128⟩
def RSAES_OAEP_SHA256 : RsaInst := ⟨112, .tRSAES_OAEP, PKCS1_RSA_With_SHA256⟩
def RSAES_OAEP_SHAKE128 : RsaInst := ⟨112, .tRSAES_OAEP, PKCS1_RSA_With_SHAKE128⟩
def RSAEncryptionParam : RsaInst := ⟨112, .tRSAEncryption, PKCS1_RSA_With_SHA256⟩
def RSAEncryption_With_SHA256 : RsaInst := ⟨112, .tRSAEncryptionWithHash, PKCS1_RSA_With_SHA256⟩

end Dispatch
