import Verif.Model.Dispatch
import Verif.Model.Gcm
import Verif.Model.Ccm
import Verif.Model.Chacha
import Verif.Spec.AeadSession

/-!
# The authenticated encryption algorithms through their objects

`KINIT_FUNC`, `AENC_FUNC` and `ADEC_FUNC` of `iGCM_AES*`, `tGCM`, `iCCM_AES*`, `tCCM` and `iChaCha_AEAD`, and calls through them, as in
`encryption-test.c:126-172`.
-/
namespace AeadObj
open Dispatch
open Query (Obj cGCM cCCM cChaCha_AEAD)
open Spec (AeadAnswer)

/-- The queries of an AEAD answered with a function, `mysuitea-common.h:231-275`, `:254`. -/
inductive AQ | kInitFunc | aEncFunc | aDecFunc
deriving DecidableEq

/-- The functions: `GCM_Init b` is `GCM_AESb_Init`, `CCM_Init b` is `CCM_AESb_Init`. -/
inductive ASym
  | GCM_Init (bits : Nat) | GCM_T_Init | GCM_Encrypt | GCM_Decrypt
  | CCM_Init (bits : Nat) | CCM_T_Init | CCM_Encrypt | CCM_Decrypt
  | ChaCha_AEAD_Init | ChaCha_AEAD_Encrypt | ChaCha_AEAD_Decrypt
deriving DecidableEq

/-- An AEAD at hand: an `iCryptoObj_t` (`param` is `none`), or a `tCryptoObj_t` with the `CryptoParam_t` of a block cipher, which is the first argument of
the `PKInitFunc_t` (`mysuitea-common.h:80-89`, `:401-410`). -/
structure AObj where
  num : Obj
  fn : AQ → Option ASym
  param : Option IObj

/-- `xGCM(bc,q)`, `gcm.h:59-63`; `init` is `GCM_##bc##_Init`. -/
def xGCM (init : ASym) : AQ → Option ASym
  | .kInitFunc => some init | .aEncFunc => some .GCM_Encrypt | .aDecFunc => some .GCM_Decrypt
/-- `xCCM(bc,q)`, `ccm.h:56-60`. -/
def xCCM (init : ASym) : AQ → Option ASym
  | .kInitFunc => some init | .aEncFunc => some .CCM_Encrypt | .aDecFunc => some .CCM_Decrypt
/-- `iGCM_AES128` and so on, `gcm-aes.h:14-20`, `gcm-aes.c:6-8`, `gcm.c.h:19`. -/
def iGCM_AES (bits : Nat) : AObj := ⟨cGCM (iAES bits).num, xGCM (.GCM_Init bits), none⟩
/-- `tGCM` with the parameter `{ .info = bc, .param = NULL }`, `gcm.c:162-164`. -/
def tGCM (bc : IObj) : AObj := ⟨cGCM bc.num, xGCM .GCM_T_Init, some bc⟩
/-- `iCCM_AES128` and so on, `ccm-aes.h:13-19`, `ccm-aes.c:6-8`, `ccm.c.h:17`. -/
def iCCM_AES (bits : Nat) : AObj := ⟨cCCM (iAES bits).num, xCCM (.CCM_Init bits), none⟩
/-- `tCCM` with the parameter `{ .info = bc, .param = NULL }`, `ccm.c:367-369`. -/
def tCCM (bc : IObj) : AObj := ⟨cCCM bc.num, xCCM .CCM_T_Init, some bc⟩
/-- `iChaCha_AEAD`, `chacha20-poly1305.h:43-47`, `chacha20-poly1305.c:122`. -/
def iChaCha_AEAD : AObj :=
  ⟨cChaCha_AEAD, fun | .kInitFunc => some .ChaCha_AEAD_Init | .aEncFunc => some .ChaCha_AEAD_Encrypt | .aDecFunc => some .ChaCha_AEAD_Decrypt, none⟩

/-- The contexts, by the structure they are: `gcm_t` and `ccm_t` with the key schedule behind them (as the function `enc` with that schedule), and
`chacha_aead_t`. -/
inductive ACtx | gcm (g : Gcm.Ctx) | ccm (enc : List Byte → List Byte) | chacha (x : Chacha.Ctx)

/-- What a call does: undefined behaviour, still running after a number of loop iterations, or the result. -/
inductive Out (α : Type) | undefined | running | done (a : α)

/-- `ENC_FUNC(bc)` with the key schedule of `KSCHD_FUNC(bc)`. -/
def encFn (bc : IObj) (key : List Byte) : List Byte → List Byte := fun x => (encOf bc key x).getD []

/-- `GCM_AESb_Init`, `gcm.c.h:4-17`, `GCM_T_Init`, `gcm.c:166-178`, over the block cipher `bc`: `none` for a null pointer. -/
def gcmInit (bc : IObj) (key : List Byte) : Option ACtx := (Gcm.init (bc.num .keyBytes).toNat key.length (encFn bc key)).map .gcm
/-- `CCM_AESb_Init`, `ccm.c.h:4-15`, `CCM_T_Init`, `ccm.c:371-382`. -/
def ccmInit (bc : IObj) (key : List Byte) : Option ACtx := if Query.ccmInit (bc.num .keyBytes).toNat key.length then some (.ccm (encFn bc key)) else none

/-- A call of a `KInitFunc_t` (no parameter) or `PKInitFunc_t`; `mem` is what the memory of the context held.  Undefined with arguments of the other
type. -/
def callInit : ASym → Option IObj → Chacha.Ctx → List Byte → Out (Option ACtx)
  | .GCM_Init b, none, _, k => .done (gcmInit (iAES b) k)
  | .GCM_T_Init, some bc, _, k => .done (gcmInit bc k)
  | .CCM_Init b, none, _, k => .done (ccmInit (iAES b) k)
  | .CCM_T_Init, some bc, _, k => .done (ccmInit bc k)
  | .ChaCha_AEAD_Init, none, mem, k => .done ((Chacha.init mem k).map .chacha)
  | _, _, _, _ => .undefined

/-- `return out;` of an encryption that has stored the tag `T`, `gcm.c:74`, `ccm.c:172`, `chacha20-poly1305.c:65`; address 0 is the null pointer. -/
def encAns (out : Nat) (T : List Byte) : AeadAnswer := if out = 0 then .nullTag T else .tag T
/-- `return out;` or `return NULL;` of a decryption, `gcm.c:145`, `:159`, `ccm.c:338`, `:364`, `chacha20-poly1305.c:113`, `:119`. -/
def decAns (out : Nat) (ok : Bool) : AeadAnswer := if ok ∧ out ≠ 0 then .accepted else .null

/-- A call of an `AEncFunc_t`: context, memory, and answer. -/
def callEnc : ASym → ACtx → (iv A : List Byte) → (len inp out tlen : Nat) → Spec.Mem → (fuel : Nat) → Out (ACtx × Spec.Mem × AeadAnswer)
  | .GCM_Encrypt, .gcm g, iv, A, len, inp, out, tlen, m, _ =>
    match Gcm.encrypt g iv A len inp out tlen m with
    | none => .done (.gcm g, m, .null)
    | some (m', T) => .done (.gcm g, m', encAns out T)
  | .CCM_Encrypt, .ccm e, iv, A, len, inp, out, tlen, m, fuel =>
    match Ccm.encrypt e iv A len inp out tlen m fuel with
    | .refused => .done (.ccm e, m, .null)
    | .running => .running
    | .done (m', T) => .done (.ccm e, m', encAns out T)
  | .ChaCha_AEAD_Encrypt, .chacha x, iv, A, len, inp, out, tlen, m, _ =>
    match Chacha.encrypt x iv A len inp out tlen m with
    | none => .done (.chacha x, m, .null)
    | some (x', m', T) => .done (.chacha x', m', encAns out T)
  | _, _, _, _, _, _, _, _, _, _ => .undefined

/-- A call of an `ADecFunc_t`. -/
def callDec : ASym → ACtx → (iv A : List Byte) → (len inp out : Nat) → (T : List Byte) → Spec.Mem → (fuel : Nat) → Out (ACtx × Spec.Mem × AeadAnswer)
  | .GCM_Decrypt, .gcm g, iv, A, len, inp, out, T, m, _ =>
    let r := Gcm.decrypt g iv A len inp out T m
    .done (.gcm g, r.2, decAns out r.1)
  | .CCM_Decrypt, .ccm e, iv, A, len, inp, out, T, m, fuel =>
    match Ccm.decrypt e iv A len inp out T m fuel with
    | .refused => .done (.ccm e, m, .null)
    | .running => .running
    | .done (ok, m') => .done (.ccm e, m', decAns out ok)
  | .ChaCha_AEAD_Decrypt, .chacha x, iv, A, len, inp, out, T, m, _ =>
    let r := Chacha.decrypt x iv A len inp out T m
    .done (.chacha r.2.1, r.2.2, decAns out r.1)
  | _, _, _, _, _, _, _, _, _, _ => .undefined

end AeadObj
