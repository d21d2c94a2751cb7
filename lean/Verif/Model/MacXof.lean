import Verif.Model.Dispatch
import Verif.Model.CrewExec
import Verif.Model.Gimli
import Verif.Model.Mac

/-!
# MACs and extendable-output functions with interfaces of their own, through their objects

`iKMAC128`, `iKMAC256`, the control function of `iSHAKE128`, `iSHAKE256`, `iGimli_XOF`, `iCMAC_AES*`, `tCMAC`, `iBLAKE3`, `iKT128`, `iKT256` and
`iMarsupilamiFourteen`, and calls through the pointers they answer with.
-/
namespace MacXof
open Dispatch (IObj Byte iAES encOf)
open Query

/-- The queries answered with a function, `mysuitea-common.h:239-282`, `:357`; `WriteFunc` is `UpdateFunc`. -/
inductive XQ | kInitFunc | initFunc | updateFunc | finalFunc | xofFinalFunc | readFunc | xctrlFunc | update4Func | final2Func | read4Func
deriving DecidableEq

/-- The functions: `KMAC_Init b` is `KMACb_Init`, `CMAC_Init b` is `CMAC_AESb_Init`, and so on. -/
inductive XSym
  | KMAC_Init (bits : Nat) | KMAC_Update | KMAC_Final | KMAC_XofFinal | KMAC_XofRead | KMAC_Xctrl (bits : Nat)
  | SHAKE_Init (bits : Nat) | SHAKE_Write | SHAKE_Final | SHAKE_Read | SHAKE_Xctrl
  | Gimli_XOF_Init | Gimli_XOF_Write | Gimli_XOF_Final | Gimli_XOF_Read
  | CMAC_Init (bits : Nat) | CMAC_T_Init | CMAC_Update | CMAC_Final
  | BLAKE3_Init | BLAKE3_KInit | BLAKE3_Update4 | BLAKE3_Final2 | BLAKE3_Read4
  | KT128_Init | KT256_Init | MarsupilamiFourteen_Init | K12_Update4 | K12_Final2 | K12_Read4 | K12_Xctrl
deriving DecidableEq

/-- An object at hand; `param` is the block cipher of a `CryptoParam_t`, for templates (`mysuitea-common.h:80-89`). -/
structure XObj where
  num : Obj
  fn : XQ → Option XSym
  param : Option IObj

/-- `xKMAC(bits,q)`, `kmac.h:71-78`, `kmac.c:143-144`. -/
def xKMAC (bits : Nat) : XQ → Option XSym
  | .kInitFunc => some (.KMAC_Init bits) | .updateFunc => some .KMAC_Update | .finalFunc => some .KMAC_Final
  | .xofFinalFunc => some .KMAC_XofFinal | .readFunc => some .KMAC_XofRead | .xctrlFunc => some (.KMAC_Xctrl bits) | _ => none
/-- The object, same place. -/
def iKMAC (bits : Nat) : XObj := ⟨cKMAC bits, xKMAC bits, none⟩
/-- `xSHAKE(bits,q)`, `shake.h:57-63`. -/
def xSHAKEx (bits : Nat) : XQ → Option XSym
  | .initFunc => some (.SHAKE_Init bits) | .updateFunc => some .SHAKE_Write | .xofFinalFunc => some .SHAKE_Final
  | .readFunc => some .SHAKE_Read | .xctrlFunc => some .SHAKE_Xctrl | _ => none
/-- The object, same place. -/
def iSHAKEx (bits : Nat) : XObj := ⟨cSHAKE bits, xSHAKEx bits, none⟩
/-- `xGimli_XOF(q)`, `gimli-xof.h:37-42`, `gimli-xof.c:40`. -/
def xGimli_XOF : XQ → Option XSym
  | .initFunc => some .Gimli_XOF_Init | .updateFunc => some .Gimli_XOF_Write | .xofFinalFunc => some .Gimli_XOF_Final
  | .readFunc => some .Gimli_XOF_Read | _ => none
/-- The object, same place. -/
def iGimli_XOF : XObj := ⟨cGimli_XOF, xGimli_XOF, none⟩
/-- `xCMAC(bc,q)`, `cmac.h:77-81`; `init` is `CMAC_##bc##_Init`. -/
def xCMAC (init : XSym) : XQ → Option XSym
  | .kInitFunc => some init | .updateFunc => some .CMAC_Update | .finalFunc => some .CMAC_Final | _ => none
/-- `iCMAC_AES128` and so on, `cmac-aes.h`, `cmac-aes.c:6-8`, `cmac.c.h:14`. -/
def iCMAC_AES (bits : Nat) : XObj := ⟨cCMAC (iAES bits).num, xCMAC (.CMAC_Init bits), none⟩
/-- `tCMAC` with the parameter `{ .info = bc, .param = NULL }`, `cmac.c:100`. -/
def tCMAC (bc : IObj) : XObj := ⟨cCMAC bc.num, xCMAC .CMAC_T_Init, some bc⟩
/-- `xBLAKE3(q)`, `blake3.h:87-93`. -/
def xBLAKE3 : XQ → Option XSym
  | .initFunc => some .BLAKE3_Init | .kInitFunc => some .BLAKE3_KInit | .update4Func => some .BLAKE3_Update4
  | .final2Func => some .BLAKE3_Final2 | .read4Func => some .BLAKE3_Read4 | _ => none
/-- The object, same place. -/
def iBLAKE3 : XObj := ⟨cBLAKE3, xBLAKE3, none⟩
/-- The functions that `xKT128(q)`, `xKT256(q)` and `xMarsupilamiFourteen(q)` share, `KangarooTwelve.h:96-102`, `:112-118`, `:131-137`. -/
def xK12 (init : XSym) : XQ → Option XSym
  | .initFunc => some init | .update4Func => some .K12_Update4 | .final2Func => some .K12_Final2 | .read4Func => some .K12_Read4
  | .xctrlFunc => some .K12_Xctrl | _ => none
/-- `iKT128` (also `iKangarooTwelve`), `KangarooTwelve.h:96-102`, `:120-121`. -/
def iKT128 : XObj := ⟨cKT128, xK12 .KT128_Init, none⟩
/-- `iKT256`, `KangarooTwelve.h:112-118`. -/
def iKT256 : XObj := ⟨cKT256, xK12 .KT256_Init, none⟩
/-- `iMarsupilamiFourteen`, `KangarooTwelve.h:123-137`; its numbers are those of KT256. -/
def iMarsupilamiFourteen : XObj := ⟨cKT256, xK12 .MarsupilamiFourteen_Init, none⟩

/-- The contexts, by the structure they are: `shake_t` and `kmac_t`, `gimli_xof_t`, `cmac_t` with the key schedule behind it (as the function `enc` with that
schedule), `blake3_t`, `K12_Ctx_t` (with the number of rounds of the permutation its sponge points to). -/
inductive XCtx
  | keccak (c : Sponge.Ctx) | gimli (c : Sponge.Ctx) | cmac (enc : List Byte → List Byte) (c : Mac.Cmac) | blake3 (x : Blake3.Ctx)
  | k12 (rounds : Nat) (x : K12.Ctx)

/-- A call of an `InitFunc_t`, `shake.c:7-45`, `gimli-xof.c:6-12`, `blake3.c:31-49`, `KangarooTwelve.c:63-113`; `none`: undefined behaviour. -/
def callInit : XSym → XCtx → Option XCtx
  | .SHAKE_Init b, .keccak _ => some (.keccak (Sponge.shakeInit ((1600 - b * 2) / 8)))
  | .Gimli_XOF_Init, .gimli _ => some (.gimli Gimli.xofInit)
  | .BLAKE3_Init, .blake3 x => some (.blake3 (Blake3.init x.nodes))
  | .KT128_Init, .k12 _ _ => some (.k12 12 (K12.init 168))
  | .KT256_Init, .k12 _ _ => some (.k12 12 (K12.init 136))
  | .MarsupilamiFourteen_Init, .k12 _ _ => some (.k12 14 (K12.init 136))
  | _, _ => none

/-- `CMAC_AESb_Init`, `cmac.c.h:4-12`, `CMAC_T_Init`, `cmac.c:102-111`, over the block cipher `bc`. -/
def cmacOver (bc : IObj) (key : List Byte) : Option XCtx :=
  let enc := fun x => (encOf bc key x).getD []
  (Mac.cmacStart enc (bc.num .keyBytes).toNat key.length).map (.cmac enc)

/-- A call of a `KInitFunc_t` (no parameter) or `PKInitFunc_t`, `kmac.c:34-48`, `cmac.c.h:4-12`, `blake3.c:51-71`; the inner `none` is the null pointer
returned.  `200-16*2` and `200-32*2` are the rates. -/
def callKInit : XSym → Option IObj → XCtx → List Byte → Option (Option XCtx)
  | .KMAC_Init b, none, .keccak _, k => some ((Sponge.kmacInit Keccak.f1600 k [] (200 - b / 8 * 2)).map .keccak)
  | .CMAC_Init b, none, .cmac _ _, k => some (cmacOver (iAES b) k)
  | .CMAC_T_Init, some bc, .cmac _ _, k => some (cmacOver bc k)
  | .BLAKE3_KInit, none, .blake3 x, k => some ((Blake3.kinit x.nodes k).map .blake3)
  | _, _, _, _ => none

/-- A call of an `XctrlFunc_t` with the command `cmd` and the vector `bv` (the empty list: a null pointer, or `veclen` 0), `shake.c:99-143`,
`kmac.c:50-98`.  The former looks at `veclen`; the latter do not, and read what lies behind a vector that is too short. -/
def callXctrl : XSym → XCtx → (cmd : Int) → (bv : List (List Byte)) → Option (Option XCtx)
  | .SHAKE_Xctrl, .keccak x, cmd, bv =>
    if cmd = 1 then
      if bv.length < 2 then some none else some (some (.keccak (Sponge.customize Keccak.f1600 x (bv.getD 0 []) (bv.getD 1 []))))
    else some none
  | .KMAC_Xctrl b, .keccak _, cmd, bv =>
    if cmd = 1 then
      if bv.length < 2 then none
      else some ((Sponge.kmacInit Keccak.f1600 (bv.getD 1 []) (bv.getD 0 []) (200 - b / 8 * 2)).map .keccak)
    else some none
  | _, _, _, _ => none

/-- A call of an `UpdateFunc_t`, `kmac.c:100-103`, `shake.c:23-26`, `gimli-xof.c:14-20`, `cmac.c:42-64`. -/
def callUpdate : XSym → XCtx → List Byte → Option XCtx
  | .KMAC_Update, .keccak x, d => some (.keccak (Sponge.update Keccak.f1600 x d))
  | .SHAKE_Write, .keccak x, d => some (.keccak (Sponge.update Keccak.f1600 x d))
  | .Gimli_XOF_Write, .gimli x, d => some (.gimli (Gimli.xofWrite x d))
  | .CMAC_Update, .cmac e c, d => some (.cmac e (Mac.cmacUpdate e c d))
  | _, _, _ => none

/-- A call of a `FinalFunc_t` or `ReadFunc_t`, `kmac.c:105-121`, `:138-141`, `shake.c:42-45`, `gimli-xof.c:35-38`, `cmac.c:66-95`. -/
def callFinal : XSym → XCtx → Nat → Option (List Byte × XCtx)
  | .KMAC_Final, .keccak x, t => let r := Sponge.kmacFinal Keccak.f1600 x t; some (r.1, .keccak r.2)
  | .KMAC_XofRead, .keccak x, t => let r := Sponge.read Keccak.f1600 x t; some (r.1, .keccak r.2)
  | .SHAKE_Read, .keccak x, t => let r := Sponge.read Keccak.f1600 x t; some (r.1, .keccak r.2)
  | .Gimli_XOF_Read, .gimli x, t => let r := Gimli.xofRead x t; some (r.1, .gimli r.2)
  | .CMAC_Final, .cmac e c, t => let r := Mac.cmacFinal e c t; some (r.1, .cmac e r.2)
  | _, _, _ => none

/-- A call of an `XFinalFunc_t`, `kmac.c:123-136`, `shake.c:28-40`, `gimli-xof.c:22-33`. -/
def callXFinal : XSym → XCtx → Option XCtx
  | .KMAC_XofFinal, .keccak x => some (.keccak (Sponge.kmacXofFinal Keccak.f1600 x))
  | .SHAKE_Final, .keccak x => some (.keccak (Sponge.shakeFinal Keccak.f1600 x))
  | .Gimli_XOF_Final, .gimli x => some (.gimli (Gimli.xofFinal x))
  | _, _ => none

/-- The executions of a call of an `Update4Func_t`, `blake3.c:334-352`, `KangarooTwelve.c:138-192`: the contexts it can end in, with the jobs of the crew
interleaved anyhow (none: undefined behaviour). -/
def CallUpdate4 : XSym → XCtx → List Byte → XCtx → Prop
  | .BLAKE3_Update4, .blake3 x, d, .blake3 y => CrewExec.B3Update Blake3.compress x d y
  | .K12_Update4, .k12 r x, d, .k12 r' y => r' = r ∧ CrewExec.K12Update (Keccak.permute r) x d y
  | _, _, _, _ => False

/-- The executions of a call of `K12_Xctrl(x, K12_cmd_Feed_CStr, ..)` with part of a customisation string, `KangarooTwelve.c:287-312`. -/
def CallFeed : XSym → XCtx → List Byte → XCtx → Prop
  | .K12_Xctrl, .k12 r x, d, .k12 r' y => r' = r ∧ CrewExec.K12Feed (Keccak.permute r) x d y
  | _, _, _, _ => False

/-- The executions of a call of a `Final2Func_t`, `blake3.c:409-454`, `KangarooTwelve.c:194-265`. -/
def CallFinal2 : XSym → XCtx → XCtx → Prop
  | .BLAKE3_Final2, .blake3 x, .blake3 y => CrewExec.B3Final Blake3.compress x y
  | .K12_Final2, .k12 r x, .k12 r' y => r' = r ∧ CrewExec.K12Final (Keccak.permute r) x y
  | _, _, _ => False

/-- A call of a `Read4Func_t`, `blake3.c:456-514`, `KangarooTwelve.c:267-285`; `rewind` is `flags & HASHING_READ4_REWIND`. -/
def callRead4 : XSym → XCtx → (len : Nat) → (rewind : Bool) → Option (List Byte × XCtx)
  | .BLAKE3_Read4, .blake3 x, n, w => let r := Blake3.read Blake3.compress x n w; some (r.1, .blake3 r.2)
  | .K12_Read4, .k12 k x, n, w => let r := K12.read4 (Keccak.permute k) x n w; some (r.1, .k12 k r.2)
  | _, _, _, _ => none

end MacXof
