import Verif.Model.Dispatch
import Verif.Model.Pkcs1Glue

/-!
# The RSA schemes with the hash functions of their parameter sets

`src/3-pkcs1`: what the padding routines of `Model/Pkcs1.lean` are given when a context is set up from a `PKCS1_RSA_Param_t`, the look-up of the
`DigestInfo` prefix by function pointer, and the control functions of RSASSA-PSS.
-/
namespace RsaSchemes
open Dispatch
open Pkcs1Glue (HashObj)
open RsaDer (Mem)

/-- The two hash functions of a context, `PKCS1_PADDING_ORACLES_BASE_INIT`, `pkcs1-padding.h:49-57`: the functions of `param[0].info` and
`param[1].info`; `slen` is that member of the context.  `mem`, `mem'`: what the working memory of the hash functions holds before the calls. -/
def padding (p : RsaParam) (mem mem' : St) (slen : Nat) : Pkcs1.Padding := ⟨pkHash p.hash mem, pkHash p.mgf mem', slen⟩

/-- What the functions of `pkcs1.c` ask of a hash object: the answers to three queries and the functions' addresses (`addr`; null if there is none). -/
def hashObj (addr : Sym → BitVec 64) (h : IObj) : HashObj where
  contextBytes := (h.num .contextBytes).toNat
  outBytes := h.num .outBytes
  outTruncBytes := h.num .outTruncBytes
  init := ((h.fn .initFunc).map addr).getD 0
  update := ((h.fn .updateFunc).map addr).getD 0
  xfinal := ((h.fn .xofFinalFunc).map addr).getD 0
  read := ((h.fn .readFunc).map addr).getD 0
  final := ((h.fn .finalFunc).map addr).getD 0

/-- `po_base.slen`: the fourth 32-bit word of a context (`pkcs1.h:15-18`, `:71-74`, `pkcs1-padding.h:39-47`: the offset, `status`, `slen`). -/
def slenOf (m : Mem) : Nat := (m 3).toNat

/-- The `HashInitFunc` column of `HashOIDs_Table`, `rsassa-pkcs1-v1_5.c:6-80`. -/
def oidInits : List Sym := [.SHA1_Init, .SHA224_Init, .SHA256_Init, .SHA384_Init, .SHA512_Init, .SHA512t224_Init, .SHA512t256_Init]

/-- `while( hoid->HashInitFunc ) { if( hoid->HashInitFunc == po->hfuncs_msg.initfunc ) break; hoid++; }`, `rsassa-pkcs1-v1_5-sign.c:111-124`,
`rsassa-pkcs1-v1_5-verify.c:122-135`: `none` at the terminating entry. -/
def findOid (f : Option Sym) : List (Sym × Pkcs1.HashOid) → Option Pkcs1.HashOid
  | [] => none
  | (g, o) :: l => if f = some g then some o else findOid f l

/-- The entry for the message hash of a context. -/
def oidOf (h : IObj) : Option Pkcs1.HashOid := findOid (h.fn .initFunc) (oidInits.zip Pkcs1.hashOids)

/-- What a control function returns: `NULL`, the context, or a number as a pointer. -/
inductive Ret | null | ctx | num (v : BitVec 32)
deriving DecidableEq

/-- `RSASSA_PSS_Sign_Xctrl`, `rsassa-pss-sign.c:170-192`, and `RSASSA_PSS_Verify_Xctrl`, `rsassa-pss-verify.c:213-235` (the member is at the same place in
both contexts); the commands are `rsassa-pss.h:92-105`.  `flags` is an `int` given by its 32 bits. -/
def pssXctrl (m : Mem) (cmd : Int) (flags : BitVec 32) : Mem × Ret :=
  if cmd = 1 then (fun j => if j = 3 then flags else m j, .ctx)
  else if cmd = 2 then (m, .num (m 3))
  else (m, .null)

end RsaSchemes
