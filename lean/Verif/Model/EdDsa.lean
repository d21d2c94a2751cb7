import Verif.Model.EcEd
import Verif.Model.Ecc
import Verif.Model.Pkcs1

/-!
# Model of `src/3-rfc-7748,8032/eddsa-misc.c` and `eddsa.c`

`c` is the word count of the numbers of the context (11 for Ed25519, 17 for Ed448).  `H` is the hash function of the context.
`hmsg` holds the octets given to the hash context since its last initialisation.
-/

namespace EdDsa
open Vlong Ec

/-- An octet. -/
abbrev Byte := BitVec 8

/-- `plen`, `eddsa-misc.c:56` and elsewhere: octets of an encoded point. -/
def plen (C : EdCurve) : Nat := (C.pbits + 8) / 8
/-- `pbytes`, `eddsa-misc.c:159`, `:348`. -/
def pbytes (C : EdCurve) : Nat := (C.pbits + 7) / 8

/-- `Cond_p25519`, `eddsa-misc.c:11-14`. -/
def cond25519 (C : EdCurve) : Bool := C.pbits == 255 && C.dOver == -121665 && C.dUnder == 121666
/-- `Cond_p448`, `eddsa-misc.c:16-19`. -/
def cond448 (C : EdCurve) : Bool := C.pbits == 448 && C.dOver == -39081 && C.dUnder == 1

/-- The members of `EdDSA_Ctx_Hdr_t` (`eddsa.h:12-34`) that carry state, and the numbers it locates.  `ctxstr` is the context string
without its length octet, `sk` and `prefix` the first `plen` octets of these arrays. -/
structure Ctx where
  status : Int
  ctxstr : List Byte
  sk : List Byte
  prefix_ : List Byte
  s : List W
  A : Xytz
  r : List W
  R : Xytz
  hmsg : List Byte

/-- `eddsa_ctxinit_basic`, `eddsa-misc.c:21-46`: members without an initialiser are zero; the numbers of `x` keep their words. -/
def ctxInit (C : EdCurve) (x : Ctx) : Ctx :=
  { x with status := 0, ctxstr := [], sk := List.replicate (plen C) 0, prefix_ := List.replicate (plen C) 0 }

/-- `ecEd_inv_mod_p_fermat`, `eddsa-misc.c:97-108`. -/
def invModP (C : EdCurve) (c : Nat) (x : List W) : List W := modexpShiftAdded C.aux c x (-2) 0

/-- `eddsa_canon_pubkey`, `eddsa-misc.c:110-151`. -/
def canon (C : EdCurve) (c : Nat) (Q : Xytz) : Xytz :=
  let s := invModP C c Q.z
  let u := mulM C.aux c Q.x s 1
  let v := mulM C.aux c Q.y s 1
  let w := mulM C.aux c Q.t s 1
  ⟨cpy c u, cpy c v, cpy c w, cpy c Ecc.one⟩

/-- `eddsa_point_enc`, `eddsa-misc.c:153-176`.  For Ed448 the octet after the `pbytes` octets of `y` is masked with zero before it is
first written; the model starts it at zero. -/
def pointEnc (C : EdCurve) (Q : Xytz) : List Byte :=
  let buf := encLSB Q.y (pbytes C) ++ List.replicate (plen C - pbytes C) 0
  let buf := buf.modify (C.pbits / 8) (· &&& (BitVec.ofNat 8 (2 ^ (C.pbits % 8)) - 1))
  let par : Byte := (rd Q.x 0 &&& 1).setWidth 8
  buf.modify (C.pbits / 8) (· ||| (par <<< 7))

/-- `po2_25519`, `eddsa-misc.c:178-188`. -/
def po2_25519 : List W :=
  [0x4a0ea0b0, 0xc4ee1b27, 0xad2fe478, 0x2f431806, 0x3dfbd7a7, 0x2b4d0099, 0x4fc1df0b, 0x2b832480]

/-- `getx_p25519`, `eddsa-misc.c:190-266`, `none` being NULL. -/
def getx25519 (C : EdCurve) (c : Nat) (y : List W) : Option (List W) :=
  let u := mulM C.aux c y y 1
  let v := cpy c u
  -- u = (y**2 - 1) * d_under
  let u := adds c u (-1) 0
  let u := imuls u u (C.dUnder.signExtend 64) false
  -- v = d_over * y**2 + d_under
  let v := imuls v v C.dOver64 false
  let v := adds c v (C.dUnder.signExtend 64) 0
  let u := imod C.aux u
  let v := imod C.aux v
  -- a := v ** 3, r = u * v**7
  let r := mulM C.aux c v v 1
  let s := mulM C.aux c r v 1
  let a := cpy c s
  let r := mulM C.aux c s s 1
  let s := mulM C.aux c r v 1
  let r := mulM C.aux c s u 1
  let s := modexpShiftAdded C.aux c r (-5) 3
  -- x = {s} * u * v**3
  let r := mulM C.aux c s a 1
  let x := mulM C.aux c r u 1
  let w := mulM C.aux c x x 1
  let r := mulM C.aux c v w 1
  if cmpvShifted r u 0 = 0 then some x
  else
    let r := subv c C.p r
    if cmpvShifted r u 0 = 0 then
      let r := mulM C.aux c x po2_25519 1
      some (cpy c r)
    else none

/-- `getx_p448`, `eddsa-misc.c:268-338`, `none` being NULL. -/
def getx448 (C : EdCurve) (c : Nat) (y : List W) : Option (List W) :=
  let u := mulM C.aux c y y 1
  let v := cpy c u
  -- u = (y**2 - 1) * d_under
  let u := adds c u (-1) 0
  let u := imuls u u (C.dUnder.signExtend 64) false
  -- v = d_over * y**2 - d_under
  let v := imuls v v C.dOver64 false
  let v := adds c v ((-C.dUnder).signExtend 64) 0
  let u := imod C.aux u
  let v := imod C.aux v
  -- s := v**3
  let r := mulM C.aux c v v 1
  let s := mulM C.aux c r v 1
  -- a := u**2, w := u**5
  let a := mulM C.aux c u u 1
  let r := mulM C.aux c a a 1
  let w := mulM C.aux c r u 1
  let r := mulM C.aux c w s 1
  let s := modexpShiftAdded C.aux c r (-3) 2
  -- x = {s} * u**3 * v
  let r := mulM C.aux c s a 1
  let s := mulM C.aux c r u 1
  let x := mulM C.aux c s v 1
  let w := mulM C.aux c x x 1
  let r := mulM C.aux c v w 1
  if cmpvShifted r u 0 = 0 then some x else none

/-- `y` of `eddsa_point_dec`, `eddsa-misc.c:363-364`.  `(1 << 31) - 1` is a signed overflow in the C source; the model takes the
value that two's complement arithmetic gives. -/
def decY (C : EdCurve) (c : Nat) (buf : List Byte) : List W :=
  (decLSB c (buf.take (pbytes C))).modify (C.pbits / 32) (· &&& (BitVec.ofNat 32 (2 ^ (C.pbits % 32)) - 1))

/-- `eddsa_point_dec`, `eddsa-misc.c:340-386`; the buffer has `plen` octets, `none` is NULL. -/
def pointDec (C : EdCurve) (c : Nat) (buf : List Byte) : Option Xytz :=
  let par : W := ((buf.getD (C.pbits / 8) 0 >>> 7) &&& 1).setWidth 32
  let y := decY C c buf
  let x := if cond25519 C then getx25519 C c y else if cond448 C then getx448 C c y else none
  match x with
  | none => none
  | some x =>
    if x.foldl (· ||| ·) 0 = 0 ∧ par = 1 then none
    else
      let x := if (1 &&& rd x 0) ^^^ par ≠ 0 then subv c C.p x else x
      let t := mulM C.aux c x y 1
      some ⟨x, y, t, cpy c Ecc.one⟩

/-- The masking of the first half of the digest, `eddsa-misc.c:68-78`. -/
def clamp (C : EdCurve) (buf : List Byte) : List Byte :=
  if cond25519 C then (buf.modify 0 (· &&& 0xf8)).modify 31 (fun b => 0x40 ||| (b &&& 0x7f))
  else if cond448 C then ((buf.modify 0 (· &&& 0xfc)).modify 55 (· ||| 0x80)).set 56 0
  else buf

/-- `eddsa_privkey_reload`, `eddsa-misc.c:48-95`. -/
def privkeyReload (C : EdCurve) (c : Nat) (H : Pkcs1.Hash) (x : Ctx) : Ctx :=
  let buf := clamp C (H.digest x.sk (plen C * 2))
  let s := decLSB c (buf.take (plen C))
  let A := edScaleAccumulate C c (xytzInf c) C.B s
  { x with prefix_ := (buf.drop (plen C)).take (plen C), s, A := canon C c A, hmsg := x.sk }

/-- `EdDSA_Keygen`, `eddsa.c:15-31`, with a context; `rnd` are the `plen` octets drawn. -/
def keygen (C : EdCurve) (c : Nat) (H : Pkcs1.Hash) (rnd : List Byte) (x : Ctx) : Ctx :=
  privkeyReload C c H { ctxInit C x with sk := rnd }

/-- `EdDSA_Encode_PrivateKey`, `eddsa.c:35-49`, with a buffer of `enclen` octets; `none` is the return of `-1`. -/
def encodePrivateKey (C : EdCurve) (x : Ctx) (enclen : Nat) : Option (List Byte) :=
  if enclen ≠ plen C then none else some x.sk

/-- `EdDSA_Decode_PrivateKey`, `eddsa.c:51-69`, with a context; `none` is the return of `-1`. -/
def decodePrivateKey (C : EdCurve) (c : Nat) (H : Pkcs1.Hash) (x : Ctx) (enc : List Byte) : Option Ctx :=
  if enc.length ≠ plen C then none
  else some (privkeyReload C c H { ctxInit C x with sk := enc })

/-- `EdDSA_Encode_PublicKey`, `eddsa.c:73-87`, with a buffer of `enclen` octets; `none` is the return of `-1`. -/
def encodePublicKey (C : EdCurve) (x : Ctx) (enclen : Nat) : Option (List Byte) :=
  if plen C ≠ enclen then none else some (pointEnc C x.A)

/-- `EdDSA_Decode_PublicKey`, `eddsa.c:91-111`, with a context.  `none`: the return of `-1` with the context untouched; the truth
value is whether the return is not `-1`.  A failed decoding leaves the numbers of `A` in part written; the model keeps them. -/
def decodePublicKey (C : EdCurve) (c : Nat) (x : Ctx) (enc : List Byte) : Option (Ctx × Bool) :=
  if enc.length ≠ plen C then none
  else match pointDec C c enc with
    | none => some ({ ctxInit C x with status := -1 }, false)
    | some A => some ({ ctxInit C x with A }, true)

/-- `DomStr25519`, `eddsa.c:8`: `SigEd25519 no Ed25519 collisions`. -/
def domStr25519 : List Byte := [0x53, 0x69, 0x67, 0x45, 0x64, 0x32, 0x35, 0x35, 0x31, 0x39, 0x20, 0x6e, 0x6f, 0x20, 0x45, 0x64,
  0x32, 0x35, 0x35, 0x31, 0x39, 0x20, 0x63, 0x6f, 0x6c, 0x6c, 0x69, 0x73, 0x69, 0x6f, 0x6e, 0x73]
/-- `DomStr448`, `eddsa.c:9`: `SigEd448`. -/
def domStr448 : List Byte := [0x53, 0x69, 0x67, 0x45, 0x64, 0x34, 0x34, 0x38]

/-- The domain separation octets, `eddsa.c:187-198`, `:226-237`, `:356-367`. -/
def domain (C : EdCurve) (ctxstr : List Byte) (flags : Byte) : List Byte :=
  if plen C ≠ 32 ∨ 0 < ctxstr.length ∨ flags ≠ 0 then
    (if plen C = 32 then domStr25519 else domStr448) ++ [flags] ++ (BitVec.ofNat 8 ctxstr.length :: ctxstr)
  else []

/-- `vlong_DecLSB(&e, buf, plen * 2); vlong_remv_inplace(&e, curve->L); vlong_cpy(dst, &e)`, `e` having 32 words
(`eddsa.c:209-211`, `:254-256`, `:385-387`). -/
def scalarOf (C : EdCurve) (c : Nat) (buf : List Byte) : List W :=
  let e := decLSB 32 buf
  cpy c ((remvInplace e C.L).getD e)

/-- `RFC8032_Sign`, `eddsa.c:160-274`. -/
def rfcSign (C : EdCurve) (c : Nat) (H : Pkcs1.Hash) (x : Ctx) (flags : Byte) (em : List Byte) : Ctx :=
  let dom := domain C x.ctxstr flags
  let r := scalarOf C c (H.digest (dom ++ x.prefix_ ++ em) (plen C * 2))
  let R := edScaleAccumulate C c (xytzInf c) C.B r
  let R := canon C c R
  let hmsg := dom ++ pointEnc C R ++ pointEnc C x.A ++ em
  let k := scalarOf C c (H.digest hmsg (plen C * 2))
  let w := mulM ⟨fun l => (remvInplace l C.L).getD l, C.L⟩ c k x.s 1
  let r := addv c r w
  let r := (remvInplace r C.L).getD r
  { x with r, R, hmsg }

/-- `EdDSA_Sign`, `eddsa.c:122-129`. -/
def sign (C : EdCurve) (c : Nat) (H : Pkcs1.Hash) (x : Ctx) (msg : List Byte) : Ctx :=
  rfcSign C c H { x with status := 0 } 0 msg

/-- `EdDSA_IncSign_Init` and `EdDSA_IncVerify_Init`, `eddsa.c:131-142`, `:296-307`. -/
def incInit (x : Ctx) : Ctx := { x with status := 0, hmsg := [] }

/-- The update function handed out by the initialisers: `hfnx->updatefunc`. -/
def update (x : Ctx) (data : List Byte) : Ctx := { x with hmsg := x.hmsg ++ data }

/-- `EdDSA_IncSign_Final`, `eddsa.c:144-158`. -/
def incSignFinal (C : EdCurve) (c : Nat) (H : Pkcs1.Hash) (x : Ctx) : Ctx :=
  rfcSign C c H x 1 (H.digest x.hmsg 64)

/-- `RFC8032_Verify`, `eddsa.c:334-428`: the context and the returned truth value. -/
def rfcVerify (C : EdCurve) (c : Nat) (H : Pkcs1.Hash) (x : Ctx) (flags : Byte) (em : List Byte) : Ctx × Bool :=
  let hmsg := domain C x.ctxstr flags ++ pointEnc C x.R ++ pointEnc C x.A ++ em
  let s := scalarOf C c (H.digest hmsg (plen C * 2))
  let R := edScaleAccumulate C c x.R x.A s
  let sk := pointEnc C (canon C c R)
  let R := edScaleAccumulate C c (xytzInf c) C.B x.r
  let R := canon C c R
  let prefix_ := pointEnc C R
  let diff := (List.range (plen C)).foldl (fun b i => b ||| (sk.getD i 0 ^^^ prefix_.getD i 0)) (0 : Byte)
  if diff ≠ 0 then ({ x with status := -1, s, sk, prefix_, R, hmsg }, false)
  else ({ x with status := 1, s, sk, prefix_, R, hmsg }, true)

/-- `EdDSA_Verify`, `eddsa.c:284-294`: the truth value is whether the return is not NULL. -/
def verify (C : EdCurve) (c : Nat) (H : Pkcs1.Hash) (x : Ctx) (msg : List Byte) : Ctx × Bool :=
  if x.status = 1 then (x, true)
  else if x.status = -1 then (x, false)
  else rfcVerify C c H x 0 msg

/-- `EdDSA_IncVerify_Final`, `eddsa.c:309-332`. -/
def incVerifyFinal (C : EdCurve) (c : Nat) (H : Pkcs1.Hash) (x : Ctx) : Ctx × Bool :=
  if x.status = 1 then (x, true)
  else if x.status = -1 then (x, false)
  else if x.status ≠ 0 then (x, false)
  else rfcVerify C c H x 1 (H.digest x.hmsg 64)

/-- `EdDSA_Encode_Signature`, `eddsa.c:434-456`, with a buffer of `siglen` octets: the octets written at its start, or `none` for NULL. -/
def encodeSignature (C : EdCurve) (x : Ctx) (siglen : Nat) : Option (List Byte) :=
  if siglen < plen C * 2 then none else some (pointEnc C x.R ++ encLSB x.r (plen C))

/-- `EdDSA_Sign_Xctrl` and `EdDSA_Verify_Xctrl`, `eddsa.c:458-483`, `:531-556`: `buf` is the first buffer, or `none` if there is no
buffer.  `EdDSA_set_ctxstr` is the only command known; `none` is NULL. -/
def xctrl (x : Ctx) (setCtxstr : Bool) (buf : Option (List Byte)) : Option Ctx :=
  if setCtxstr then
    match buf with
    | none => none
    | some b => if 255 < b.length then none else some { x with ctxstr := b }
  else none

/-- `EdDSA_Decode_Signature`, `eddsa.c:489-529`; the truth value is whether the return is not NULL.  A failed decoding of `R`
leaves its numbers in part written; the model keeps them. -/
def decodeSignature (C : EdCurve) (c : Nat) (x : Ctx) (sig : List Byte) : Ctx × Bool :=
  if plen C * 2 ≠ sig.length then ({ x with status := -1 }, false)
  else match pointDec C c (sig.take (plen C)) with
    | none => ({ x with status := -1 }, false)
    | some R =>
      let r := decLSB c (sig.drop (plen C))
      if cmpvShifted r C.L 0 ≠ 2 then ({ x with status := -1, R, r }, false)
      else ({ x with status := 0, R, r }, true)

end EdDsa
