import Verif.Model.Ecdsa

/-!
# Model of `src/3-sm2/sm2sig.c`

`H` is the hash function of the context (SM3 for the instances of the library, any other by the type parameters).  Hashing and
word counts as in `Verif.Model.Ecdsa`.  The signature codec (`sm2sig.c:564-580`, `:608-617`) is literally that of ECDSA:
`ecdsaEncodeSignature`, `ecdsaSignatureLength`, `ecdsaDecodeSignature` of `Verif.Model.EccSig` model both.
-/

namespace Ecc
open Vlong Ec

/-- The number `a` as `sm2sig_setZ` makes it, `sm2sig.c:33-37`. -/
def sm2A (C : Curve) (c : Nat) : List W :=
  let u := if 0 ≤ C.a.toInt then List.replicate c (0 : W) else cpy c C.aux.modCtx
  adds c u C.a64 0

/-- `sm2sig_setZ`, `sm2sig.c:13-62`.  The length of the identity becomes a `uint16_t` at the call; its eightfold is
computed as an `int` and cut to octets.  `uinfo` has room for 64 octets, so `H.hlen ≤ 64` is assumed of the hash. -/
def sm2SetZ (C : Curve) (c : Nat) (H : Pkcs1.Hash) (x : Ctx) (id : List Byte) : Ctx :=
  let idlen := id.length % 65536
  let entl := [BitVec.ofNat 8 (idlen * 8 / 256), BitVec.ofNat 8 (idlen * 8)]
  let z := entl ++ id.take idlen ++ i2osp (sm2A C c) C.plen ++ i2osp C.b C.plen ++ i2osp C.G.x C.plen ++ i2osp C.G.y C.plen ++
    i2osp x.Q.x C.plen ++ i2osp x.Q.y C.plen
  { x with hmsg := z, uinfo := H.digest z H.hlen }

/-- `"1234567812345678"`, `sm2sig.c:84`, `:113`, `:150`. -/
def sm2DefaultId : List Byte :=
  [0x31, 0x32, 0x33, 0x34, 0x35, 0x36, 0x37, 0x38, 0x31, 0x32, 0x33, 0x34, 0x35, 0x36, 0x37, 0x38]

/-- `SM2SIG_Keygen`, `sm2sig.c:69-88`, with a context. -/
def sm2Keygen (C : Curve) (c : Nat) (H : Pkcs1.Hash) (rng : Nat → List Byte) (fuel : Nat) (x : Ctx) : Option Ctx :=
  (keygen C c rng fuel x).map fun y => sm2SetZ C c H y sm2DefaultId

/-- `SM2SIG_Decode_PrivateKey`, `sm2sig.c:98-117`, with a context; `none` is the return of `-1`. -/
def sm2DecodePrivateKey (C : Curve) (c : Nat) (H : Pkcs1.Hash) (x : Ctx) (enc : List Byte) : Option Ctx :=
  (decodePrivateKey C c x enc).map fun y => sm2SetZ C c H y sm2DefaultId

/-- `SM2SIG_Decode_PublicKey`, `sm2sig.c:135-155`, with a context; results as of `decodePublicKey`. -/
def sm2DecodePublicKey (C : Curve) (c : Nat) (H : Pkcs1.Hash) (x : Ctx) (enc : List Byte) : Option (Ctx × Bool) :=
  (decodePublicKey C c x enc).map fun (y, ok) => (sm2SetZ C c H y sm2DefaultId, ok)

/-- The commands of `SM2SIG_Sign_Xctrl`, `SM2SIG_Verify_Xctrl`, `sm2sig.c:582-602`, `:619-639`: `id` is the first buffer, or `none`
if there is no buffer.  `SM2SIG_set_signer_id` is the only command known; `none` is NULL. -/
def sm2Xctrl (C : Curve) (c : Nat) (H : Pkcs1.Hash) (x : Ctx) (setSignerId : Bool) (id : Option (List Byte)) : Option Ctx :=
  if setSignerId then id.map fun d => sm2SetZ C c H x d else none

/-- `w |= ... ^ ...`, `sm2sig.c:307-311`: do the two numbers differ in some word. -/
def wordsDiffer (a b : List W) : Bool :=
  (List.range (max a.length b.length)).foldl (fun w t => w ||| (rd a t ^^^ rd b t)) 0 != 0

/-- What `GMT0003pt2_Sign` computes from a scalar `k` that passed the range check: `R`, `r`, `s`
(`sm2sig.c:252-366`); `none`: one of the jumps to `start` (`:301`, `:312`, `:372`). -/
def sm2Attempt (C : Curve) (c : Nat) (H : Pkcs1.Hash) (msg : List Byte) (d k : List W) :
    Option (Xyz × List W × List W) :=
  let R := scaleAccumulate C c (xyzInf c) C.G k
  let w := invModP C c R.z
  let r := mulM C.aux c w R.x 1
  let v := os2ip c (H.digest msg (slen C H))
  let r := addv c r v
  let r := redN C r
  if !nonzero r then none else
  let s := addv c r k
  if !wordsDiffer s C.n then none else
  let s := adds c d 1 0
  let s := redN C s
  let t := invModN C c s
  let s := mulN C c r d
  let w := subv c k s
  let w := imodInplace w C.n
  let s := mulN C c t w
  if nonzero s then some (R, r, s) else none

/-- The loops of `GMT0003pt2_Sign`, `sm2sig.c:230-372`: `rng i` is the `i`-th draw of `plen` octets.  `none`: none of the draws
`i .. i + fuel - 1` leads to a signature. -/
def sm2Loop (C : Curve) (c : Nat) (H : Pkcs1.Hash) (msg : List Byte) (d : List W) (rng : Nat → List Byte) :
    (fuel i : Nat) → Option (List W × Xyz × List W × List W)
  | 0, _ => none
  | f + 1, i =>
    let k := os2ip c (rng i)
    if scalarOk C k then
      match sm2Attempt C c H msg d k with
      | some (R, r, s) => some (k, R, r, s)
      | none => sm2Loop C c H msg d rng f (i + 1)
    else sm2Loop C c H msg d rng f (i + 1)

/-- `GMT0003pt2_Sign`, `sm2sig.c:206-373`. -/
def gmtSign (C : Curve) (c : Nat) (H : Pkcs1.Hash) (x : Ctx) (rng : Nat → List Byte) (fuel : Nat) : Option Ctx :=
  match sm2Loop C c H x.hmsg x.d rng fuel 0 with
  | none => none
  | some (k, R, r, s) => some { x with status := 1, k, R, r, s }

/-- `SM2SIG_Sign`, `sm2sig.c:164-181`. -/
def sm2Sign (C : Curve) (c : Nat) (H : Pkcs1.Hash) (x : Ctx) (msg : List Byte) (rng : Nat → List Byte) (fuel : Nat) :
    Option Ctx :=
  let x := if x.status ≠ 3 then { x with hmsg := x.uinfo ++ msg, status := 3 } else x
  gmtSign C c H x rng fuel

/-- `SM2SIG_IncSign_Init` and `SM2SIG_IncVerify_Init`, `sm2sig.c:183-195`, `:401-413`. -/
def sm2IncInit (x : Ctx) : Ctx := { x with status := 0, hmsg := x.uinfo }

/-- `SM2SIG_IncSign_Final`, `sm2sig.c:197-204`. -/
def sm2IncSignFinal (C : Curve) (c : Nat) (H : Pkcs1.Hash) (x : Ctx) (rng : Nat → List Byte) (fuel : Nat) : Option Ctx :=
  gmtSign C c H { x with status := 3 } rng fuel

/-- `GMT0003pt2_Verify`, `sm2sig.c:427-558`: the context and the returned truth value. -/
def gmtVerify (C : Curve) (c : Nat) (H : Pkcs1.Hash) (x : Ctx) : Ctx × Bool :=
  if cmpvShifted x.r C.n 0 ≠ 2 then ({ x with status := -1 }, false) else
  if cmpvShifted x.s C.n 0 ≠ 2 then ({ x with status := -1 }, false) else
  if cmpvShifted one x.r 0 = 1 then ({ x with status := -1 }, false) else
  if cmpvShifted one x.s 0 = 1 then ({ x with status := -1 }, false) else
  let dig := H.digest x.hmsg (slen C H)
  let d := cpy c x.s
  let k := addv c x.r x.s
  let k := redN C k
  if !nonzero k then ({ x with status := -1, d, k }, false) else
  let R := scaleAccumulate C c (xyzInf c) C.G d
  let R := scaleAccumulate C c R x.Q k
  if !nonzero R.z then ({ x with status := -1, d, k, R }, false) else
  let w := invModP C c R.z
  let r := mulM C.aux c w R.x 1
  let v := os2ip c dig
  let r := addv c r v
  let r := subv c k r
  let r := imodInplace r C.n
  if cmpvShifted d r 0 ≠ 0 then ({ x with status := -1, d, k, R, r }, false)
  else ({ x with status := 1, d, k, R, r }, true)

/-- `SM2SIG_Verify`, `sm2sig.c:381-399`: the truth value is whether the return is not NULL. -/
def sm2Verify (C : Curve) (c : Nat) (H : Pkcs1.Hash) (x : Ctx) (msg : List Byte) : Ctx × Bool :=
  if x.status = 1 then (x, true)
  else if x.status = -1 then (x, false)
  else gmtVerify C c H { x with hmsg := x.uinfo ++ msg, status := 3 }

/-- `SM2SIG_IncVerify_Final`, `sm2sig.c:415-425`. -/
def sm2IncVerifyFinal (C : Curve) (c : Nat) (H : Pkcs1.Hash) (x : Ctx) : Ctx × Bool :=
  if x.status = 1 then (x, true)
  else if x.status = -1 then (x, false)
  else gmtVerify C c H { x with status := 2 }

end Ecc
