import Verif.Model.Ecp

/-!
# Model of `src/2-ec/ecp-pubkey-codec.c` and the key functions of `src/3-ecc-common/ecc-common.c`

Octet strings are lists of octets whose length is the length argument of the C function.  `c` is the common word
count of all numbers of a context (`ecc_ctxinit_basic`, `ecc-common.c:56-76`: `d` and `k` get
`VLONG_BYTES_WCNT(plen)` words, the others `VLONG_BITS_WCNT(8 * plen)`, which is the same).  `curve->p` is the object that
`imod_aux->mod_ctx` points to (`curve-secp256r1.c:72-75`, `:128`; the same in the two other curve files).
-/

namespace Ecc
open Vlong Ec
abbrev Byte := BitVec 8

/-- `vlong_one`, `vlong.c:5-6`. -/
def one : List W := [1]

/-- `topword_modmask`, `ecc-common.c:8-17`. -/
def topwordModmask (x m : W) : W :=
  let w := m
  let w := w ||| w >>> 16
  let w := w ||| w >>> 8
  let w := w ||| w >>> 4
  let w := w ||| w >>> 2
  let w := w ||| w >>> 1
  x &&& w

/-- `w = 0; for(...) w |= vl->v[t]; if( w )`: is some word of the number not zero (`ecdsa.c:187-189`, `:262-264`,
`:412-414`, `ecdh-kem.c:122-124`, `ecp-pubkey-codec.c:97-99` and others). -/
def nonzero (v : List W) : Bool := v.foldl (· ||| ·) 0 != 0

/-- `x^3 + ax + b` as `ecp_point_decode` computes it into `u`, `ecp-pubkey-codec.c:42-57`. -/
def curveRhs (C : Curve) (c : Nat) (x : List W) : List W :=
  let v := mulM C.aux c x x 1
  let u := mulM C.aux c x v 1
  let u := imuls u x C.a64 true
  let u := imod C.aux u
  let u := addv c u C.b
  C.aux.modfunc u

/-- `y` of `ecp_point_decode`, `ecp-pubkey-codec.c:60-76`, the first octet being present; `u` is the register of that
name.  `none` is the NULL return. -/
def decodeY (C : Curve) (c : Nat) (enc : List Byte) (u : List W) : Option (List W) :=
  let tag := enc.getD 0 0
  if tag = 4 ∧ enc.length = 1 + C.plen * 2 then some (os2ip c ((enc.drop (1 + C.plen)).take C.plen))
  else if (tag = 2 ∨ tag = 3) ∧ enc.length = 1 + C.plen then
    match sqrtC3m4 C.aux c u with
    | none => none
    | some y =>
      if (tag &&& 1).setWidth 32 ≠ rd y 0 &&& 1 then some (C.aux.modfunc (subv c C.aux.modCtx y)) else some y
  else none

/-- `ecp_point_decode`, `ecp-pubkey-codec.c:7-110`, with `tinf` distinct from `Q`.  The outer `none`: octets outside the
string are read (the `x`-coordinate is read before any check of the length).  The inner `none`: NULL is returned. -/
def pointDecode (C : Curve) (c : Nat) (enc : List Byte) : Option (Option Xyz) :=
  if enc.length < 1 + C.plen then none else
  let z := cpy c one
  let x := os2ip c ((enc.drop 1).take C.plen)
  let u := curveRhs C c x
  match decodeY C c enc u with
  | none => some none
  | some y =>
    let v := mulM C.aux c y y 1
    if cmpvShifted v u 0 ≠ 0 then some none else
    let t := scaleAccumulate C c (xyzInf c) ⟨x, y, z⟩ C.n
    if nonzero t.z then some none else some (some ⟨x, y, z⟩)

/-- What `ecp_point_add_rcb15` leaves in the register `u` (its `t3`, last written at `ecp-xyz.c:53-54`). -/
def addU (C : Curve) (c : Nat) (p1 p2 : Xyz) : List W :=
  let f := C.aux.modfunc
  let t0 := mulM C.aux c p1.x p2.x 1
  let t1 := mulM C.aux c p1.y p2.y 1
  let t3 := addv c p1.x p1.y
  let t3 := f t3
  let t4 := addv c p2.x p2.y
  let t5 := mulM C.aux c t3 t4 1
  let t3 := cpy c t5
  let t4 := addv c t0 t1
  let t4 := f t4
  let t3 := subv c t3 t4
  imod C.aux t3

/-- What `ecp_point_scale_accumulate` leaves in the register `u`: that of its last addition (`ecp-xyz.c:301-315`; the
loop leaves right after it). -/
def scaleLoopU (C : Curve) (c : Nat) (scalar : List W) : (k i : Nat) → (accum tmp1 : Xyz) → List W
  | 0, _, _, _ => []
  | k + 1, i, accum, tmp1 =>
    let mask := (rd scalar (i / 32) >>> (i % 32)) &&& 1
    if k = 0 then addU C c tmp1 accum
    else scaleLoopU C c scalar k (i + 1) (xyzSubst accum (pointAdd C c tmp1 accum) mask) (pointDbl C c tmp1)

/-- `ecp_point_decode`, `ecp-pubkey-codec.c:7-110`, called with `tinf == Q` as `ECDH_KEM_Decode_Ciphertext` does
(`ecdh-kem.c:262-280`).  `ecp_xyz_inf(tinf)` then overwrites the point that is about to be scaled, and the second pass
takes the square root of what the scaling left in `u`.  Results as in `pointDecode`. -/
def pointDecodeAlias (C : Curve) (c : Nat) (enc : List Byte) : Option (Option Xyz) :=
  if enc.length < 1 + C.plen then none else
  let x := os2ip c ((enc.drop 1).take C.plen)
  let u := curveRhs C c x
  match decodeY C c enc u with
  | none => some none
  | some y =>
    let v := mulM C.aux c y y 1
    if cmpvShifted v u 0 ≠ 0 then some none else
    let Q := xyzInf c
    let t := scaleAccumulate C c Q Q C.n
    if nonzero t.z then some none else
    let u := scaleLoopU C c C.n (C.n.length * 32) 0 Q (xyzCopy c Q)
    -- second pass
    match decodeY C c enc u with
    | none => some none
    | some y => some (some ⟨x, y, cpy c one⟩)

/-- `ecp_point_encode`, `ecp-pubkey-codec.c:112-136`, for an output of `enclen` octets; `none` is NULL. -/
def pointEncode (C : Curve) (Q : Xyz) (enclen : Nat) : Option (List Byte) :=
  if enclen = 1 + C.plen * 2 then some (4#8 :: (i2osp Q.x C.plen ++ i2osp Q.y C.plen))
  else if enclen = 1 + C.plen then some ((2#8 ||| (rd Q.y 0 &&& 1).setWidth 8) :: i2osp Q.x C.plen)
  else none

/-- `ecc_canon_pubkey`, `ecc-common.c:19-54`. -/
def canonPubkey (C : Curve) (c : Nat) (Q : Xyz) : Xyz :=
  let w := invModP C c Q.z
  let u := mulM C.aux c Q.x w 1
  let v := mulM C.aux c Q.y w 1
  ⟨cpy c u, cpy c v, cpy c one⟩

/-- `ECC_Base_Ctx_Hdr_t` with the objects it locates, `ecc-common.h:20-60`: `r`, `s` are those of the operation context;
its `t`, `u`, `v`, `w` and the points `Tmp1`, `Tmp2` are scratch (every function writes them before reading them).
`hmsg` is what has been fed to the hash context since its initialisation; `uinfo` is the member of that name. -/
structure Ctx where
  status : Int
  d : List W
  k : List W
  Q : Xyz
  R : Xyz
  r : List W
  s : List W
  hmsg : List Byte
  uinfo : List Byte

/-- The test of a candidate scalar, `ecc-common.c:157-161`, the same at `:104-108`, `ecdsa.c:176-180`,
`ecdh-kem.c:111-115`, `sm2sig.c:246-250`. -/
def scalarOk (C : Curve) (d : List W) : Bool :=
  if cmpvShifted d C.n 0 ≠ 2 then false
  else if cmpvShifted one d 0 = 1 then false
  else true

/-- The candidate scalar made from `plen` random octets, `ecc-common.c:98-102`, the same at `ecdsa.c:166-174`,
`ecdh-kem.c:105-109`. -/
def candidate (C : Curve) (c : Nat) (rnd : List Byte) : List W :=
  let i := (C.plen - 1) / 4
  (os2ip c rnd).modify i fun x => topwordModmask x (rd C.aux.modCtx i)

/-- `ecc_gen_privkey`, `ecc-common.c:82-119`: `rng i` is the `i`-th draw of `plen` octets; `none` if the first `fuel` draws
from draw `i` on are all rejected (the C loop goes on). -/
def genPrivkey (C : Curve) (c : Nat) (rng : Nat → List Byte) : (fuel i : Nat) → Option (List W × Xyz)
  | 0, _ => none
  | f + 1, i =>
    let d := candidate C c (rng i)
    if scalarOk C d then some (d, canonPubkey C c (scaleAccumulate C c (xyzInf c) C.G d))
    else genPrivkey C c rng f (i + 1)

/-- `ECC_Keygen`, `ecc-common.c:121-132`. -/
def keygen (C : Curve) (c : Nat) (rng : Nat → List Byte) (fuel : Nat) (x : Ctx) : Option Ctx :=
  match genPrivkey C c rng fuel 0 with
  | none => none
  | some (d, Q) => some { x with status := 0, d, Q }

/-- `ecc_dec_privkey`, `ecc-common.c:136-171`; `none` is NULL. -/
def decPrivkey (C : Curve) (c : Nat) (enc : List Byte) : Option (List W × Xyz) :=
  if enc.length ≠ C.plen then none else
  let d := os2ip c enc
  if scalarOk C d then some (d, canonPubkey C c (scaleAccumulate C c (xyzInf c) C.G d)) else none

/-- `ECC_Encode_PrivateKey`, `ecc-common.c:173-185`, with a buffer of `enclen` octets; `none` is the return of `-1`. -/
def encodePrivateKey (C : Curve) (x : Ctx) (enclen : Nat) : Option (List Byte) :=
  if enclen ≠ C.plen then none else some (i2osp x.d C.plen)

/-- `ECC_Decode_PrivateKey`, `ecc-common.c:187-200`; `none` is the return of `-1` (the context is then left with a
rejected `d`, or with the old one). -/
def decodePrivateKey (C : Curve) (c : Nat) (x : Ctx) (enc : List Byte) : Option Ctx :=
  match decPrivkey C c enc with
  | none => none
  | some (d, Q) => some { x with status := 0, d, Q }

/-- `ECC_Encode_PublicKey`, `ecc-common.c:208-224`; `none` is the return of `-1`. -/
def encodePublicKey (C : Curve) (x : Ctx) (enclen : Nat) : Option (List Byte) := pointEncode C x.Q enclen

/-- `ECC_Decode_PublicKey`, `ecc-common.c:330-354`: the context and whether a non-negative number is returned.  On
failure the words of `Q` are whatever the attempt left there; the model leaves the old ones.  `none`: read outside the
input. -/
def decodePublicKey (C : Curve) (c : Nat) (x : Ctx) (enc : List Byte) : Option (Ctx × Bool) :=
  match pointDecode C c enc with
  | none => none
  | some none => some ({ x with status := -1 }, false)
  | some (some Q) => some ({ x with status := 0, Q }, true)

end Ecc
