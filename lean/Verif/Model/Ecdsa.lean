import Verif.Model.Ecc
import Verif.Model.Pkcs1

/-!
# Model of `src/3-sec1/ecdsa.c`

`H` is the hash function of the context; the octets of a finalisation are `Hash.digest` of what has been fed to the hash
context.  Finalising again without feeding gives the same octets (C14), so the repeated finalisation after `goto start`
is the same value here.  Word counts as in `Verif.Model.Ecc`.
-/

namespace Ecc
open Vlong Ec

/-- `vlong_remv_inplace(l, curve->n)`. -/
def redN (C : Curve) (l : List W) : List W := (remvInplace l C.n).getD l

/-- `vlong_mulv_masked(_, a, b, 1, (vlong_modfunc_t)vlong_remv_inplace, curve->n)`. -/
def mulN (C : Curve) (c : Nat) (a b : List W) : List W := mulM ⟨redN C, C.n⟩ c a b 1

/-- `slen`, `ecdsa.c:141`, `:325`. -/
def slen (C : Curve) (H : Pkcs1.Hash) : Nat := if C.plen < H.hlen then C.plen else H.hlen

/-- What `HMP1994_Sign` computes from a scalar `k` that passed the range check: `R`, `r`, `s`
(`ecdsa.c:182-258`); `none`: the words of the `x`-coordinate of `R` are zero (`:187-189`), or those of `s` (`:262-264`). -/
def signAttempt (C : Curve) (c : Nat) (H : Pkcs1.Hash) (msg : List Byte) (d k : List W) :
    Option (Xyz × List W × List W) :=
  let R := scaleAccumulate C c (xyzInf c) C.G k
  if nonzero R.x then
    let dig := H.digest msg (slen C H)
    let w := invModP C c R.z
    let r := mulM C.aux c w R.x 1
    let u := mulN C c r d
    let v := os2ip c dig
    let w := addv c u v
    let w := redN C w
    let t := invModN C c k
    let s := mulN C c t w
    if nonzero s then some (R, r, s) else none
  else none

/-- The two loops of `HMP1994_Sign`, `ecdsa.c:160-271`: `rng i` is the `i`-th draw of `plen` octets; each one that does
not lead to a signature is followed by the next.  `none`: none of the draws `i .. i + fuel - 1` does. -/
def signLoop (C : Curve) (c : Nat) (H : Pkcs1.Hash) (msg : List Byte) (d : List W) (rng : Nat → List Byte) :
    (fuel i : Nat) → Option (List W × Xyz × List W × List W)
  | 0, _ => none
  | f + 1, i =>
    let k := candidate C c (rng i)
    if scalarOk C k then
      match signAttempt C c H msg d k with
      | some (R, r, s) => some (k, R, r, s)
      | none => signLoop C c H msg d rng f (i + 1)
    else signLoop C c H msg d rng f (i + 1)

/-- `HMP1994_Sign`, `ecdsa.c:137-271`. -/
def hmpSign (C : Curve) (c : Nat) (H : Pkcs1.Hash) (x : Ctx) (rng : Nat → List Byte) (fuel : Nat) : Option Ctx :=
  match signLoop C c H x.hmsg x.d rng fuel 0 with
  | none => none
  | some (k, R, r, s) => some { x with status := 1, k, R, r, s }

/-- `ECDSA_Sign`, `ecdsa.c:97-113`. -/
def ecdsaSign (C : Curve) (c : Nat) (H : Pkcs1.Hash) (x : Ctx) (msg : List Byte) (rng : Nat → List Byte) (fuel : Nat) :
    Option Ctx :=
  let x := if x.status ≠ 2 then { x with hmsg := msg, status := 2 } else x
  hmpSign C c H x rng fuel

/-- `ECDSA_IncSign_Init` and `ECDSA_IncVerify_Init`, `ecdsa.c:115-126`, `:298-309`. -/
def ecdsaIncInit (x : Ctx) : Ctx := { x with status := 0, hmsg := [] }

/-- The update function handed out by the two. -/
def ecdsaUpdate (x : Ctx) (data : List Byte) : Ctx := { x with hmsg := x.hmsg ++ data }

/-- `ECDSA_IncSign_Final`, `ecdsa.c:128-135`. -/
def ecdsaIncSignFinal (C : Curve) (c : Nat) (H : Pkcs1.Hash) (x : Ctx) (rng : Nat → List Byte) (fuel : Nat) : Option Ctx :=
  hmpSign C c H { x with status := 2 } rng fuel

/-- `HMP1994_Verify`, `ecdsa.c:323-448`: the context and the returned truth value.  The scalars `u1`, `u2` are computed into the
members `d` and `k` of the context.  The component `r` is saved as octets and restored; on the early exits it is
untouched, as it is for `R = O` (the multiplication reads it only). -/
def hmpVerify (C : Curve) (c : Nat) (H : Pkcs1.Hash) (x : Ctx) : Ctx × Bool :=
  if cmpvShifted x.r C.n 0 ≠ 2 then ({ x with status := -1 }, false) else
  if cmpvShifted x.s C.n 0 ≠ 2 then ({ x with status := -1 }, false) else
  if cmpvShifted one x.r 0 = 1 then ({ x with status := -1 }, false) else
  if cmpvShifted one x.s 0 = 1 then ({ x with status := -1 }, false) else
  let w := os2ip c (H.digest x.hmsg (slen C H))
  let saved := i2osp x.r C.plen
  let t := invModN C c x.s
  let d := mulN C c w t
  let k := mulN C c x.r t
  let R := scaleAccumulate C c (xyzInf c) C.G d
  let R := scaleAccumulate C c R x.Q k
  if !nonzero R.z then ({ x with status := -1, d, k, R }, false) else
  let w := invModP C c R.z
  let t := mulM C.aux c w R.x 1
  let r := os2ip c saved
  if cmpvShifted t r 0 ≠ 0 then ({ x with status := -1, d, k, R, r }, false)
  else ({ x with status := 1, d, k, R, r }, true)

/-- `ECDSA_Verify`, `ecdsa.c:279-296`: the truth value is whether the return is not NULL. -/
def ecdsaVerify (C : Curve) (c : Nat) (H : Pkcs1.Hash) (x : Ctx) (msg : List Byte) : Ctx × Bool :=
  if x.status = 1 then (x, true)
  else if x.status = -1 then (x, false)
  else hmpVerify C c H { x with hmsg := msg, status := 2 }

/-- `ECDSA_IncVerify_Final`, `ecdsa.c:311-321`. -/
def ecdsaIncVerifyFinal (C : Curve) (c : Nat) (H : Pkcs1.Hash) (x : Ctx) : Ctx × Bool :=
  if x.status = 1 then (x, true)
  else if x.status = -1 then (x, false)
  else hmpVerify C c H { x with status := 2 }

end Ecc
