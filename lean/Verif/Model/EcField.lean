import Verif.Model.Vlong

/-!
# Model of the elliptic-curve field arithmetic of `src/2-ec`

The five special-form reductions (`modp25519.c`, `modp448.c`, `curve-secp256r1.c`,
`curve-secp384r1.c`, `curveSM2.c`), the signed reduction `ecp_imod_inplace` and the exponentiation
`vlong_modexpv_shiftadded` of `ec-common.c`.  The word lists are those of `Verif.Model.Vlong`.
The five `remv_inplace` functions never return NULL, so that a reduction callback is a total
function here.
-/

namespace Ec
open Vlong

/-- A total reduction callback with its context (`ecp_imod_aux_t`, `ec-common.h:11-14`):
`modfunc` and the words of `mod_ctx`. -/
structure Aux where
  modfunc : List W → List W
  modCtx : List W

/-- One of the lines `vlong_adds(rem, rem, k*b, t-o);` for each entry `(k, o)` of a table,
executed in order; `b` is the `int64_t` copy of the word taken out
(`curve-secp256r1.c:39-42`, `curve-secp384r1.c:43-46`, `curveSM2.c:39-42`, `modp25519.c:41`,
`modp448.c:47-48`). -/
def addsTable (tbl : List (Int × Nat)) (t : Nat) (b : W) (rem : List W) : List W :=
  tbl.foldl (fun r (ko : Int × Nat) => adds r.length r (BitVec.ofInt 64 (ko.1 * (b.toNat : Int))) (t - ko.2)) rem

/-- `b = rem->v[t]; rem->v[t] = 0; vlong_adds...` (e.g. `curve-secp256r1.c:37-42`). -/
def foldOnce (tbl : List (Int × Nat)) (t : Nat) (rem : List W) : List W :=
  addsTable tbl t (rd rem t) (rem.set t 0)

/-- `for(t = rem->c; t-- > n; ) { fold; fold; }` (`curve-secp256r1.c:35-50`,
`curve-secp384r1.c:39-54`, `curveSM2.c:35-50`, `modp25519.c:37-46`, `modp448.c:43-54`):
`k` words above the lowest `n` remain. -/
def foldLoop (tbl : List (Int × Nat)) (n : Nat) : (k : Nat) → List W → List W
  | 0, rem => rem
  | k + 1, rem => foldLoop tbl n k (foldOnce tbl (n + k) (foldOnce tbl (n + k) rem))

/-- `b = rem->v[7] >> 31; rem->v[7] &= INT32_MAX; vlong_adds(rem, rem, b*19, 0);`,
`modp25519.c:51-53`. -/
def foldTop25519 (rem : List W) : List W :=
  let b : W := rd rem 7 >>> 31
  let rem := rem.modify 7 (· &&& 0x7fffffff)
  adds rem.length rem (BitVec.ofNat 64 (b.toNat * 19)) 0

/-- The comparison loop `for(t = rem->c; t--; ) ...` of every `remv_inplace`
(`curve-secp256r1.c:53-61`, `curve-secp384r1.c:57-65`, `curveSM2.c:53-61`, `modp25519.c:57-65`,
`modp448.c:57-65`). -/
def finCmp (rem p : List W) : (t : Nat) → (res : W) → W
  | 0, res => res
  | t + 1, res =>
    let u := rd rem t
    let v := rd p t
    let mask : W := (1 &&& ((res >>> 1) ||| res)) * 3
    let mask := ~~~mask
    let mask := mask &&& cmps u v
    finCmp rem p t (res ||| mask)

/-- `u = ((res ^ 1) - 1) >> 8; u = -(u & 1); for(...) p.v[t] &= u; vlong_subv(rem, rem, &p);`
(`curve-secp256r1.c:63-67`, `curve-secp384r1.c:67-71`, `curveSM2.c:63-67`, `modp25519.c:67-71`,
`modp448.c:67-71`); the `int` shift is arithmetic. -/
def finSub (rem p : List W) : List W :=
  let res := finCmp rem p rem.length 0
  let u : W := BitVec.sshiftRight ((res ^^^ 1) - 1) 8
  let u : W := 0 - (u &&& 1)
  subv rem.length rem (p.map (· &&& u))

/-- `Fp` of `curve-secp256r1.c:5-15`. -/
def p256 : List W := [0xffffffff, 0xffffffff, 0xffffffff, 0, 0, 0, 1, 0xffffffff]

/-- The fold table of `curve-secp256r1.c:39-42`. -/
def tbl256 : List (Int × Nat) := [(1, 1), (-1, 2), (-1, 5), (1, 8)]

/-- `remv_inplace`, `curve-secp256r1.c:17-70`. -/
def remv256 (rem : List W) : List W :=
  if rem.length < 8 then rem else finSub (foldLoop tbl256 8 (rem.length - 8) rem) p256

/-- `Fp` of `curve-secp384r1.c:5-19`. -/
def p384 : List W := [0xffffffff, 0, 0, 0xffffffff, 0xfffffffe, 0xffffffff, 0xffffffff, 0xffffffff,
  0xffffffff, 0xffffffff, 0xffffffff, 0xffffffff]

/-- The fold table of `curve-secp384r1.c:43-46`. -/
def tbl384 : List (Int × Nat) := [(1, 8), (1, 9), (-1, 11), (1, 12)]

/-- `remv_inplace`, `curve-secp384r1.c:21-74`. -/
def remv384 (rem : List W) : List W :=
  if rem.length < 12 then rem else finSub (foldLoop tbl384 12 (rem.length - 12) rem) p384

/-- `Fp` of `curveSM2.c:5-15`. -/
def pSM2 : List W := [0xffffffff, 0xffffffff, 0, 0xffffffff, 0xffffffff, 0xffffffff, 0xffffffff,
  0xfffffffe]

/-- The fold table of `curveSM2.c:39-42`. -/
def tblSM2 : List (Int × Nat) := [(1, 1), (1, 5), (-1, 6), (1, 8)]

/-- `remv_inplace`, `curveSM2.c:17-70`. -/
def remvSM2 (rem : List W) : List W :=
  if rem.length < 8 then rem else finSub (foldLoop tblSM2 8 (rem.length - 8) rem) pSM2

/-- `Fp_25519`, `modp25519.c:7-17`. -/
def p25519 : List W := [0xffffffed, 0xffffffff, 0xffffffff, 0xffffffff, 0xffffffff, 0xffffffff,
  0xffffffff, 0x7fffffff]

/-- The fold of `modp25519.c:41`: `vlong_adds(rem, rem, b*19*2, t-8)`. -/
def tbl25519 : List (Int × Nat) := [(38, 8)]

/-- `remv_inplace`, `modp25519.c:19-74`. -/
def remv25519 (rem : List W) : List W :=
  if rem.length < 8 then rem
  else finSub (foldTop25519 (foldTop25519 (foldLoop tbl25519 8 (rem.length - 8) rem))) p25519

/-- `Fp_448`, `modp448.c:7-23`. -/
def p448 : List W := [0xffffffff, 0xffffffff, 0xffffffff, 0xffffffff, 0xffffffff, 0xffffffff,
  0xffffffff, 0xfffffffe, 0xffffffff, 0xffffffff, 0xffffffff, 0xffffffff, 0xffffffff, 0xffffffff]

/-- The fold table of `modp448.c:47-48`. -/
def tbl448 : List (Int × Nat) := [(1, 7), (1, 14)]

/-- `remv_inplace`, `modp448.c:25-74`. -/
def remv448 (rem : List W) : List W :=
  if rem.length < 14 then rem else finSub (foldLoop tbl448 14 (rem.length - 14) rem) p448

/-- `remv_callback` of `curve-secp256r1.c:72-75`. -/
def aux256 : Aux := ⟨remv256, p256⟩
/-- `remv_callback` of `curve-secp384r1.c:76-79`. -/
def aux384 : Aux := ⟨remv384, p384⟩
/-- `remv_callback` of `curveSM2.c:72-75`. -/
def auxSM2 : Aux := ⟨remvSM2, pSM2⟩
/-- `modp25519_aux`, `modp25519.c:76-79`. -/
def aux25519 : Aux := ⟨remv25519, p25519⟩
/-- `modp448_aux`, `modp448.c:76-79`. -/
def aux448 : Aux := ⟨remv448, p448⟩

/-- `ecp_imod_inplace`, `ec-common.c:5-43`; the last loop is that of `vlong_imod_inplace`. -/
def imod (aux : Aux) (rem : List W) : List W :=
  let neg : W := - ((rd rem (rem.length - 1) >>> 31) &&& 1)
  let rem := rem.map (· ^^^ neg)
  let rem := adds rem.length rem ((neg &&& 1).setWidth 64) 0
  let rem := aux.modfunc rem
  let z := rem.foldl (· ||| ·) 0
  let neg := neg &&& nzMask z
  imodLoop aux.modCtx neg rem 0 0

/-- `vlong_mulv_masked(out, a, b, mask, aux->modfunc, aux->mod_ctx)` with `out` of `c` words.  The
reduction callback never returns NULL, so neither does the product. -/
def mulM (aux : Aux) (c : Nat) (a b : List W) (mask : W) : List W :=
  (mulvMasked c a b mask (some fun l => some (aux.modfunc l))).getD []

/-- The loop of `vlong_modexpv_shiftadded`, `ec-common.c:80-102`, with `k` bits to go at bit `i`;
`w` is the 64-bit window over the shifted exponent words. -/
def shiftAddLoop (aux : Aux) (e : List W) :
    (k i : Nat) → (w : BitVec 64) → (out tmp1 : List W) → List W
  | 0, _, _, out, _ => out
  | k + 1, i, w, out, tmp1 =>
    let mask : W := ((w >>> (i % 32)) &&& 1).setWidth 32
    let out := mulM aux out.length out tmp1 mask
    if k = 0 then out
    else
      let w := if (i + 1) % 32 = 0 then (w >>> 32) + (rd e ((i + 1) / 32)).setWidth 64 else w
      let tmp1 := mulM aux tmp1.length tmp1 tmp1 1
      shiftAddLoop aux e k (i + 1) w out tmp1

/-- `vlong_modexpv_shiftadded`, `ec-common.c:45-105`, `c` being the common word count of `out`,
`tmp1` and `tmp2`.  Simplification: `shift` is below the `32 * mod_ctx->c` bits of the exponent
(the loop body runs at least once). -/
def modexpShiftAdded (aux : Aux) (c : Nat) (x : List W) (addend : BitVec 32) (shift : Nat) : List W :=
  let e := aux.modCtx
  let w : BitVec 64 := (rd e 0).setWidth 64 + addend.signExtend 64
  shiftAddLoop aux e (e.length * 32 - shift) shift w
    ((List.range c).map fun i => if i ≠ 0 then 0 else 1) (cpy c x)

end Ec
