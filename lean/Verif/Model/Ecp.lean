import Verif.Model.EcField

/-!
# Model of `src/2-ec/ecp-xyz.c`: points of short-Weierstrass curves in homogeneous coordinates

Every object of a point or of the operation context has the same word count `c`
(`ecp_xyz_init`, `ecp_opctx_init`, `ecp-xyz.c:361-381`).  The old contents of a destination are
read only where the C code passes `accum = true`; a destination whose contents are not read is
given as `c` zero words.  The results returned by pointer are returned by value.
-/

namespace Ec
open Vlong

/-- `ecp_xyz_t`, `ecp-xyz.h:14-16`, as the three numbers it locates. -/
structure Xyz where
  x : List W
  y : List W
  z : List W
deriving DecidableEq, Repr

/-- `ecp_curve_t`, `ecp-xyz.h:33-42` (the members the point arithmetic uses). -/
structure Curve where
  plen : Nat
  h : Nat
  a : BitVec 32
  b : List W
  n : List W
  G : Xyz
  aux : Aux

/-- `curve->a`, an `int32_t`, passed as the `int64_t` argument of `vlong_imuls`. -/
def Curve.a64 (C : Curve) : BitVec 64 := C.a.signExtend 64

/-- `ecp_point_add_rcb15`, `ecp-xyz.c:9-133`. -/
def pointAdd (C : Curve) (c : Nat) (p1 p2 : Xyz) : Xyz :=
  let f := C.aux.modfunc
  let o := List.replicate c (0 : W)
  -- 1. 2. 3.
  let t0 := mulM C.aux c p1.x p2.x 1
  let t1 := mulM C.aux c p1.y p2.y 1
  let t2 := mulM C.aux c p1.z p2.z 1
  -- 4. 5. 6.
  let t3 := addv c p1.x p1.y
  let t3 := f t3
  let t4 := addv c p2.x p2.y
  let t5 := mulM C.aux c t3 t4 1
  let t3 := cpy c t5
  -- 7. 8. 9.
  let t4 := addv c t0 t1
  let t4 := f t4
  let t3 := subv c t3 t4
  let t3 := imod C.aux t3
  let t4 := addv c p1.x p1.z
  let t4 := f t4
  -- 10. 11. 12.
  let t5 := addv c p2.x p2.z
  let t5 := f t5
  let x := mulM C.aux c t4 t5 1
  let t4 := cpy c x
  let t5 := addv c t0 t2
  let t5 := f t5
  -- 13. 14. 15.
  let t4 := subv c t4 t5
  let t4 := imod C.aux t4
  let t5 := addv c p1.y p1.z
  let t5 := f t5
  let x := addv c p2.y p2.z
  let x := f x
  -- 16. 17. 18.
  let y := mulM C.aux c t5 x 1
  let t5 := cpy c y
  let x := addv c t1 t2
  let x := f x
  let t5 := subv c t5 x
  let t5 := imod C.aux t5
  -- 19. 20. 21.
  let z := imuls o t4 C.a64 false
  let z := imod C.aux z
  let x := mulM C.aux c C.b t2 1
  let x := imuls x x 3 false
  let z := addv c x z
  let z := f z
  -- 22. 23. 24.
  let x := subv c t1 z
  let x := imod C.aux x
  let z := addv c t1 z
  let y := mulM C.aux c x z 1
  -- 25. 26. 27.
  let t1 := imuls t1 t0 3 false
  let t1 := f t1
  let t2 := imuls t2 t2 C.a64 false
  let t2 := imod C.aux t2
  -- 29. 30. 31.
  let t1 := addv c t1 t2
  let t1 := f t1
  let t2 := subv c t0 t2
  let t2 := imod C.aux t2
  let t2 := imuls t2 t2 C.a64 false
  let t2 := imod C.aux t2
  -- 28. 32.
  let t0 := mulM C.aux c t4 C.b 1
  let t4 := imuls t4 t0 3 false
  let t4 := addv c t4 t2
  let t4 := f t4
  -- 33. 34.
  let t0 := mulM C.aux c t1 t4 1
  let y := addv c y t0
  let y := f y
  -- 36. 35. 37.
  let t0 := mulM C.aux c t3 x 1
  let x := mulM C.aux c t5 t4 1
  let x := subv c t0 x
  let x := imod C.aux x
  -- 39. 38. 40.
  let t0 := mulM C.aux c t5 z 1
  let z := mulM C.aux c t3 t1 1
  let z := addv c t0 z
  let z := f z
  ⟨x, y, z⟩

/-- `ecp_point_dbl_fast`, `ecp-xyz.c:138-208`. -/
def pointDbl (C : Curve) (c : Nat) (p1 : Xyz) : Xyz :=
  let f := C.aux.modfunc
  let o := List.replicate c (0 : W)
  let w := mulM C.aux c p1.x p1.x 1
  let w := muls w w 3 false
  let w := imod C.aux w
  let t := mulM C.aux c p1.z p1.z 1
  let s := imuls o t C.a64 false
  let s := imod C.aux s
  let w := addv c w s
  let w := f w
  let y := mulM C.aux c w p1.x 1
  let y := muls y y 3 false
  let y := f y
  let t := mulM C.aux c p1.y p1.y 1
  let s := mulM C.aux c t p1.z 1
  let s := muls s s 2 false
  let s := f s
  let y := subv c y s
  let y := imod C.aux y
  let s := mulM C.aux c y t 1
  let y := mulM C.aux c s p1.z 1
  let y := muls y y 4 false
  let y := f y
  let s := mulM C.aux c t p1.z 1
  let x := mulM C.aux c s p1.x 1
  let x := muls x x 8 false
  let x := f x
  let s := mulM C.aux c w w 1
  let x := subv c s x
  let x := imod C.aux x
  let t := mulM C.aux c s w 1
  let y := subv c y t
  let y := imod C.aux y
  let t := mulM C.aux c p1.y p1.z 1
  let s := muls s x 2 false
  let s := f s
  let x := mulM C.aux c t s 1
  let s := mulM C.aux c t t 1
  let z := mulM C.aux c s t 1
  let z := muls z z 8 false
  let z := f z
  ⟨x, y, z⟩

/-- `ecp_xyz_copy`, `ecp-xyz.c:210-217`. -/
def xyzCopy (c : Nat) (src : Xyz) : Xyz := ⟨cpy c src.x, cpy c src.y, cpy c src.z⟩

/-- `ecp_xyz_inf`, `ecp-xyz.c:219-233` (`c > 0`). -/
def xyzInf (c : Nat) : Xyz :=
  ⟨List.replicate c 0, 1 :: List.replicate (c - 1) 0, List.replicate c 0⟩

/-- One of the three loops of `ecp_xyz_substitute`, `ecp-xyz.c:248-255`. -/
def substWords (a b : List W) (mask : W) : List W :=
  let bmask : W := 0 - mask
  let amask := ~~~bmask
  (List.range a.length).map fun i => (amask &&& rd a i) ||| (bmask &&& rd b i)

/-- `ecp_xyz_substitute`, `ecp-xyz.c:235-274`. -/
def xyzSubst (a b : Xyz) (mask : W) : Xyz :=
  ⟨substWords a.x b.x mask, substWords a.y b.y mask, substWords a.z b.z mask⟩

/-- The loop of `ecp_point_scale_accumulate`, `ecp-xyz.c:301-315`: `k` bits to go at bit `i`. -/
def scaleLoop (C : Curve) (c : Nat) (scalar : List W) : (k i : Nat) → (accum tmp1 : Xyz) → Xyz
  | 0, _, accum, _ => accum
  | k + 1, i, accum, tmp1 =>
    let mask := (rd scalar (i / 32) >>> (i % 32)) &&& 1
    let accum := xyzSubst accum (pointAdd C c tmp1 accum) mask
    if k = 0 then accum
    else scaleLoop C c scalar k (i + 1) accum (pointDbl C c tmp1)

/-- `ecp_point_scale_accumulate`, `ecp-xyz.c:276-318`.  A scalar of no words reads outside it
(undefined behaviour); the model then returns `accum`. -/
def scaleAccumulate (C : Curve) (c : Nat) (accum base : Xyz) (scalar : List W) : Xyz :=
  scaleLoop C c scalar (scalar.length * 32) 0 accum (xyzCopy c base)

/-- `vlong_sqrt_c3m4`, `ecp-xyz.c:320-333`; `none` is the NULL return. -/
def sqrtC3m4 (aux : Aux) (c : Nat) (x : List W) : Option (List W) :=
  if rd aux.modCtx 0 &&& 3 ≠ 3 then none else some (modexpShiftAdded aux c x 1 2)

/-- `vlong_inv_mod_p_fermat`, `ecp-xyz.c:335-346`. -/
def invModP (C : Curve) (c : Nat) (x : List W) : List W := modexpShiftAdded C.aux c x (-2) 0

/-- `vlong_inv_mod_n_fermat`, `ecp-xyz.c:348-359`: the same with `vlong_remv_inplace` and `n`. -/
def invModN (C : Curve) (c : Nat) (x : List W) : List W :=
  modexpShiftAdded ⟨fun l => (remvInplace l C.n).getD l, C.n⟩ c x (-2) 0

/-- `CurveDef` of `curve-secp256r1.c:123-132`, with `b`, `n`, `G` of `:77-121`. -/
def secp256r1 : Curve where
  plen := 32
  h := 1
  a := -3
  b := [0x27D2604B, 0x3BCE3C3E, 0xCC53B0F6, 0x651D06B0, 0x769886BC, 0xB3EBBD55, 0xAA3A93E7, 0x5AC635D8]
  n := [0xFC632551, 0xF3B9CAC2, 0xA7179E84, 0xBCE6FAAD, 0xffffffff, 0xffffffff, 0, 0xffffffff]
  G := ⟨[0xD898C296, 0xF4A13945, 0x2DEB33A0, 0x77037D81, 0x63A440F2, 0xF8BCE6E5, 0xE12C4247, 0x6B17D1F2, 0, 0, 0],
    [0x37BF51F5, 0xCBB64068, 0x6B315ECE, 0x2BCE3357, 0x7C0F9E16, 0x8EE7EB4A, 0xFE1A7F9B, 0x4FE342E2, 0, 0, 0],
    [1, 0, 0, 0, 0, 0, 0, 0, 0, 0, 0]⟩
  aux := aux256

/-- `CurveDef` of `curve-secp384r1.c:143-152`, with `b`, `n`, `G` of `:81-141`. -/
def secp384r1 : Curve where
  plen := 48
  h := 1
  a := -3
  b := [0xD3EC2AEF, 0x2A85C8ED, 0x8A2ED19D, 0xC656398D, 0x5013875A, 0x0314088F, 0xFE814112, 0x181D9C6E,
    0xE3F82D19, 0x988E056B, 0xE23EE7E4, 0xB3312FA7]
  n := [0xCCC52973, 0xECEC196A, 0x48B0A77A, 0x581A0DB2, 0xF4372DDF, 0xC7634D81, 0xffffffff, 0xffffffff,
    0xffffffff, 0xffffffff, 0xffffffff, 0xffffffff]
  G := ⟨[0x72760AB7, 0x3A545E38, 0xBF55296C, 0x5502F25D, 0x82542A38, 0x59F741E0, 0x8BA79B98, 0x6E1D3B62,
      0xF320AD74, 0x8EB1C71E, 0xBE8B0537, 0xAA87CA22, 0, 0, 0],
    [0x90EA0E5F, 0x7A431D7C, 0x1D7E819D, 0x0A60B1CE, 0xB5F0B8C0, 0xE9DA3113, 0x289A147C, 0xF8F41DBD,
      0x9292DC29, 0x5D9E98BF, 0x96262C6F, 0x3617DE4A, 0, 0, 0],
    [1, 0, 0, 0, 0, 0, 0, 0, 0, 0, 0, 0, 0, 0, 0]⟩
  aux := aux384

/-- `CurveDef` of `curveSM2.c:123-132`, with `b`, `n`, `G` of `:77-121`. -/
def curveSM2 : Curve where
  plen := 32
  h := 1
  a := -3
  b := [0x4D940E93, 0xDDBCBD41, 0x15AB8F92, 0xF39789F5, 0xCF6509A7, 0x4D5A9E4B, 0x9D9F5E34, 0x28E9FA9E]
  n := [0x39D54123, 0x53BBF409, 0x21C6052B, 0x7203DF6B, 0xffffffff, 0xffffffff, 0xffffffff, 0xfffffffe]
  G := ⟨[0x334C74C7, 0x715A4589, 0xF2660BE1, 0x8FE30BBF, 0x6A39C994, 0x5F990446, 0x1F198119, 0x32C4AE2C, 0, 0, 0],
    [0x2139F0A0, 0x02DF32E5, 0xC62A4740, 0xD0A9877C, 0x6B692153, 0x59BDCEE3, 0xF4F6779C, 0xBC3736A2, 0, 0, 0],
    [1, 0, 0, 0, 0, 0, 0, 0, 0, 0, 0]⟩
  aux := auxSM2

end Ec
