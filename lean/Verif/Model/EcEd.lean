import Verif.Model.Ecp

/-!
# Model of `src/2-ec/ecEd.c`: points of twisted Edwards curves in extended coordinates

The conventions are those of `Verif.Model.Ecp`: all objects have `c` words (`ecEd_xytz_init`,
`ecEd_opctx_init`, `ecEd.c:296-315`), and a destination whose contents are not read is given as `c`
zero words.  The results are returned by value: `out` does not overlap `p1` (the header qualifies it
`restrict`; in the doubling `y3` is written before `y1` is last read).
-/

namespace Ec
open Vlong

/-- `ecEd_xytz_t`, `ecEd.h:13-15`, as the four numbers it locates. -/
structure Xytz where
  x : List W
  y : List W
  t : List W
  z : List W
deriving DecidableEq, Repr

/-- `ecEd_curve_t`, `ecEd.h:31-41`. -/
structure EdCurve where
  pbits : Nat
  a : BitVec 16
  c : Nat
  dOver : BitVec 32
  dUnder : BitVec 32
  p : List W
  L : List W
  B : Xytz
  aux : Aux

/-- `curve->a`, an `int16_t`, as the `int64_t` argument of `vlong_imuls`. -/
def EdCurve.a64 (C : EdCurve) : BitVec 64 := C.a.signExtend 64
/-- `curve->d_over`, an `int32_t`, as the `int64_t` argument of `vlong_imuls`. -/
def EdCurve.dOver64 (C : EdCurve) : BitVec 64 := C.dOver.signExtend 64
/-- `-curve->d_over` (computed in `int32_t`) as the `int64_t` argument of `vlong_imuls`. -/
def EdCurve.negDOver64 (C : EdCurve) : BitVec 64 := (- C.dOver).signExtend 64

/-- `ecEd_point_add`, `ecEd.c:6-100`. -/
def edAdd (C : EdCurve) (c : Nat) (p1 p2 : Xytz) : Xytz :=
  let f := C.aux.modfunc
  let o := List.replicate c (0 : W)
  -- w = x1 * y2 + x2 * y1
  let r := mulM C.aux c p1.x p2.y 1
  let s := mulM C.aux c p2.x p1.y 1
  let w := addv c r s
  let w := f w
  -- u = y1 * y2 - a * x1 * x2
  let r := mulM C.aux c p1.x p2.x 1
  let s := mulM C.aux c p1.y p2.y 1
  let u := imuls o r C.a64 false
  let u := subv c s u
  let u := imod C.aux u
  -- v = r * d_under - d_over * s
  let r := mulM C.aux c p1.z p2.z 1
  let s := mulM C.aux c p1.t p2.t 1
  let v := muls o r C.dUnder false
  let v := imuls v s C.negDOver64 true
  let v := imod C.aux v
  let x3 := mulM C.aux c w v 1
  let t3 := mulM C.aux c u w 1
  -- w = r * d_under + d_over * s
  let w := muls w r C.dUnder false
  let w := imuls w s C.dOver64 true
  let w := imod C.aux w
  let y3 := mulM C.aux c u w 1
  let z3 := mulM C.aux c v w 1
  let x3 := muls x3 x3 C.dUnder false
  let y3 := muls y3 y3 C.dUnder false
  let t3 := muls t3 t3 C.dUnder false
  let x3 := f x3
  let y3 := f y3
  let t3 := f t3
  let t3 := muls t3 t3 C.dUnder false
  let t3 := f t3
  ⟨x3, y3, t3, z3⟩

/-- `ecEd_point_dbl`, `ecEd.c:102-173`. -/
def edDbl (C : EdCurve) (c : Nat) (p1 : Xytz) : Xytz :=
  let f := C.aux.modfunc
  let r := mulM C.aux c p1.x p1.x 1
  let s := mulM C.aux c p1.y p1.y 1
  let r := imuls r r C.a64 false
  let r := imod C.aux r
  let u := addv c s r
  let v := subv c s r
  let u := f u
  let v := imod C.aux v
  let y3 := mulM C.aux c u v 1
  let s := mulM C.aux c p1.x p1.y 1
  let s := addv c s s
  let s := f s
  let t3 := mulM C.aux c s v 1
  let r := mulM C.aux c p1.z p1.z 1
  let r := addv c r r
  let w := subv c r u
  let w := imod C.aux w
  let x3 := mulM C.aux c s w 1
  let z3 := mulM C.aux c u w 1
  ⟨x3, y3, t3, z3⟩

/-- `ecEd_xytz_copy`, `ecEd.c:175-183`. -/
def xytzCopy (c : Nat) (src : Xytz) : Xytz := ⟨cpy c src.x, cpy c src.y, cpy c src.t, cpy c src.z⟩

/-- `ecEd_xytz_inf`, `ecEd.c:185-203` (`c > 0`). -/
def xytzInf (c : Nat) : Xytz :=
  ⟨List.replicate c 0, 1 :: List.replicate (c - 1) 0, List.replicate c 0, 1 :: List.replicate (c - 1) 0⟩

/-- `ecEd_xytz_substitute`, `ecEd.c:205-253`; each of its four loops is the loop of
`ecp_xyz_substitute`. -/
def xytzSubst (a b : Xytz) (mask : W) : Xytz :=
  ⟨substWords a.x b.x mask, substWords a.y b.y mask, substWords a.t b.t mask, substWords a.z b.z mask⟩

/-- The loop of `ecEd_point_scale_accumulate`, `ecEd.c:277-291`: `k` bits to go at bit `i`. -/
def edScaleLoop (C : EdCurve) (c : Nat) (scalar : List W) : (k i : Nat) → (accum tmp1 : Xytz) → Xytz
  | 0, _, accum, _ => accum
  | k + 1, i, accum, tmp1 =>
    let mask := (rd scalar (i / 32) >>> (i % 32)) &&& 1
    let accum := xytzSubst accum (edAdd C c tmp1 accum) mask
    if k = 0 then accum
    else edScaleLoop C c scalar k (i + 1) accum (edDbl C c tmp1)

/-- `ecEd_point_scale_accumulate`, `ecEd.c:255-294`.  A scalar of no words reads outside it
(undefined behaviour); the model then returns `accum`. -/
def edScaleAccumulate (C : EdCurve) (c : Nat) (accum base : Xytz) (scalar : List W) : Xytz :=
  edScaleLoop C c scalar (scalar.length * 32) 0 accum (xytzCopy c base)

/-- `CurveDef` of `curve-Ed25519.c:54-64`, with `L`, `B` of `:11-52`. -/
def ed25519 : EdCurve where
  pbits := 255
  a := -1
  c := 3
  dOver := -121665
  dUnder := 121666
  p := p25519
  L := [0x5cf5d3ed, 0x5812631a, 0xa2f79cd6, 0x14def9de, 0, 0, 0, 0x10000000]
  B := ⟨[0x8f25d51a, 0xc9562d60, 0x9525a7b2, 0x692cc760, 0xfdd6dc5c, 0xc0a4e231, 0xcd6e53fe, 0x216936d3, 0, 0, 0],
    [0x66666658, 0x66666666, 0x66666666, 0x66666666, 0x66666666, 0x66666666, 0x66666666, 0x66666666, 0, 0, 0],
    [0xa5b7dda3, 0x6dde8ab3, 0x775152f5, 0x20f09f80, 0x64abe37d, 0x66ea4e8e, 0xd78b7665, 0x67875f0f, 0, 0, 0],
    [1, 0, 0, 0, 0, 0, 0, 0, 0, 0, 0]⟩
  aux := aux25519

/-- `CurveDef` of `curve-Ed448.c:78-88`, with `L`, `B` of `:11-76`. -/
def ed448 : EdCurve where
  pbits := 448
  a := 1
  c := 2
  dOver := -39081
  dUnder := 1
  p := p448
  L := [0xab5844f3, 0x2378c292, 0x8dc58f55, 0x216cc272, 0xaed63690, 0xc44edb49, 0x7cca23e9, 0xffffffff,
    0xffffffff, 0xffffffff, 0xffffffff, 0xffffffff, 0xffffffff, 0x3fffffff]
  B := ⟨[0xc70cc05e, 0x2626a82b, 0x8b00938e, 0x433b80e1, 0x2ab66511, 0x12ae1af7, 0xa3d3a464, 0xea6de324,
      0x470f1767, 0x9e146570, 0x22bf36da, 0x221d15a6, 0x6bed0ded, 0x4f1970c6, 0, 0, 0],
    [0xf230fa14, 0x9808795b, 0x4ed7c8ad, 0xfdbd132c, 0xe67c39c4, 0x3ad3ff1c, 0x05a0c2d7, 0x87789c1e,
      0x6ca39840, 0x4bea7373, 0x56c9c762, 0x88762037, 0x6eb6bc24, 0x693f4671, 0, 0, 0],
    [0x82af95f3, 0xeb06624e, 0x85662d1d, 0xf78fa07d, 0xb5b27da1, 0xf179de90, 0xe2356d58, 0x60d71667,
      0x3f8451d2, 0xc5056a18, 0x508d91c9, 0xcec39d2d, 0xee221c6c, 0xc75eb58a, 0, 0, 0],
    [1, 0, 0, 0, 0, 0, 0, 0, 0, 0, 0, 0, 0, 0, 0, 0, 0]⟩
  aux := aux448

end Ec
