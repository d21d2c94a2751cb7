import Verif.Model.EcField

/-!
# Model of `src/2-ec/ecMt.c`: the Montgomery ladder

All objects of the operation context have `c` words (`ecMt_opctx_init`, `ecMt.c:136-152`), and so has
`x1`; a destination whose contents are not read is given as `c` zero words.
-/

namespace Ec
open Vlong

/-- `cswap`, `ecMt.c:8-20`, for objects of the same length: the new `a` and `b`. -/
def cswap (swap : BitVec 32) (a b : List W) : List W × List W :=
  let dummy (t : Nat) : W := (0 - swap) &&& (rd a t ^^^ rd b t)
  ((List.range a.length).map fun t => rd a t ^^^ dummy t, (List.range b.length).map fun t => rd b t ^^^ dummy t)

/-- `x2, z2, x3, z3` of the operation context, `ecMt.h:14`. -/
structure Ladder where
  x2 : List W
  z2 : List W
  x3 : List W
  z3 : List W

/-- The two conditional swaps, `ecMt.c:68-69` and `:124-125`. -/
def ladderSwap (swap : BitVec 32) (L : Ladder) : Ladder :=
  let x := cswap swap L.x2 L.x3
  let z := cswap swap L.z2 L.z3
  ⟨x.1, z.1, x.2, z.2⟩

/-- The arithmetic of one round, `ecMt.c:72-121`. -/
def ladderStep (aux : Aux) (a24 : W) (c : Nat) (x1 : List W) (L : Ladder) : Ladder :=
  let f := aux.modfunc
  let a := addv c L.x2 L.z2
  let b := subv c L.x2 L.z2
  let a := f a
  let b := imod aux b
  let cc := mulM aux c a a 1
  let d := mulM aux c b b 1
  let x2 := mulM aux c cc d 1
  let e := subv c cc d
  let e := imod aux e
  let cc := muls cc e a24 true
  let cc := f cc
  let z2 := mulM aux c e cc 1
  let cc := addv c L.x3 L.z3
  let d := subv c L.x3 L.z3
  let cc := f cc
  let d := imod aux d
  let da := mulM aux c d a 1
  let cb := mulM aux c cc b 1
  let tmp := addv c da cb
  let tmp := f tmp
  let x3 := mulM aux c tmp tmp 1
  let tmp := subv c da cb
  let tmp := imod aux tmp
  let e := mulM aux c tmp tmp 1
  let z3 := mulM aux c x1 e 1
  ⟨x2, z2, x3, z3⟩

/-- The loop `for(t=bits; t--;)`, `ecMt.c:58-122`: `t` bits to go. -/
def ladderLoop (aux : Aux) (a24 : W) (c : Nat) (k x1 : List W) : (t : Nat) → (swap : BitVec 32) → Ladder → BitVec 32 × Ladder
  | 0, swap, L => (swap, L)
  | t + 1, swap, L =>
    let kt := (rd k (t / 32) >>> (t % 32)) &&& 1
    let swap := swap ^^^ kt
    let L := ladderSwap swap L
    ladderLoop aux a24 c k x1 t kt (ladderStep aux a24 c x1 L)

/-- `ecMt_point_scale`, `ecMt.c:22-134`: the new contents of `x1`. -/
def mtPointScale (aux : Aux) (a24 : W) (c : Nat) (k x1 : List W) (bits : Nat) : List W :=
  let x1 := aux.modfunc x1
  let r := ladderLoop aux a24 c k x1 bits 0 ⟨cpy c [1], List.replicate c 0, cpy c x1, cpy c [1]⟩
  let L := ladderSwap r.1 r.2
  let tmp := modexpShiftAdded aux c L.z2 (-2) 0
  mulM aux c L.x2 tmp 1

/-- `A24` of `curve25519.c:9`. -/
def a24_25519 : W := 121665
/-- `A24` of `curve448.c:9`. -/
def a24_448 : W := 39081

end Ec
