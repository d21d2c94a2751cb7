/-!
# Model of `src/1-integers/vlong.c` and `src/1-integers/vlong-dat.c`

A `vlong_t` is the list of its 32-bit words, least significant first; its member `c` is the
length of the list.  A destination operand `out` appears as its word count `c` (when the old
contents are not read) or as its old words.  `vlong_size_t` (32-bit unsigned) is `Nat`: every
index expression is modelled under the convention that the word counts and shift amounts are
far below `2^32`, so that the only wrap-arounds are the deliberate "negative index is huge"
tests, which are written out as guards.  Operands may alias in the C code; every loop reads a
word of its inputs before writing the same word of its output, so that the functional model
also describes the in-place calls.
-/

namespace Vlong

abbrev W := BitVec 32

/-- `i < l->c ? l->v[i] : 0`, the zero-extended read used all over `vlong.c`
(e.g. `vlong.c:12`, `:37`, `:59`). -/
def rd (l : List W) (i : Nat) : W := l.getD i 0

/-- `vlong_cpy`, `vlong.c:8-14`. -/
def cpy (c : Nat) (a : List W) : List W := (List.range c).map (rd a)

/-- The carry hand-over `x >>= 32; x = (uint64_t)(int64_t)(int32_t)x;`, `vlong.c:40-41`. -/
def carry (x : BitVec 64) : BitVec 64 := ((x >>> 32).setWidth 32).signExtend 64

/-- `VLONG_ADD_KERNEL(BEXPR)`, `vlong.c:31-44`: `n` iterations from index `i` with carry `x`;
`bexpr i x` is the effect of `BEXPR` on `x`. -/
def addKernel (a : List W) (bexpr : Nat → BitVec 64 → BitVec 64) :
    (n i : Nat) → BitVec 64 → List W
  | 0, _, _ => []
  | n + 1, i, x =>
    let x := x + (rd a i).setWidth 64
    let x := bexpr i x
    x.setWidth 32 :: addKernel a bexpr n (i + 1) (carry x)

/-- `vlong_adds`, `vlong.c:46-52`; `b` is an `int64_t`. -/
def adds (c : Nat) (a : List W) (b : BitVec 64) (s : Nat) : List W :=
  addKernel a (fun i x => x + (if i = s then b else 0)) c 0 0

/-- `vlong_addv`, `vlong.c:54-60`. -/
def addv (c : Nat) (a b : List W) : List W :=
  addKernel a (fun i x => x + (rd b i).setWidth 64) c 0 0

/-- `vlong_subv`, `vlong.c:62-68`. -/
def subv (c : Nat) (a b : List W) : List W :=
  addKernel a (fun i x => x - (rd b i).setWidth 64) c 0 0

/-- `vlong_mulx`, `vlong.c:72-86` (the descending loop makes `out == a` safe). -/
def mulx (c : Nat) (a : List W) : List W :=
  (List.range c).map fun i => if i ≤ a.length ∧ i > 0 then rd a (i - 1) else 0

/-- The loop of `vlong_muls`, `vlong.c:93-99`, over the old words of `out`. -/
def mulsLoop (a : List W) (b : W) (accum : Bool) : (out : List W) → (i : Nat) → BitVec 64 → List W
  | [], _, _ => []
  | o :: out, i, x =>
    let x := x + (if i < a.length then (rd a i).setWidth 64 * b.setWidth 64 else 0)
    let x := if accum then x + o.setWidth 64 else x
    x.setWidth 32 :: mulsLoop a b accum out (i + 1) (x >>> 32)

/-- `vlong_muls`, `vlong.c:88-102`. -/
def muls (out a : List W) (b : W) (accum : Bool) : List W := mulsLoop a b accum out 0 0

/-- The loop of `vlong_imuls`, `vlong.c:109-115`. -/
def imulsLoop (a : List W) (b : BitVec 64) (accum : Bool) :
    (out : List W) → (i : Nat) → BitVec 64 → List W
  | [], _, _ => []
  | o :: out, i, x =>
    let x := x + (if i < a.length then (rd a i).setWidth 64 * b else 0)
    let x := if accum then x + o.setWidth 64 else x
    x.setWidth 32 :: imulsLoop a b accum out (i + 1) (carry x)

/-- `vlong_imuls`, `vlong.c:104-118`; `b` is an `int64_t`. -/
def imuls (out a : List W) (b : BitVec 64) (accum : Bool) : List W :=
  imulsLoop a b accum out 0 0

/-- The "is non-zero" mask `x |= x>>16; x &= 0xffff; x = -(1 ^ ((x ^ (x-1)) >> 31));`,
`vlong.c:137-139` and `vlong.c:281-283`. -/
def nzMask (x : W) : W :=
  let x := x ||| (x >>> 16)
  let x := x &&& 0xffff;
  -(1 ^^^ ((x ^^^ (x - 1)) >>> 31))

/-- `vlong_cmps`, `vlong.c:124-145`; the `int` result is a 32-bit word. -/
def cmps (a b : W) : W :=
  let y : BitVec 64 := a.setWidth 64
  let y := y - b.setWidth 64
  let x : W := y.setWidth 32
  let y := (y >>> 32) &&& 1
  let x := nzMask x
  let x := x &&& 1
  let x : W := (x.setWidth 64 &&& ~~~y).setWidth 32
  (x.setWidth 64 ||| (y <<< 1)).setWidth 32

/-- `vlong_word_shifted`, `vlong.c:149-158`.  `i-w` and `i-w-1` wrap to huge values when
negative, which reads as zero; the guards `w ≤ i` and `w + 1 ≤ i` say the same. -/
def wordShifted (b : List W) (i s : Nat) : W :=
  let w := s / 32
  let r := s % 32
  let v : W := if w ≤ i then rd b (i - w) else 0
  if r ≠ 0 then
    (v <<< r) ||| (if w + 1 ≤ i then rd b (i - w - 1) >>> (32 - r) else 0)
  else v

/-- The loop of `vlong_cmpv_shifted`, `vlong.c:171-180`. -/
def cmpvLoop (a b : List W) (s : Nat) : (t : Nat) → (res : W) → W
  | 0, res => res
  | t + 1, res =>
    let u := rd a t
    let v := wordShifted b t s
    let mask : W := (1 &&& ((res >>> 1) ||| res)) * 3
    let mask := ~~~mask
    let mask := mask &&& cmps u v
    cmpvLoop a b s t (res ||| mask)

/-- `vlong_cmpv_shifted`, `vlong.c:161-183`. -/
def cmpvShifted (a b : List W) (s : Nat) : W :=
  let w := (s + 31) / 32
  let t := if a.length > b.length + w then a.length else b.length + w
  cmpvLoop a b s t 0

/-- `vlong_shift_1bit`, `vlong.c:185-197`; `b` is the `int` shifted in (only bit 0 is used). -/
def shift1bit (x : List W) (b : W) : List W :=
  (List.range x.length).map fun i =>
    (rd x i <<< 1) ||| (if i ≠ 0 then rd x (i - 1) >>> 31 else b &&& 1)

/-- `vlong_sub_shifted_masked`, `vlong.c:199-207`. -/
def subShiftedMasked (c : Nat) (a b : List W) (s : Nat) (mask : W) : List W :=
  addKernel a (fun i x => x - (wordShifted b i s &&& (0 - mask)).setWidth 64) c 0 0

/-- The loop of `vlong_divv`, `vlong.c:228-235`: bit positions `i-1` down to `0`. -/
def divvLoop (a b : List W) : (i : Nat) → (rem quo : List W) → List W × List W
  | 0, rem, quo => (rem, quo)
  | i + 1, rem, quo =>
    let rem := shift1bit rem (rd a (i / 32) >>> (i % 32))
    let cmp := cmpvShifted rem b 0
    let cmp : W := ~~~(cmp >>> 1) &&& 1
    let rem := subShiftedMasked rem.length rem b 0 cmp
    let quo := quo.modify (i / 32) (· ||| (cmp <<< (i % 32)))
    divvLoop a b i rem quo

/-- `vlong_divv`, `vlong.c:209-238`, with `remc`/`quoc` the word counts of `rem`/`quo`.
`none` is the NULL return.  Simplification: the optional `quo` is always present. -/
def divv (remc quoc : Nat) (a b : List W) : Option (List W × List W) :=
  if quoc < a.length then none
  else if remc < b.length then none
  else some (divvLoop a b (a.length * 32) (List.replicate remc 0) (List.replicate quoc 0))

/-- `for(i=b->c; i && !b->v[--i]; );`, `vlong.c:251`: index of the highest non-zero word
(`0` when there is none). -/
def topWord (b : List W) : (i : Nat) → Nat
  | 0 => 0
  | i + 1 => if rd b i = 0 then topWord b i else i

/-- The loop of `vlong_remv_inplace`, `vlong.c:254-259`. -/
def remvLoop (b : List W) : (i : Nat) → (rem : List W) → List W
  | 0, rem => rem
  | i + 1, rem =>
    let cmp := cmpvShifted rem b i
    let cmp : W := ~~~(cmp >>> 1) &&& 1
    remvLoop b i (subShiftedMasked rem.length rem b i cmp)

/-- `vlong_remv_inplace`, `vlong.c:240-262`; `none` is the NULL return. -/
def remvInplace (rem b : List W) : Option (List W) :=
  if rem.length < b.length then none
  else some (remvLoop b ((1 + rem.length - topWord b b.length) * 32) rem)

/-- The final loop of `vlong_imod_inplace`, `vlong.c:286-298`. -/
def imodLoop (b : List W) (neg : W) : (rem : List W) → (i : Nat) → BitVec 64 → List W
  | [], _, _ => []
  | u :: rem, i, x =>
    let v := rd b i
    let x := x + ((~~~neg &&& u) ||| (neg &&& v)).setWidth 64
    let x := x - (neg &&& u).setWidth 64
    x.setWidth 32 :: imodLoop b neg rem (i + 1) (carry x)

/-- `vlong_imod_inplace`, `vlong.c:264-300`.  `rem->v[rem->c-1]` needs `rem->c > 0`.
The C code ignores a NULL from `vlong_remv_inplace` (then `rem` is unreduced). -/
def imodInplace (rem b : List W) : List W :=
  let neg : W := - ((rd rem (rem.length - 1) >>> 31) &&& 1)
  let rem := rem.map (· ^^^ neg)
  let rem := adds rem.length rem ((neg &&& 1).setWidth 64) 0
  let rem := (remvInplace rem b).getD rem
  let z := rem.foldl (· ||| ·) 0
  let neg := neg &&& nzMask z
  imodLoop b neg rem 0 0

/-- A reduction callback `vlong_modfunc_t` (`vlong.h:104-106`) with its context applied:
`none` is the NULL return. -/
abbrev ModFunc := List W → Option (List W)

/-- The loop of `vlong_mulv_masked`, `vlong.c:318-331`: words `i-1` down to `0` of `b`. -/
def mulvLoop (a b : List W) (bmask : W) (modfunc : Option ModFunc) :
    (i : Nat) → (out : List W) → Option (List W)
  | 0, out => some out
  | i + 1, out => do
    let bv : W := if i ≠ 0 then 0 else 1
    let bv := (bv &&& ~~~bmask) ||| (rd b i &&& bmask)
    let out := muls out a bv true
    let out ← match modfunc with
      | some f => f out
      | none => some out
    let out ← if i ≠ 0 then
        let out := mulx out.length out
        match modfunc with
        | some f => f out
        | none => some out
      else some out
    mulvLoop a b bmask modfunc i out

/-- `vlong_mulv_masked`, `vlong.c:304-334`; `mask` shall be 0 or 1 (`vlong.h:110-112`). -/
def mulvMasked (c : Nat) (a b : List W) (mask : W) (modfunc : Option ModFunc) :
    Option (List W) :=
  mulvLoop a b (0 - mask) modfunc b.length (List.replicate c 0)

/-- The loop of `vlong_modexpv`, `vlong.c:364-385`, from exponent bit `i` with `k` bits to go.
When a product returns NULL the C code ignores it; this model returns `none` (simplification:
the theorems cover reduction callbacks that do not fail). -/
def modexpLoop (e : List W) (modfunc : Option ModFunc) :
    (k i : Nat) → (out tmp1 : List W) → Option (List W)
  | 0, _, out, _ => some out
  | k + 1, i, out, tmp1 => do
    let mask : W := (rd e (i / 32) >>> (i % 32)) &&& 1
    let out ← mulvMasked out.length out tmp1 mask modfunc
    if k = 0 then some out
    else
      let tmp1 ← mulvMasked tmp1.length tmp1 tmp1 1 modfunc
      modexpLoop e modfunc k (i + 1) out tmp1

/-- `vlong_modexpv`, `vlong.c:338-388`, `c` being the common word count of `out`, `tmp1`, `tmp2`.
`e->c == 0` reads outside `e` (undefined behaviour): `none`. -/
def modexpv (c : Nat) (base e : List W) (modfunc : Option ModFunc) : Option (List W) :=
  if e.length = 0 then none
  else modexpLoop e modfunc (e.length * 32) 0
    ((List.range c).map fun i => if i ≠ 0 then 0 else 1) (cpy c base)

/-! ## `vlong-dat.c` -/

/-- `for(i=x->c; --i; ) if( x->v[i] ) break;`, `vlong-dat.c:10-11`, from `i` (already
decremented) downwards. -/
def topIdx (x : List W) : Nat → Nat
  | 0 => 0
  | i + 1 => if rd x (i + 1) ≠ 0 then i + 1 else topIdx x i

/-- `while( bits ) i++, bits >>= 1;`, `vlong-dat.c:15` (at most 32 rounds). -/
def bitLoop : (fuel : Nat) → (i : Nat) → (bits : W) → Nat
  | 0, i, _ => i
  | fuel + 1, i, bits => if bits = 0 then i else bitLoop fuel (i + 1) (bits >>> 1)

/-- `vlong_topbit`, `vlong-dat.c:5-17`; `c == 0` is undefined behaviour (`none`). -/
def topbit (x : List W) : Option Nat :=
  if x.length = 0 then none
  else
    let i := topIdx x (x.length - 1)
    some (bitLoop 32 (i * 32) (rd x i))

/-- `vl->v[i / 4] |= (uint32_t)byte << (i * 8 % 32)`, `vlong-dat.c:37`, `:92`. -/
def orByte (v : List W) (i : Nat) (b : BitVec 8) : List W :=
  v.modify (i / 4) (· ||| (b.setWidth 32 <<< (i * 8 % 32)))

/-- `vlong_DecLSB`, `vlong-dat.c:79-94`; the loop from byte index `i` on, stopping at `4*c`. -/
def decLoop : (os : List (BitVec 8)) → (i : Nat) → (v : List W) → List W
  | [], _, v => v
  | b :: os, i, v => if i ≥ v.length * 4 then v else decLoop os (i + 1) (orByte v i b)

/-- `vlong_DecLSB`, `vlong-dat.c:79-94`. -/
def decLSB (c : Nat) (os : List (BitVec 8)) : List W := decLoop os 0 (List.replicate c 0)

/-- `vlong_OS2IP`, `vlong-dat.c:19-39`: the same loop reading `os[len - i - 1]`. -/
def os2ip (c : Nat) (os : List (BitVec 8)) : List W :=
  decLoop os.reverse 0 (List.replicate c 0)

/-- Byte `i` written by `vlong_EncLSB` (`vlong-dat.c:71-76`): the pre-cleared zero once
`i >= vl->c * 4`. -/
def encByte (v : List W) (i : Nat) : BitVec 8 :=
  if i ≥ v.length * 4 then 0 else (rd v (i / 4) >>> (i * 8 % 32)).setWidth 8

/-- `vlong_EncLSB`, `vlong-dat.c:63-77`. -/
def encLSB (v : List W) (len : Nat) : List (BitVec 8) := (List.range len).map (encByte v)

/-- `vlong_I2OSP`, `vlong-dat.c:41-61`: the same bytes at positions `len - i - 1`. -/
def i2osp (v : List W) (len : Nat) : List (BitVec 8) := ((List.range len).map (encByte v)).reverse

end Vlong
