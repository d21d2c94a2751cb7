import Verif.Spec.Words

/-!
# Model of `src/1-symm/poly1305.c`

`p1305bn_t` is five 32-bit words.  The loops `for(i=0; i<5; i++)` are unrolled.
-/
namespace Poly1305
abbrev Byte := BitVec 8
abbrev W := BitVec 32
abbrev D := BitVec 64

/-- `p1305bn_t`, `poly1305.h:8`. -/
structure Bn where
  w0 : W
  w1 : W
  w2 : W
  w3 : W
  w4 : W
deriving DecidableEq

/-- `uint64_t w[5]`. -/
structure Bd where
  w0 : D
  w1 : D
  w2 : D
  w3 : D
  w4 : D

def zero : Bn := ⟨0, 0, 0, 0, 0⟩

/-- One iteration of `p1305bn_add`, `poly1305.c:11-16`: the new word and the new carry `u`. -/
def addStep (a b u : W) : W × W :=
  let a1 := a + u
  let u1 : W := ((a1.setWidth 64 - u.setWidth 64 : D) >>> 63).setWidth 32
  let a2 := a1 + b
  let u2 : W := u1 + ((a2.setWidth 64 - b.setWidth 64 : D) >>> 63).setWidth 32
  (a2, u2)

/-- `p1305bn_add`, `poly1305.c:7-17`. -/
def add (a b : Bn) : Bn :=
  let r0 := addStep a.w0 b.w0 0
  let r1 := addStep a.w1 b.w1 r0.2
  let r2 := addStep a.w2 b.w2 r1.2
  let r3 := addStep a.w3 b.w3 r2.2
  let r4 := addStep a.w4 b.w4 r3.2
  ⟨r0.1, r1.1, r2.1, r3.1, r4.1⟩

/-- `for(i=1; i<5; i++) { w[i] += w[i-1]>>32; w[i-1] &= 0xffffffff; }`, `poly1305.c:27`, `:41`, `:44`. -/
def carry (w : Bd) : Bd :=
  let w1 := w.w1 + w.w0 >>> 32
  let w2 := w.w2 + w1 >>> 32
  let w3 := w.w3 + w2 >>> 32
  let w4 := w.w4 + w3 >>> 32
  ⟨w.w0 &&& 0xffffffff#64, w1 &&& 0xffffffff#64, w2 &&& 0xffffffff#64, w3 &&& 0xffffffff#64, w4⟩

/-- `w[0] += 5*(w[4]>>2); w[4] &= 3;`, `poly1305.c:26`, `:43`. -/
def fold (w : Bd) : Bd := { w with w0 := w.w0 + 5#64 * (w.w4 >>> 2), w4 := w.w4 &&& 3#64 }

/-- `for(i=0; i<5; i++) x[i] = (uint32_t)w[i];` -/
def narrow (w : Bd) : Bn := ⟨w.w0.setWidth 32, w.w1.setWidth 32, w.w2.setWidth 32, w.w3.setWidth 32, w.w4.setWidth 32⟩

/-- `p1305bn_modp`, `poly1305.c:19-30`. -/
def modp (x : Bn) : Bn :=
  narrow (carry (fold ⟨x.w0.setWidth 64, x.w1.setWidth 64, x.w2.setWidth 64, x.w3.setWidth 64, x.w4.setWidth 64⟩))

/-- `p1305bn_scl`, `poly1305.c:32-47`. -/
def scl (a : Bn) (x : D) : Bn :=
  narrow (carry (fold (carry
    ⟨a.w0.setWidth 64 * x, a.w1.setWidth 64 * x, a.w2.setWidth 64 * x, a.w3.setWidth 64 * x, a.w4.setWidth 64 * x⟩)))

/-- `for(j=0; j<i; j++) p1305bn_scl(m, m, 0x100000000);`, `poly1305.c:57`. -/
def sclPow (m : Bn) : Nat → Bn
  | 0 => m
  | i + 1 => sclPow (scl m 0x100000000#64) i

/-- `p1305bn_mul`, `poly1305.c:49-63`: the new value of `a`. -/
def mul (a b : Bn) : Bn :=
  let n := add zero (sclPow (scl a (b.w4.setWidth 64)) 4)
  let n := add n (sclPow (scl a (b.w3.setWidth 64)) 3)
  let n := add n (sclPow (scl a (b.w2.setWidth 64)) 2)
  let n := add n (sclPow (scl a (b.w1.setWidth 64)) 1)
  let n := add n (sclPow (scl a (b.w0.setWidth 64)) 0)
  modp n

/-- `poly1305_t`. -/
structure Ctx where
  r : Bn
  s : Bn
  a : Bn
deriving DecidableEq

/-- `le32toh(((const uint32_t *)p)[i])`. -/
def le32 (p : List Byte) (i : Nat) : W :=
  (p.getD (4 * i) 0).setWidth 32 ||| (p.getD (4 * i + 1) 0).setWidth 32 <<< 8 ||| (p.getD (4 * i + 2) 0).setWidth 32 <<< 16 |||
    (p.getD (4 * i + 3) 0).setWidth 32 <<< 24

/-- `poly1305_init`, `poly1305.c:65-79`. -/
def init (key : List Byte) : Ctx :=
  { r := ⟨le32 key 0 &&& 0x0fffffff#32, le32 key 1 &&& 0x0ffffffc#32, le32 key 2 &&& 0x0ffffffc#32, le32 key 3 &&& 0x0ffffffc#32, 0⟩,
    s := ⟨le32 key 4, le32 key 5, le32 key 6, le32 key 7, 0⟩,
    a := zero }

/-- One iteration of the loop of `p1305bn_addto`, `poly1305.c:86`. -/
def addtoStep (a u : W) : W × W :=
  let a1 := a + u
  (a1, ((a1.setWidth 64 - u.setWidth 64 : D) >>> 63).setWidth 32)

/-- `p1305bn_addto(a, x, i)`, `poly1305.c:81-88`, for `i` = 4, 3, 2, 1, 0: the loop stops when the carry is
zero or at the last word. -/
def addto4 (a : Bn) (u : W) : Bn := if u = 0 then a else { a with w4 := (addtoStep a.w4 u).1 }
def addto3 (a : Bn) (u : W) : Bn :=
  if u = 0 then a else addto4 { a with w3 := (addtoStep a.w3 u).1 } (addtoStep a.w3 u).2
def addto2 (a : Bn) (u : W) : Bn :=
  if u = 0 then a else addto3 { a with w2 := (addtoStep a.w2 u).1 } (addtoStep a.w2 u).2
def addto1 (a : Bn) (u : W) : Bn :=
  if u = 0 then a else addto2 { a with w1 := (addtoStep a.w1 u).1 } (addtoStep a.w1 u).2
def addto0 (a : Bn) (u : W) : Bn :=
  if u = 0 then a else addto1 { a with w0 := (addtoStep a.w0 u).1 } (addtoStep a.w0 u).2

/-- `poly1305_1block` with non-NULL data, `poly1305.c:90-103`. -/
def block (c : Ctx) (data : List Byte) : Ctx :=
  let a := addto0 c.a (le32 data 0)
  let a := addto1 a (le32 data 1)
  let a := addto2 a (le32 data 2)
  let a := addto3 a (le32 data 3)
  let a := addto4 a 1#32
  { c with a := mul a c.r }

/-- `poly1305_final`, `poly1305.c:105-112`. -/
def final (c : Ctx) : Ctx := { r := zero, s := zero, a := add c.a c.s }

/-- The tag as read by `chacha20-poly1305.c:59-63`: the low four words, little endian. -/
def tag (c : Ctx) : List Byte :=
  [c.a.w0, c.a.w1, c.a.w2, c.a.w3].flatMap fun (w : W) => [w.setWidth 8, (w >>> 8).setWidth 8, (w >>> 16).setWidth 8, (w >>> 24).setWidth 8]

end Poly1305
