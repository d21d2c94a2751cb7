/-!
# Model of `src/0-datum/sbox.c.h` (word-wide constant-time table scans)
-/
namespace Sbox
abbrev Byte := BitVec 8
abbrev W := BitVec 32

/-- `SBOX_WIDENER(X, u00, ..., uFF)`, `sbox.c.h:37-136`, and `SBOX_WIDENER2`, `:138-267`: `X` expands to two words
for each index, written one after the other into the 512-word table. -/
def widen (X : Nat → W × W) : List W := (List.range 256).flatMap fun i => [(X i).1, (X i).2]

/-- `sbox.c.h:279-284` (`:302-307`). -/
def spread (mask : W) : W :=
  let mask := mask ||| mask >>> 4
  let mask := mask ||| mask >>> 2
  let mask := mask ||| mask >>> 1
  let mask := mask &&& 0x01010101#32
  let mask := mask * 255#32
  ~~~ mask

/-- `wsbox`, `sbox.c.h:269-290`; `i = 2*k`. -/
def wsbox (w : W) (T : List W) : W :=
  (List.range 256).foldl (fun ret k =>
    let i := 2 * k
    ret ||| (T.getD i 0 &&& spread (T.getD (i ^^^ 1) 0 ^^^ w))) 0

/-- `invwsbox`, `sbox.c.h:292-313`. -/
def invwsbox (w : W) (T : List W) : W :=
  (List.range 256).foldl (fun ret k =>
    let i := 2 * k
    ret ||| (T.getD (i ^^^ 1) 0 &&& spread (T.getD i 0 ^^^ w))) 0

/-- `sbox`, `sbox.c.h:5-19`: `mask = i ^ x; mask = (mask - 1) >> 8;` on `uint16_t` (the subtraction is done in `int`,
arithmetic shift, then truncated). -/
def sbox (x : Byte) (table : List Byte) : Byte :=
  (List.range 256).foldl (fun ret i =>
    let mask : BitVec 16 := BitVec.ofNat 16 i ^^^ x.setWidth 16
    let mask : BitVec 16 := ((mask.setWidth 32 - 1#32).sshiftRight 8).setWidth 16
    ret ||| ((table.getD i 0).setWidth 16 &&& mask).setWidth 8) 0

/-- `invsbox`, `sbox.c.h:21-35`. -/
def invsbox (x : Byte) (table : List Byte) : Byte :=
  (List.range 256).foldl (fun ret i =>
    let mask : BitVec 16 := (table.getD i 0).setWidth 16 ^^^ x.setWidth 16
    let mask : BitVec 16 := ((mask.setWidth 32 - 1#32).sshiftRight 8).setWidth 16
    ret ||| (BitVec.ofNat 16 i &&& mask).setWidth 8) 0

end Sbox
