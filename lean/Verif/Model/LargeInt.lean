import Verif.Spec.Words

/-!
# Model of `src/1-integers/largeint.c`

Memory is a store of 32-bit words, as a little-endian host reads them; a pointer is a word address.  `unsigned` indices are 32-bit.
-/
namespace LargeInt

abbrev W := BitVec 32
/-- The memory of the program, by words. -/
abbrev Store := Nat → W

/-- `struct intdesc`, `largeint.h:8-20`; `p` is the address, `none` for NULL. -/
structure Desc where
  len : Nat
  msb : Bool
  msw : Bool
  p : Option Nat

/-- `struct intview`, `largeint.h:22-26`. -/
structure View where
  base : Nat
  len : Nat
  intd : Desc

/-- `be32toh`, `htobe32` on a little-endian host, `0-datum/endian.c`. -/
def swap32 (x : W) : W := x.extractLsb' 0 8 ++ x.extractLsb' 8 8 ++ x.extractLsb' 16 8 ++ x.extractLsb' 24 8

/-- `w32toh`, `htow32`, `largeint.c:6-14`. -/
def w32 (x : W) (msb : Bool) : W := if msb then swap32 x else x

/-- `intdesc_getword32`, `largeint.c:16-22`. -/
def get (s : Store) (d : Desc) (i : Nat) : W :=
  if i ≥ d.len then 0
  else if d.msw then w32 (s (d.p.getD 0 + (d.len - i - 1))) d.msb
  else w32 (s (d.p.getD 0 + i)) d.msb

/-- A word of memory overwritten. -/
def wr (s : Store) (a : Nat) (x : W) : Store := fun k => if k = a then x else s k

/-- `intdesc_setword32`, `largeint.c:24-30`. -/
def set (s : Store) (d : Desc) (i : Nat) (x : W) : Store :=
  if i ≥ d.len then s
  else if d.msw then wr s (d.p.getD 0 + (d.len - i - 1)) (w32 x d.msb)
  else wr s (d.p.getD 0 + i) (w32 x d.msb)

/-- `intview_getword32`, `largeint.c:32-36`. -/
def vget (s : Store) (v : View) (i : Nat) : W := if i ≥ v.len then 0 else get s v.intd (i + v.base)

/-- `intview_setword32`, `largeint.c:38-42`. -/
def vset (s : Store) (v : View) (i : Nat) (x : W) : Store := if i ≥ v.len then s else set s v.intd (i + v.base) x

/-- The loop body of `li_add`, `largeint.c:61-67`. -/
def addStep (out a b : Desc) (st : Store × BitVec 64) (i : Nat) : Store × BitVec 64 :=
  let x := st.2
  let x := x + (get st.1 a i).setWidth 64
  let x := x + (get st.1 b i).setWidth 64
  let s := set st.1 out i (x.setWidth 32)
  (s, x >>> 32)

/-- `li_add`, `largeint.c:54-68`; `i<out.len || i<a.len || i<b.len` is `i` below the largest. -/
def liAdd (s : Store) (out a b : Desc) : Store := ((List.range (max out.len (max a.len b.len))).foldl (addStep out a b) (s, 0)).1

/-- The loop body of `li_sub`, `largeint.c:77-83`; `(uint64_t)(int64_t)(int32_t)` of the high word. -/
def subStep (out a b : Desc) (st : Store × BitVec 64) (i : Nat) : Store × BitVec 64 :=
  let x := st.2
  let x := x + (get st.1 a i).setWidth 64
  let x := x - (get st.1 b i).setWidth 64
  let s := set st.1 out i (x.setWidth 32)
  (s, ((x >>> 32).setWidth 32).signExtend 64)

/-- `li_sub`, `largeint.c:70-84`. -/
def liSub (s : Store) (out a b : Desc) : Store := ((List.range (max out.len (max a.len b.len))).foldl (subStep out a b) (s, 0)).1

/-- The inner loop body of `li_mul`, `largeint.c:99-108`; `break` is a body that does nothing, because `i + j` only grows. -/
def mulStep (out a b : Desc) (i : Nat) (st : Store × BitVec 64) (j : Nat) : Store × BitVec 64 :=
  if i + j ≥ out.len then st else
  let y := (get st.1 a i).setWidth 64
  let y := y * (get st.1 b j).setWidth 64
  let x := st.2 >>> 32
  let x := x + y
  let x := x + (get st.1 out (i + j)).setWidth 64
  (set st.1 out (i + j) (x.setWidth 32), x)

/-- Clearing an integer: `for(i=0; i<d.len; i++) setword32(d, i, 0)`, `largeint.c:94`, `:183`, `:184`. -/
def clear (s : Store) (d : Desc) : Store := (List.range d.len).foldl (fun s i => set s d i 0) s

/-- `li_mul`, `largeint.c:86-110`. -/
def liMul (s : Store) (out a b : Desc) : Store :=
  let s := clear s out
  (List.range a.len).foldl (fun s i => ((List.range b.len).foldl (mulStep out a b i) (s, 0)).1) s

/-- `getword32s`, `largeint.c:112-133`: `t` is an `unsigned`, the word index is `t >> 5` with the sign bits extended. -/
def gets (s : Store) (v : View) (t : BitVec 32) : W :=
  let m : BitVec 32 := 0xf8000000
  let b : BitVec 32 := 0x80000000
  let i := t >>> 5 ||| (if t &&& b ≠ 0 then m else 0)
  if t &&& 31 ≠ 0 then
    let sh := (t &&& 31).toNat
    let r := 32 - sh
    vget s v i.toNat >>> sh ||| vget s v (i + 1).toNat <<< r
  else vget s v i.toNat

/-- `shifted_ge`, `largeint.c:135-152`: words from the highest down; a smaller word of `a` decides 0, a larger one 1. -/
def shiftedGe (s : Store) (a b : View) (t : Nat) : Bool :=
  let n := b.len + (t + 31) / 32
  go (max a.len n)
where
  go : Nat → Bool
    | 0 => true
    | i + 1 =>
      let u := vget s a i
      let v := gets s b (BitVec.ofNat 32 (i * 32) - BitVec.ofNat 32 t)
      if u < v then false else if u > v then true else go i

/-- The loop body of `shifted_sub`, `largeint.c:162-168`. -/
def ssubStep (out a b : View) (t : Nat) (st : Store × BitVec 64) (i : Nat) : Store × BitVec 64 :=
  let x := st.2
  let x := x + (vget st.1 a i).setWidth 64
  let x := x - (gets st.1 b (BitVec.ofNat 32 (i * 32) - BitVec.ofNat 32 t)).setWidth 64
  let s := vset st.1 out i (x.setWidth 32)
  (s, ((x >>> 32).setWidth 32).signExtend 64)

/-- `shifted_sub`, `largeint.c:154-169`. -/
def shiftedSub (s : Store) (out a b : View) (t : Nat) : Store :=
  ((List.range (max out.len (max a.len b.len))).foldl (ssubStep out a b t) (s, 0)).1

/-- Variables of the main loop of `li_div`. -/
structure DivSt where
  s : Store
  q : View
  r : View
  h : W
  g : W

/-- The body of the main loop of `li_div`, `largeint.c:210-231`. -/
def divStep (d : View) (st : DivSt) (i : Nat) : DivSt :=
  let st := if shiftedGe st.s st.r d i then { st with s := shiftedSub st.s st.r st.r d i, h := st.h ||| (1 : W) <<< (i % 32) } else st
  if i % 32 ≠ 0 then st
  else if st.g = 0 then { st with g := st.h, h := 0 }
  else if vget st.s st.r (st.r.len - 1) = 0 then
    let r := { st.r with len := st.r.len - 1 }
    let q := { st.q with base := st.q.base - 1, len := st.q.len + 1 }
    { st with r := r, q := q, s := vset st.s q 0 st.h, h := 0 }
  else st

/-- `if( !n || d.len < n ) n = d.len;`, `largeint.c:189-192`. -/
def narrow (n len : Nat) : Nat := if n = 0 ∨ len < n then len else n

/-- `li_div`, `largeint.c:171-257`. -/
def liDiv (s : Store) (quo rem a b : Desc) : Store :=
  let s := if quo.p.isSome then clear s quo else s
  let s := if rem.p.isSome then clear s rem else s
  let n := narrow (narrow (narrow (narrow 0 quo.len) rem.len) a.len) b.len
  if n = 0 then s else
  let wv := if rem.p.isSome then rem else quo
  if wv.p.isNone then s else
  let q : View := ⟨n, 0, wv⟩
  let r : View := ⟨0, n, wv⟩
  let d : View := ⟨0, n, b⟩
  let s := (List.range n).foldl (fun s i => vset s r i (get s a i)) s
  let st := (List.range (n * 32)).reverse.foldl (divStep d) ⟨s, q, r, 0, 0⟩
  let s := st.s
  let s := if rem.p.isSome then (List.range st.r.len).foldl (fun s i => set s rem i (vget s st.r i)) s else s
  let s := if quo.p.isSome then
      let k := min n st.q.len
      let s := (List.range k).foldl (fun s i => set s quo i (vget s st.q i)) s
      let s := set s quo k st.g
      (List.range' (k + 1) (n - (k + 1))).foldl (fun s i => set s quo i 0) s
    else s
  if rem.p.isSome then (List.range' st.r.len (n - st.r.len)).foldl (fun s i => set s rem i 0) s else s

end LargeInt
