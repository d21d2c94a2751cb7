import Verif.Spec.Words

/-!
# Model of `src/2-hash/blake2.c` and `src/2-hash/blake-common.c.h`

BLAKE2b (64-bit words) and BLAKE2s (32-bit words) are the same text up to the word type, the rotation
amounts, the initial values and the number of rounds (`Prm`).  The host is little-endian: `le32toh`,
`htole32` and so on are the identity on memory.
-/

namespace Blake2
abbrev Byte := BitVec 8

/-- The differences between `blake2b_*` and `blake2s_*`. -/
structure Prm (W : Nat) where
  rot : List Nat          -- right-shift amounts in qround_word / qround_long
  iv : List (BitVec W)    -- IV0..IV7 / IV0l..IV7l
  rounds : Nat            -- loop bound in *_compress
  maxOut : Nat            -- bound on outlen in *_init
  maxKey : Nat            -- bound on keylen in *_init
  tHigh : Bool            -- whether `v[13] ^= t>>32` is there

/-- `blake-common.c.h:11-17`, `:29-36`, `blake2.c:82-109`, `:116`. -/
def prmB : Prm 64 :=
  { rot := [32, 24, 16, 63],
    iv := [0x6a09e667f3bcc908, 0xbb67ae8584caa73b, 0x3c6ef372fe94f82b, 0xa54ff53a5f1d36f1,
           0x510e527fade682d1, 0x9b05688c2b3e6c1f, 0x1f83d9abfb41bd6b, 0x5be0cd19137e2179],
    rounds := 12, maxOut := 64, maxKey := 64, tHigh := false }

/-- `blake-common.c.h:3-9`, `:19-27`, `blake2.c:55-80`, `:207`. -/
def prmS : Prm 32 :=
  { rot := [16, 12, 8, 7],
    iv := [0x6a09e667, 0xbb67ae85, 0x3c6ef372, 0xa54ff53a, 0x510e527f, 0x9b05688c, 0x1f83d9ab, 0x5be0cd19],
    rounds := 10, maxOut := 32, maxKey := 32, tHigh := true }

/-- `sigma`, `blake2.c:7-18`. -/
def sigma : List (List Nat) := [
    [0, 1, 2, 3, 4, 5, 6, 7, 8, 9, 10, 11, 12, 13, 14, 15],
    [14, 10, 4, 8, 9, 15, 13, 6, 1, 12, 0, 2, 11, 7, 5, 3],
    [11, 8, 12, 0, 5, 2, 15, 13, 10, 14, 3, 6, 7, 1, 9, 4],
    [7, 9, 3, 1, 13, 12, 11, 14, 2, 6, 5, 10, 4, 0, 15, 8],
    [9, 0, 5, 7, 2, 4, 10, 15, 14, 1, 11, 12, 6, 8, 3, 13],
    [2, 12, 6, 10, 0, 11, 8, 3, 4, 13, 7, 5, 15, 14, 1, 9],
    [12, 5, 1, 15, 14, 13, 4, 10, 0, 7, 6, 3, 9, 2, 8, 11],
    [13, 11, 7, 14, 12, 1, 3, 9, 5, 0, 15, 4, 8, 6, 2, 10],
    [6, 15, 14, 9, 11, 3, 0, 8, 12, 2, 13, 7, 1, 4, 10, 5],
    [10, 2, 8, 4, 7, 6, 1, 5, 15, 11, 9, 14, 3, 12, 13, 0]]

variable {W : Nat} (p : Prm W)

/-- `(x >> n) | (x << (W - n))`, as spelt out in `qround_*`. -/
def rotr (x : BitVec W) (n : Nat) : BitVec W := (x >>> n) ||| (x <<< (W - n))

/-- `qround_word` / `qround_long`, `blake-common.c.h:3-17`, statement by statement on the state
array. -/
def qround (st : List (BitVec W)) (a b c d : Nat) (x y : BitVec W) : List (BitVec W) :=
  let st := st.set a (st.getD a 0 + (st.getD b 0 + x))
  let st := st.set d (st.getD d 0 ^^^ st.getD a 0)
  let st := st.set d (rotr (st.getD d 0) (p.rot.getD 0 0))
  let st := st.set c (st.getD c 0 + st.getD d 0)
  let st := st.set b (st.getD b 0 ^^^ st.getD c 0)
  let st := st.set b (rotr (st.getD b 0) (p.rot.getD 1 0))
  let st := st.set a (st.getD a 0 + (st.getD b 0 + y))
  let st := st.set d (st.getD d 0 ^^^ st.getD a 0)
  let st := st.set d (rotr (st.getD d 0) (p.rot.getD 2 0))
  let st := st.set c (st.getD c 0 + st.getD d 0)
  let st := st.set b (st.getD b 0 ^^^ st.getD c 0)
  st.set b (rotr (st.getD b 0) (p.rot.getD 3 0))

/-- `m[i]` for the block seen as an array of words on a little-endian host (bytes from the least
significant). -/
def loadWord (W : Nat) (b : List Byte) (i : Nat) : BitVec W :=
  (List.range (W / 8)).foldr (fun j acc => acc <<< 8 ||| (b.getD (W / 8 * i + j) 0).setWidth W) 0

/-- `inner_block_word` / `inner_block_long`, `blake2.c:26-53`; the message array is never NULL. -/
def innerBlock (st : List (BitVec W)) (m : List Byte) (s : List Nat) : List (BitVec W) :=
  let msg := fun i => loadWord W m (s.getD i 0)
  let st := qround p st 0 4 8 12 (msg 0) (msg 1)
  let st := qround p st 1 5 9 13 (msg 2) (msg 3)
  let st := qround p st 2 6 10 14 (msg 4) (msg 5)
  let st := qround p st 3 7 11 15 (msg 6) (msg 7)
  let st := qround p st 0 5 10 15 (msg 8) (msg 9)
  let st := qround p st 1 6 11 12 (msg 10) (msg 11)
  let st := qround p st 2 7 8 13 (msg 12) (msg 13)
  qround p st 3 4 9 14 (msg 14) (msg 15)

/-- `blake2s_compress`, `blake2b_compress`, `blake2.c:55-109`. -/
def compress (h : List (BitVec W)) (m : List Byte) (t : BitVec 64) (f : Bool) : List (BitVec W) :=
  let v := (List.range 8).map (fun i => h.getD i 0) ++ (List.range 8).map (fun i => p.iv.getD i 0)
  let v := v.set 12 (v.getD 12 0 ^^^ t.setWidth W)
  let v := if p.tHigh then v.set 13 (v.getD 13 0 ^^^ (t >>> 32).setWidth W) else v
  let v := if f then v.set 14 (~~~ v.getD 14 0) else v
  let v := (List.range p.rounds).foldl (fun v i => innerBlock p v m (sigma.getD (i % 10) [])) v
  (List.range 8).map fun i => h.getD i 0 ^^^ (v.getD i 0 ^^^ v.getD (i + 8) 0)

/-- `blake2b_t`, `blake2s_t`, `blake2.h:11-33`; `b` is 16 words long. -/
structure Ctx (W : Nat) where
  b : List Byte
  h : List (BitVec W)
  t : BitVec 64
  filled : Nat
  outlen : Nat
  keylen : Nat
  finalized : Bool

/-- `sizeof(x->b)`. -/
def bsize (W : Nat) : Nat := 16 * (W / 8)

/-- The body of the loop of `blake2b_update` / `blake2s_update`, `blake2.c:159-170`, `:250-261`. -/
def pushByte (x : Ctx W) (d : Byte) : Ctx W :=
  let x := if x.filled = bsize W then
      let t := x.t + BitVec.ofNat 64 x.filled
      { x with t := t, h := compress p x.h x.b t false, filled := 0 }
    else x
  { x with b := x.b.set x.filled d, filled := x.filled + 1 }

/-- `blake2b_update`, `blake2s_update`, `blake2.c:155-171`, `:246-262`. -/
def update (x : Ctx W) (data : List Byte) : Ctx W := data.foldl (pushByte p) x

/-- `blake2b_init`, `blake2s_init`, `blake2.c:111-143`, `:202-234`.  NULL is `none`. -/
def init (outlen : Nat) (k : List Byte) : Option (Ctx W) :=
  if outlen > p.maxOut ∨ outlen < 1 ∨ k.length > p.maxKey then none
  else
    let h := p.iv.set 0 (p.iv.getD 0 0 ^^^
      ((0x01010000#32 ^^^ (BitVec.ofNat 32 k.length <<< 8) ^^^ BitVec.ofNat 32 outlen).setWidth W))
    let x : Ctx W := { b := List.replicate (bsize W) 0, h := h, t := 0, filled := 0, outlen := outlen,
                       keylen := k.length, finalized := false }
    if k.length > 0 then
      let x := update p x k
      some { x with filled := bsize W }
    else some x

/-- `while( x->filled < sizeof(x->b) ) x->b[x->filled++] = 0;`, `n` iterations. -/
def zeroLoop : (n filled : Nat) → List Byte → List Byte
  | 0, _, b => b
  | n + 1, filled, b => zeroLoop n (filled + 1) (b.set filled 0)

/-- Storing a word at word index `i` of the buffer (little-endian host). -/
def storeWord (b : List Byte) (i : Nat) (w : BitVec W) : List Byte :=
  (List.range (W / 8)).foldl (fun b j => b.set (W / 8 * i + j) ((w >>> (8 * j)).setWidth 8)) b

/-- `blake2b_final`, `blake2s_final` up to the label, `blake2.c:178-189`, `:269-280`. -/
def finalize (x : Ctx W) : Ctx W :=
  if x.finalized then x
  else
    let t := x.t + BitVec.ofNat 64 x.filled
    let b := zeroLoop (bsize W - x.filled) x.filled x.b
    let h := compress p x.h b t true
    let b := (List.range 8).foldl (fun b i => storeWord b i (h.getD i 0)) b
    { x with t := t, b := b, filled := bsize W, h := h, finalized := true }

/-- `blake2b_final(x, out, t)`, `blake2.c:173-198`, `:264-289`, with non-NULL `out`. -/
def final (x : Ctx W) (t : Nat) : List Byte × Ctx W :=
  let x := finalize p x
  ((List.range t).map fun i => if i < x.outlen then x.b.getD i 0 else 0, x)

end Blake2
