import Verif.Model.Vlong

/-!
# Model of `src/2-asn1/der-codec.c`

An input window `(*buf, *len)` is the list of its `*len` bytes.  Reading `*p` when the window is
empty is the outcome `none` (an out-of-bounds read, after which `remain--` wraps).
`size_t` is 64 bits wide.
-/

namespace Der
open Vlong (W)

abbrev Byte := BitVec 8

/-- The `while` loop of `ber_get_tag`, `der-codec.c:29-40`; `k` is `4 - (p - *buf)`. -/
def getTagLoop (cls : W) : (k : Nat) → (tag : W) → List Byte → W × List Byte
  | 0, _, p => (0xffffffff#32, p)
  | _ + 1, _, [] => (0xffffffff#32, [])
  | k + 1, tag, b :: p =>
    let tag := tag <<< 7
    let tag := tag ||| (b &&& 0x7F#8).setWidth 32
    if b &&& 0x80#8 = 0#8 then (tag ||| (0x80000000#32 ||| cls <<< 29), p)
    else getTagLoop cls k tag p

/-- `ber_get_tag`, `der-codec.c:5-47`: the tag (all ones on failure) and the rest of the window. -/
def getTag : List Byte → Option (W × List Byte)
  | [] => none
  | b :: p =>
    let cls : W := (b >>> 6).setWidth 32
    let tag : W := (b &&& 31#8).setWidth 32
    if tag.toNat < 31 then some (tag ||| (0x80000000#32 ||| cls <<< 29), p)
    else some (getTagLoop cls 3 0#32 p)

/-- `while( s-- ) { ret = ret << 8 | *p; p++; remain--; }`, `der-codec.c:75-79`. -/
def getLenLoop : (s : Nat) → (ret : BitVec 64) → List Byte → Option (BitVec 64 × List Byte)
  | 0, ret, p => some (ret, p)
  | _ + 1, _, [] => none            -- a read outside the window
  | s + 1, ret, b :: p => getLenLoop s (ret <<< 8 ||| b.setWidth 64) p

/-- `ber_get_len`, `der-codec.c:49-84`. -/
def getLen : List Byte → Option (BitVec 64 × List Byte)
  | [] => none
  | b :: p =>
    if b.toNat < 128 then some (b.setWidth 64, p)
    else
      let s := (b &&& 0x7F#8).toNat
      if s > 8 ∨ s > p.length then some (BitVec.allOnes 64, p)
      else getLenLoop s 0#64 p

/-- Outcomes of `ber_get_hdr`. -/
inductive Hdr
  | oob                                                      -- reads outside the window
  | fail                                                     -- returns -1
  | ok (tag : W) (len : BitVec 64) (rest : List Byte)        -- returns 0
deriving DecidableEq

/-- `ber_get_hdr`, `der-codec.c:86-94`. -/
def getHdr (w : List Byte) : Hdr :=
  match getTag w with
  | none => .oob
  | some (tag, w) =>
    if tag = 0xffffffff#32 then .fail
    else match getLen w with
      | none => .oob
      | some (len, w) =>
        if len = BitVec.allOnes 64 then .fail
        else if len.toNat > w.length then .fail
        else .ok tag len w

/-- `tagflags`, `der-codec.c:124`, `:187`. -/
def tagFlags (val pc : W) : Byte := (((6#32 &&& (val >>> 28)) ||| (pc &&& 1#32)) <<< 5).setWidth 8

/-- One continuation octet `(0x7f & (val >> k)) | 0x80`. -/
def contOct (val : W) (k : Nat) : Byte := (0x7f#32 &&& (val >>> k)).setWidth 8 ||| 0x80#8

/-- `ber_put_tag`, `der-codec.c:185-243`: the octets written (the return value is their number). -/
def putTag (val pc : W) : List Byte :=
  let tf := tagFlags val pc
  let val := val &&& 0x0fffffff#32
  if val.toNat < 2 ^ 5 then [tf ||| val.setWidth 8]
  else if val.toNat < 2 ^ 7 then [tf ||| 31#8, val.setWidth 8]
  else if val.toNat < 2 ^ 14 then [tf ||| 31#8, contOct val 7, (0x7f#32 &&& val).setWidth 8]
  else if val.toNat < 2 ^ 21 then
    [tf ||| 31#8, contOct val 14, contOct val 7, (0x7f#32 &&& val).setWidth 8]
  else if val.toNat < 2 ^ 28 then
    [tf ||| 31#8, contOct val 21, contOct val 14, contOct val 7, (0x7f#32 &&& val).setWidth 8]
  else []

/-- `ber_push_tag`, `der-codec.c:122-183`, pushing onto a downward-growing stack
(`*(--(*stack)) = x` is `x :: stack`); returns the new stack and the return value. -/
def pushTag (stack : List Byte) (val pc : W) : List Byte × Nat :=
  let tf := tagFlags val pc
  let val := val &&& 0x0fffffff#32
  if val.toNat < 2 ^ 5 then ((tf ||| val.setWidth 8) :: stack, 1)
  else if val.toNat < 2 ^ 7 then
    let stack := val.setWidth 8 :: stack
    ((tf ||| 31#8) :: stack, 2)
  else if val.toNat < 2 ^ 14 then
    let stack := (0x7f#32 &&& val).setWidth 8 :: stack
    let stack := contOct val 7 :: stack
    ((tf ||| 31#8) :: stack, 3)
  else if val.toNat < 2 ^ 21 then
    let stack := (0x7f#32 &&& val).setWidth 8 :: stack
    let stack := contOct val 7 :: stack
    let stack := contOct val 14 :: stack
    ((tf ||| 31#8) :: stack, 4)
  else if val.toNat < 2 ^ 28 then
    let stack := (0x7f#32 &&& val).setWidth 8 :: stack
    let stack := contOct val 7 :: stack
    let stack := contOct val 14 :: stack
    let stack := contOct val 21 :: stack
    ((tf ||| 31#8) :: stack, 5)
  else (stack, 0)

/-- The `while( val )` loop of `ber_push_len`, `der-codec.c:110-115`. -/
def pushLenLoop : (fuel : Nat) → (stack : List Byte) → (val : BitVec 64) → (ret : Nat) → List Byte × Nat
  | 0, stack, _, ret => (stack, ret)
  | fuel + 1, stack, val, ret =>
    if val = 0#64 then (stack, ret)
    else pushLenLoop fuel (val.setWidth 8 :: stack) (val >>> 8) (ret + 1)

/-- `ber_push_len`, `der-codec.c:96-120` (8 rounds empty any 64-bit value). -/
def pushLen (stack : List Byte) (val : BitVec 64) : List Byte × Nat :=
  if val.toNat < 0x80 then (val.setWidth 8 :: stack, 1)
  else
    let (stack, ret) := pushLenLoop 8 stack val 0
    ((0x80#8 ||| BitVec.ofNat 8 ret) :: stack, ret + 1)

/-- `while( (val >> (8*ret)) > 0 ) ret++;`, `der-codec.c:259`.  The shift by 64 evaluated when
`ret` reaches 8 is undefined behaviour: `none`. -/
def putLenCount : (fuel : Nat) → (val : BitVec 64) → (ret : Nat) → Option Nat
  | 0, _, _ => none
  | fuel + 1, val, ret => if val >>> (8 * ret) = 0#64 then some ret else putLenCount fuel val (ret + 1)

/-- `ber_put_len`, `der-codec.c:245-272`: the octets written; `none` is undefined behaviour. -/
def putLen (val : BitVec 64) : Option (List Byte) :=
  if val.toNat < 0x80 then some [val.setWidth 8]
  else do
    let ret ← putLenCount 8 val 0
    some ((0x80#8 ||| BitVec.ofNat 8 ret) ::
      ((List.range ret).reverse.map fun i => (val >>> (8 * i)).setWidth 8))

/-! ### INTEGER -/

/-- The size loop of `ber_tlv_encode_integer`, `der-codec.c:393-401`, words `i-1` down to `0`. -/
def intSizeLoop (w : List W) : (i : Nat) → (ret : Nat) → Nat
  | 0, ret => ret
  | i + 1, ret =>
    let u := (Vlong.rd w i).toNat
    let ret := if u < 2 ^ 31 then ret - 1 else ret
    let ret := if u < 2 ^ 23 then ret - 1 else ret
    let ret := if u < 2 ^ 15 then ret - 1 else ret
    let ret := if u < 2 ^ 7 then ret - 1 else ret
    if u ≠ 0 then ret else intSizeLoop w i ret

/-- Pass 1 of `ber_tlv_encode_integer`, `der-codec.c:379-403`. -/
def intSize (w : List W) : Nat := intSizeLoop w w.length (w.length * 4 + 1)

/-- Pass 2 of `ber_tlv_encode_integer`, `der-codec.c:405-412`: the octets `enc[0 .. ret-1]`. -/
def encodeInteger (w : List W) : List Byte :=
  (List.range (intSize w)).map fun i =>
    let u := intSize w - i - 1
    let v := u % 4 * 8
    let u := u / 4
    if u < w.length then (Vlong.rd w u >>> v).setWidth 8 else 0

/-- `VLONG_BYTES_WCNT`, `vlong.h:35`. -/
def bytesWcnt (len : Nat) : Nat := 2 + (len + 4) / 4

/-- The accumulation loop of `ber_tlv_decode_integer`, `der-codec.c:370-374`, over the octets in
the order they are visited. -/
def decodeLoop : (os : List Byte) → (i : Nat) → (v : List W) → List W
  | [], _, v => v
  | b :: os, i, v => decodeLoop os (i + 1) (v.modify (i / 4) (· ||| (b.setWidth 32 <<< (i % 4 * 8))))

/-- Pass 2 of `ber_tlv_decode_integer`, `der-codec.c:352-377`. -/
def decodeInteger (enc : List Byte) : List W :=
  decodeLoop enc.reverse 0 (List.replicate (bytesWcnt enc.length) 0)

/-- `ber_tlv_put_integer`, `der-codec.c:417-457`.  `enclen` is the capacity (`none` = NULL `enc`,
pass 1).  Result: `none` undefined behaviour, `some (ret, octets)` with `ret = -1` on lack of room. -/
def putInteger (w : List W) (enclen : Option Nat) : Option (Int × List Byte) := do
  let ret := intSize w
  let lenb ← putLen (BitVec.ofNat 64 ret)
  let hdr := (putTag 0x80000002#32 0#32).length + lenb.length
  match enclen with
  | none => some (ret + hdr, [])
  | some n =>
    if n < ret + hdr then some (-1, [])
    else some (ret + hdr, putTag 0x80000002#32 0#32 ++ lenb ++ encodeInteger w)

/-! ### Splice insertion -/

/-- Byte-addressed memory relative to `buf`. -/
abbrev Mem := Nat → Byte

/-- `M[i] = x`. -/
def Mem.set (M : Mem) (i : Nat) (x : Byte) : Mem := fun j => if j = i then x else M j

/-- `for(i=0; i<len2; i++) base[i] = base[i + offset];`, `der-codec.c:296-297`
(`k` iterations to go from `i`). -/
def copyLoop (offset : Nat) : (k i : Nat) → Mem → Mem
  | 0, _, M => M
  | k + 1, i, M => copyLoop offset k (i + 1) (M.set i (M (i + offset)))

/-- The three-way exchange loop, `der-codec.c:312-317`. -/
def swapLoop (src dst swap : Nat) : (k i : Nat) → Mem → Mem
  | 0, _, M => M
  | k + 1, i, M =>
    let save := M (src + i)
    let M := M.set (swap + i) (M (dst + i))
    let M := M.set (dst + i) save
    swapLoop src dst swap k (i + 1) M

/-- The `loop:` of `ber_util_splice_insert`, `der-codec.c:303-349`; `none` when the fuel runs out. -/
def spliceLoop : (fuel : Nat) → (base len1 offset len2 : Nat) → Mem → Option Mem
  | 0, _, _, _, _, _ => none
  | fuel + 1, base, len1, offset, len2, M =>
    let n := if len1 < len2 then len1 else len2
    if n = 0 then some M
    else
      let M := swapLoop offset base (base + len1) n 0 M
      if len1 > len2 then spliceLoop fuel (base + n) (len1 - n) (len1 + base) n M
      else spliceLoop fuel (base + n) n (offset + n) (len2 - n) M

/-- `ber_util_splice_insert`, `der-codec.c:274-350`. -/
def splice (fuel len1 offset len2 : Nat) (M : Mem) : Option Mem :=
  if len1 = 0 then some (copyLoop offset len2 0 M)
  else spliceLoop fuel 0 len1 offset len2 M

end Der
