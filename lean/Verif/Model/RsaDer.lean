import Verif.Model.Der
import Verif.Model.EccSig

/-!
# Model of the RSA key codec: `src/2-rsa/rsa-{pub,priv}key-{parser,writer}-der.c`, `rsa-pubkey-export-der.c`

A key context is one block of memory of 32-bit words (every offset in `rsa.h` is a multiple of four): word `i` lies at the octet
offset `4 * i`, the header structures included.  An integer object at word `i` is its word count followed by its words.
-/

namespace RsaDer
open Vlong

/-- An octet. -/
abbrev Byte := BitVec 8

/-- The words of a context. -/
abbrev Mem := Nat → W

/-- Assignment to one word. -/
def Mem.put (m : Mem) (i : Nat) (v : W) : Mem := fun j => if j = i then v else m j

/-- The words of the integer object at word `i`. -/
def Mem.vlong (m : Mem) (i : Nat) : List W := (List.range (m i).toNat).map fun t => m (i + 1 + t)

/-- The word index `DeltaTo(ctx, field)` of the object located by the header word `f`, `struct-delta.c.h:5-6`. -/
def Mem.at_ (m : Mem) (f : Nat) : Nat := (m f).toNat / 4

/-- What `ber_tlv_decode_integer` writes at word `i`, `der-codec.c:366-374`. -/
def Mem.wr (m : Mem) (i : Nat) (v : List W) : Mem := fun j =>
  if j = i then BitVec.ofNat 32 v.length
  else if i < j ∧ j < i + 1 + v.length then v.getD (j - i - 1) 0
  else m j

/-- Outcomes: a read outside a buffer or another undefined operation, the return of `-1`, a failed assertion, or success. -/
inductive Res (α : Type)
  | oob
  | fail
  | abort
  | ok (a : α)

instance : Monad Res where
  pure := .ok
  bind x f := match x with
    | .oob => .oob
    | .fail => .fail
    | .abort => .abort
    | .ok a => f a

/-- `if( -1 == BER_HDR ) return -1; if( tag != expected ) return -1;`: the length and the octets after the header. -/
def hdr (expected : W) (w : List Byte) : Res (Nat × List Byte) :=
  match Der.getHdr w with
  | .oob => .oob
  | .fail => .fail
  | .ok tag len w => if tag ≠ expected then .fail else .ok (len.toNat, w)

/-- The header of an INTEGER, its contents, and what follows them (`ptr += len; remain -= len;`). -/
def intHdr (w : List Byte) : Res (List Byte × List Byte) := do
  let (len, w) ← hdr 0x80000002#32 w
  return (w.take len, w.drop len)

/-- `VLONG_BYTES_SIZE`, `vlong.h:36`, the value of `ber_tlv_decode_integer`. -/
def bytesSize (len : Nat) : Nat := 4 * (Der.bytesWcnt len + 1)

/-- `if( pass == 2 ) ctx->field = header + ret; ret += ber_tlv_decode_integer(DeltaTo(ctx, field), ptr, len);`.  `any` is the
context in pass 2 and `none` in pass 1, `hdrw` the number of words of the header, `ret` the octets occupied so far. -/
def placeInt (fld hdrw : Nat) (any : Option Mem) (ret : Nat) (content : List Byte) : Option Mem × Nat :=
  (any.map fun m =>
    let m := m.put fld (BitVec.ofNat 32 (4 * hdrw + ret))
    m.wr (m.at_ fld) (Der.decodeInteger content), ret + bytesSize content.length)

/-- `if( pass == 2 ) ctx->offset_wi = header + ret; ret += size_modulus;`. -/
def placeWork (fld hdrw : Nat) (any : Option Mem) (ret sm : Nat) : Option Mem × Nat :=
  (any.map fun m => m.put fld (BitVec.ofNat 32 (4 * hdrw + ret)), ret + sm)

/-- `((vlong_t *)DeltaTo(ctx, offset_wi))->c = size_modulus / 4 - 1;`. -/
def setCount (fld sm : Nat) (any : Option Mem) : Option Mem :=
  any.map fun m => m.put (m.at_ fld) (BitVec.ofNat 32 (sm / 4 - 1))

/-- `if( pass == 2 ) ctx->modulus_bits = vlong_topbit(DeltaTo(ctx, offset_n));` -/
def setBits (fldBits fldN : Nat) (any : Option Mem) : Option Mem :=
  any.map fun m => m.put fldBits (BitVec.ofNat 32 ((topbit (m.vlong (m.at_ fldN))).getD 0))

/-! ## Public keys

Words of `RSA_Pub_Ctx_Hdr_t`, `rsa.h:87-90`: 0-3 `offset_w1` to `offset_w4`, 4 `offset_n`, 5 `offset_e`, 6 `modulus_bits`. -/

/-- `ber_tlv_decode_RSAPublicKey`, `rsa-pubkey-parser-der.c:8-104`: the returned size and the context (`none` in pass 1).  The
length of the SEQUENCE is read and not used. -/
def decodePub (any : Option Mem) (enc : List Byte) : Res (Nat × Option Mem) := do
  let (_, w) ← hdr 0x80000010#32 enc
  let (cn, w) ← intHdr w
  let sm := bytesSize cn.length
  let (any, ret) := placeInt 4 7 any 0 cn
  let any := setBits 6 4 any
  let (any, ret) := placeWork 0 7 any ret sm
  let (any, ret) := placeWork 1 7 any ret sm
  let (any, ret) := placeWork 2 7 any ret sm
  let (any, ret) := placeWork 3 7 any ret sm
  let any := setCount 0 sm any
  let any := setCount 1 sm any
  let any := setCount 2 sm any
  let any := setCount 3 sm any
  let (ce, _) ← intHdr w
  let (any, ret) := placeInt 5 7 any ret ce
  return (ret + 4 * 7, any)

/-- One `ber_tlv_put_integer(w, DeltaAdd(enc, ret), enclen - ret)` of the writers with its error check: the buffer and the octets
used so far. -/
def putInt (buf : Option (List Byte)) (ret : Nat) (w : List W) : Res (Option (List Byte) × Nat) :=
  match Der.putInteger w (buf.map fun b => b.length - ret) with
  | none => .oob
  | some (n, o) =>
    if n < 0 then .fail
    else .ok (buf.map fun b => b.take ret ++ o ++ b.drop (ret + o.length), ret + n.toNat)

/-- The end of the writers, `rsa-pubkey-writer-der.c:36-52`, `rsa-pubkey-export-der.c:36-52`, `rsa-privkey-writer-der.c:114-130`: the
header is put before the `ret` octets. -/
def wrapSeq (buf : Option (List Byte)) (ret : Nat) : Res (Option (List Byte) × Nat) :=
  match Der.putLen (BitVec.ofNat 64 ret) with
  | none => .oob
  | some len =>
    let tl := Der.putTag 0x80000010#32 1#32 ++ len
    let subret := tl.length
    match buf with
    | none => .ok (none, ret + subret)
    | some b =>
      if ret + subret > b.length then .fail
      else match Ecc.moveUp subret ret b with
        | none => .oob
        | some b => .ok (some (tl ++ b.drop subret), ret + subret)

/-- `ber_tlv_encode_RSAPublicKey`, `rsa-pubkey-writer-der.c:6-53`: the buffer (`none`: NULL) and the returned length. -/
def encodePub (m : Mem) (buf : Option (List Byte)) : Res (Option (List Byte) × Nat) := do
  let (buf, ret) ← putInt buf 0 (m.vlong (m.at_ 4))
  let (buf, ret) ← putInt buf ret (m.vlong (m.at_ 5))
  wrapSeq buf ret

/-- `ber_tlv_export_RSAPublicKey`, `rsa-pubkey-export-der.c:6-53`, on a private context. -/
def exportPub (m : Mem) (buf : Option (List Byte)) : Res (Option (List Byte) × Nat) := do
  let (buf, ret) ← putInt buf 0 (m.vlong (m.at_ 7))
  let (buf, ret) ← putInt buf ret (m.vlong (m.at_ 8))
  wrapSeq buf ret

/-! ## Private keys

Words of `RSA_Priv_Base_Ctx_t`, `rsa.h:22-34`: 0-4 `offset_w1` to `offset_w5`, 5 `count_primes_other`, 6 `modulus_bits`, 7 `offset_n`,
8 `offset_e`, 9 `offset_d`, 10 `offset_q`, 11 `offset_dQ`, 12 `offset_p`, 13 `offset_dP`, 14 `offset_qInv`; then three words
`offset_r`, `offset_d`, `offset_t` for each other prime. -/

/-- Words of the header of a private context with `cnt` other primes. -/
def privHdr (cnt : Nat) : Nat := 15 + 3 * cnt

/-- The loop of `ber_tlv_decode_OtherPrimeInfos`, `rsa-privkey-parser-der.c:289-371`, from the prime `i`: the octets occupied (counted
from the start of the payload), the context and `*count_primes_other`.  The words of the header are computed from
`count_primes_other` in the context.  `fuel` bounds the number of primes; each takes at least two octets of the window in pass 1, and
their number is given in pass 2. -/
def decodeOthers (cnt : Nat) : (fuel : Nat) → (any : Option Mem) → (ret i : Nat) → (w : List Byte) → Res (Nat × Option Mem × Nat)
  | 0, _, _, _, _ => .oob
  | fuel + 1, any, ret, i, w =>
    let stop : Bool := match any with
      | none => w.isEmpty
      | some _ => decide (i ≥ cnt)
    if stop then .ok (ret, any, if any.isNone then i else cnt)
    else do
      let (_, w) ← hdr 0x80000010#32 w
      let (cr, w) ← intHdr w
      let (any, ret) := placeInt (15 + 3 * i) (privHdr cnt) any ret cr
      let (cd, w) ← intHdr w
      let (any, ret) := placeInt (16 + 3 * i) (privHdr cnt) any ret cd
      let (ct, w) ← intHdr w
      let (any, ret) := placeInt (17 + 3 * i) (privHdr cnt) any ret ct
      decodeOthers cnt fuel any ret (i + 1) w

/-- `for(i=0, version = 0; i<len; i++) version = (version << 8) | ptr[i];`, `rsa-privkey-parser-der.c:48`. -/
def versionOf (content : List Byte) : W := content.foldl (fun v b => v <<< 8 ||| b.setWidth 32) 0

/-- One pass of `ber_tlv_decode_RSAPrivateKey`, `rsa-privkey-parser-der.c:36-271`; `cnt` is `count_primes_other` (not used in pass 1).
Result: the returned size, the context and `count_primes_other`. -/
def privPass (cnt : Nat) (any : Option Mem) (enc : List Byte) : Res (Nat × Option Mem × Nat) := do
  let h := privHdr cnt
  let (_, w) ← hdr 0x80000010#32 enc
  let (cv, w) ← intHdr w
  let version := versionOf cv
  let any := any.map fun m => m.put 5 (BitVec.ofNat 32 cnt)
  let (cn, w) ← intHdr w
  let sm := bytesSize cn.length
  let (any, ret) := placeInt 7 h any 0 cn
  let any := setBits 6 7 any
  let (any, ret) := placeWork 0 h any ret sm
  let (any, ret) := placeWork 1 h any ret sm
  let (any, ret) := placeWork 2 h any ret sm
  let (any, ret) := placeWork 3 h any ret sm
  let (any, ret) := placeWork 4 h any ret sm
  let any := setCount 0 sm any
  let any := setCount 1 sm any
  let any := setCount 2 sm any
  let any := setCount 3 sm any
  let any := setCount 4 sm any
  let (c, w) ← intHdr w
  let (any, ret) := placeInt 8 h any ret c
  let (c, w) ← intHdr w
  let (any, ret) := placeInt 9 h any ret c
  let (c, w) ← intHdr w
  let (any, ret) := placeInt 12 h any ret c
  let (c, w) ← intHdr w
  let (any, ret) := placeInt 10 h any ret c
  let (c, w) ← intHdr w
  let (any, ret) := placeInt 13 h any ret c
  let (c, w) ← intHdr w
  let (any, ret) := placeInt 11 h any ret c
  let (c, w) ← intHdr w
  let (any, ret) := placeInt 14 h any ret c
  if version = 0 then return (ret + 4 * privHdr 0, any, 0)
  else if version = 1 then
    let (len, w) ← hdr 0x80000010#32 w
    let (ret, any, cnt) ← decodeOthers cnt (w.length + cnt + 1) any ret 0 (w.take len)
    return (ret + 4 * privHdr cnt, any, cnt)
  else .abort

/-- `ber_tlv_decode_RSAPrivateKey`, `rsa-privkey-parser-der.c:12-284`: pass 1 always runs first. -/
def decodePriv (any : Option Mem) (enc : List Byte) : Res (Nat × Option Mem) := do
  let (ret, _, cnt) ← privPass 0 none enc
  match any with
  | none => return (ret, none)
  | some m =>
    let (ret, any, _) ← privPass cnt (some m) enc
    return (ret, any)

/-- The loop of `ber_tlv_encode_OtherPrimeInfos`, `rsa-privkey-writer-der.c:152-222`, from the prime `i` with `k` to go.  `tlbuf` is the
16-octet buffer, whose first contents are indeterminate; `buf` starts at `DeltaAdd(enc, ret)` of the caller.  The header of an
element is copied by `enc[t] = tlbuf[t]` for `t` from `ret`, which leaves `tlbuf` when `ret + subret` exceeds 16. -/
def encodeOthers (m : Mem) : (k i : Nat) → (tlbuf : List Byte) → (buf : Option (List Byte)) → (ret : Nat) →
    Res (Option (List Byte) × Nat)
  | 0, _, _, buf, ret => wrapSeq buf ret
  | k + 1, i, tlbuf, buf, ret => do
    let (buf, e) ← putInt buf ret (m.vlong (m.at_ (15 + 3 * i)))
    let (buf, e) ← putInt buf e (m.vlong (m.at_ (16 + 3 * i)))
    let (buf, e) ← putInt buf e (m.vlong (m.at_ (17 + 3 * i)))
    let accum := e - ret
    match Der.putLen (BitVec.ofNat 64 accum) with
    | none => .oob
    | some len =>
      let tl := Der.putTag 0x80000010#32 1#32 ++ len
      let subret := tl.length
      let tlbuf := tl ++ tlbuf.drop subret
      match buf with
      | none => encodeOthers m k (i + 1) tlbuf none (ret + accum + subret)
      | some b =>
        if ret + accum + subret > b.length then .fail
        else if ret + subret > tlbuf.length then .oob
        else match Ecc.moveUp subret accum (b.drop ret) with
          | none => .oob
          | some up =>
            let b := b.take ret ++ up
            let b := b.take ret ++ (tlbuf.drop ret).take subret ++ b.drop (ret + subret)
            encodeOthers m k (i + 1) tlbuf (some b) (ret + accum + subret)

/-- `ber_tlv_encode_RSAPrivateKey`, `rsa-privkey-writer-der.c:9-131`; `junk` are the 16 octets `tlbuf` of the callee happens to hold. -/
def encodePriv (junk : List Byte) (m : Mem) (buf : Option (List Byte)) : Res (Option (List Byte) × Nat) := do
  let cnt := (m 5).toNat
  let version : W := if cnt > 0 then 1 else 0
  let (buf, ret) ← putInt buf 0 [version]
  let (buf, ret) ← putInt buf ret (m.vlong (m.at_ 7))
  let (buf, ret) ← putInt buf ret (m.vlong (m.at_ 8))
  let (buf, ret) ← putInt buf ret (m.vlong (m.at_ 9))
  let (buf, ret) ← putInt buf ret (m.vlong (m.at_ 12))
  let (buf, ret) ← putInt buf ret (m.vlong (m.at_ 10))
  let (buf, ret) ← putInt buf ret (m.vlong (m.at_ 13))
  let (buf, ret) ← putInt buf ret (m.vlong (m.at_ 11))
  let (buf, ret) ← putInt buf ret (m.vlong (m.at_ 14))
  if version = 0 then wrapSeq buf ret
  else
    let (sub, subret) ← encodeOthers m cnt 0 junk (buf.map (·.drop ret)) 0
    let buf := match buf, sub with
      | some b, some s => some (b.take ret ++ s)
      | _, _ => none
    wrapSeq buf (ret + subret)

end RsaDer
