import Verif.Model.Rsa

/-!
# Model of `src/2-rsa/pkcs1-padding.c` and `src/3-pkcs1/`: the four PKCS #1 schemes

* A hash function is used through init, updates, the optional `xfinalfunc` and `hfinalfunc`; here it is a
  function of the concatenation of the updates (which is what C07-C16 prove about the hash functions themselves).
* `w1`, `w2` are the octets of the working integers of those names (`(uint8_t *)w->v`, `4 * c` of them); their word view is
  little-endian, as on the hosts the library's own test suite runs on.  `w3`-`w5` are scratch.
* `prng_gen(prng, buf, len)` is `rng i len`, the result of the `i`-th call within the operation.
* Reading or writing outside a buffer, a failing `assert`, and a NULL from the integer arithmetic (which the C code ignores)
  give `none`.
* The `status` field, an `int32_t`, is an integer.
-/

namespace Pkcs1
open Vlong
abbrev Byte := BitVec 8

/-- `hash_funcs_set_t`, `hash-funcs-set.h`, with `OUT_BYTES`: octet `i` of the output for a message, and whether
`xfinalfunc` is non-NULL. -/
structure Hash where
  hlen : Nat
  xof : Bool
  out : List Byte → Nat → Byte

/-- `initfunc; updatefunc (several); if( xfinalfunc ) xfinalfunc; hfinalfunc(ctx, buf, t)`. -/
def Hash.digest (h : Hash) (msg : List Byte) (t : Nat) : List Byte := (List.range t).map (h.out msg)

/-- Reading `len` octets of a buffer at `off`. -/
def rdAt (l : List Byte) (off len : Nat) : Option (List Byte) :=
  if off + len ≤ l.length then some ((l.drop off).take len) else none

/-- Writing octets into a buffer at `off`. -/
def wrAt (l : List Byte) (off : Nat) (bs : List Byte) : Option (List Byte) :=
  if off + bs.length ≤ l.length then some (l.take off ++ bs ++ l.drop (off + bs.length)) else none

/-! ## Mask generation -/

/-- `htobe32(c)` as octets, `pkcs1-padding.c:19`, `:36`. -/
def be32 (c : BitVec 32) : List Byte :=
  [(c >>> 24).setWidth 8, (c >>> 16).setWidth 8, (c >>> 8).setWidth 8, c.setWidth 8]

/-- `pkcs1-padding.c:30-32`, `:60-62`. -/
def mask (xor : Bool) (dst buf : List Byte) : List Byte := if xor then List.zipWith (· ^^^ ·) dst buf else buf

/-- `mgf1_pkcs1`, `pkcs1-padding.c:6-38`: `dst` is what is left of the output.  The number of rounds is bounded by the
output length (the loop does not end if `hlen` is 0). -/
def mgf1Loop (h : Hash) (inp : List Byte) (xor : Bool) : (fuel : Nat) → (c : BitVec 32) → (dst : List Byte) → List Byte
  | 0, _, dst => dst
  | f + 1, c, dst =>
    if dst.length = 0 then dst else
    let t := if h.hlen < dst.length then h.hlen else dst.length
    let buf := h.digest (inp ++ be32 c) t
    mask xor (dst.take t) buf ++ mgf1Loop h inp xor f (c + 1) (dst.drop t)

/-- `mgf_xof`, `pkcs1-padding.c:40-69`: `pos` octets of the output of the XOF have been read. -/
def mgfXofLoop (h : Hash) (inp : List Byte) (xor : Bool) : (fuel pos : Nat) → (dst : List Byte) → List Byte
  | 0, _, dst => dst
  | f + 1, pos, dst =>
    if dst.length = 0 then dst else
    let t := if 16 < dst.length then 16 else dst.length
    let buf := (List.range t).map fun i => h.out inp (pos + i)
    mask xor (dst.take t) buf ++ mgfXofLoop h inp xor f (pos + t) (dst.drop t)

/-- `mgf_auto`, `pkcs1-padding.c:71-79`. -/
def mgfAuto (h : Hash) (inp dst : List Byte) (xor : Bool) : List Byte :=
  if h.xof then mgfXofLoop h inp xor dst.length 0 dst else mgf1Loop h inp xor dst.length 0 dst

/-- `mgf_auto(po, ptr + i, il, ptr + o, ol, 1)` on one buffer. -/
def mgfAt (h : Hash) (buf : List Byte) (i il o ol : Nat) : Option (List Byte) := do
  let inp ← rdAt buf i il
  let dst ← rdAt buf o ol
  wrAt buf o (mgfAuto h inp dst true)

/-! ## Contexts -/

/-- `pkcs1_padding_oracles_base_t` without `status`, `pkcs1-padding.h:37-46`. -/
structure Padding where
  hmsg : Hash
  hmgf : Hash
  slen : Nat

/-- `PKCS1_Pub_Ctx_Hdr_t` with its RSA context, `pkcs1.h:67-70`, `rsa.h:83-86`. -/
structure Pub where
  status : Int
  bits : Nat
  n : List W
  e : List W
  w1 : List Byte
  w2 : List Byte

/-- `PKCS1_Priv_Ctx_Hdr_t` with its RSA context, `pkcs1.h:16-19`, `rsa.h:22-34`; `l` holds `(p, dP, qInv)` and the other primes. -/
structure Priv where
  status : Int
  bits : Nat
  n : List W
  q : List W
  dQ : List W
  l : List Rsa.Triple
  w1 : List Byte
  w2 : List Byte

/-- The word view of a working integer. -/
def words (b : List Byte) : List W := decLSB (b.length / 4) b

/-- The octet view of a working integer. -/
def octets (v : List W) : List Byte := encLSB v (4 * v.length)

/-- `VLONG_BITS_WCNT`, `vlong.h:35-39`. -/
def bitsWcnt (bits : Nat) : Nat := 2 + ((bits + 7) / 8 + 4) / 4

/-- `rsa_enc` on the context, `rsa-enc.c:6-16`. -/
def Pub.rsaEnc (x : Pub) : Option Pub :=
  (Rsa.enc (x.w2.length / 4) x.n x.e (words x.w1)).map fun C => { x with w2 := octets C }

/-- `rsa_fastdec` on the context, `rsa-fastdec.c:26-136`; the factor size is computed at `:31-35`. -/
def Priv.fastdec (x : Priv) : Option Priv :=
  (Rsa.fastdec (bitsWcnt (x.bits / (x.l.length + 1))) (bitsWcnt x.bits) (x.w2.length / 4) x.q x.dQ x.l (words x.w1)).map
    fun M => { x with w2 := octets M }

/-- `vlong_OS2IP(w1, os, len)` on the context. -/
def loadW1 (w1 os : List Byte) : List Byte := octets (os2ip (w1.length / 4) os)

/-- The range check, `rsassa-pss-verify.c:116-129`, `rsaes-oaep-dec.c:96-109` and the same loop in the other two files: false when the
integer exceeds the modulus. -/
def leLoop (a b : List W) : (t : Nat) → Bool
  | 0 => true
  | t + 1 =>
    let u := rd a t
    let v := rd b t
    if u.toNat > v.toNat then false else if u.toNat < v.toNat then true else leLoop a b t

/-- `t = max(vp1->c, vp2->c)` and the loop; `rd` reads 0 past the end. -/
def notAbove (a b : List W) : Bool := leLoop a b (if a.length > b.length then a.length else b.length)

/-! ## Signatures -/

/-- `RSASSA_PSS_Encode_Signature`, `rsassa-pss-sign.c:7-34`, `RSAEncryptionWithHash_Encode_Signature`,
`rsassa-pkcs1-v1_5-sign.c:7-34`: `none` is the NULL return for a short buffer.  Reading outside `w1` is the inner `none`. -/
def encodeSig (x : Priv) (siglen : Nat) : Option (Option (List Byte)) :=
  let emLen := (x.bits + 7) / 8
  if siglen < emLen then some none else (rdAt x.w1 0 emLen).map some

/-- `RSASSA_PSS_Decode_Signature`, `rsassa-pss-verify.c:7-19`, `RSAEncryptionWithHash_Decode_Signature`, `rsassa-pkcs1-v1_5-verify.c:7-19`. -/
def decodeSig (x : Pub) (sig : List Byte) : Pub := { x with w1 := loadW1 x.w1 sig, status := 0 }

/-- `PKCS1v2_SSA_PSS_Sign` up to "EM to Integer", `rsassa-pss-sign.c:102-150`: the contents of the buffer `w2`. -/
def pssBuild (P : Padding) (emBits : Nat) (msg salt buf : List Byte) : Option (List Byte) := do
  let emLen := (emBits + 7) / 8
  let h := P.hmsg.hlen
  let s := P.slen
  let buf ← wrAt buf (emLen - 1) [0xbc]
  let buf ← wrAt buf (emLen - h - s - 1) salt
  let buf ← wrAt buf (emLen - h - 1) (P.hmsg.digest msg h)
  let mh ← rdAt buf (emLen - h - 1) h
  let sa ← rdAt buf (emLen - h - s - 1) s
  let buf ← wrAt buf (emLen - h - 1) (P.hmsg.digest (List.replicate 8 0 ++ mh ++ sa) h)
  let buf ← wrAt buf 0 (List.replicate (emLen - h - s - 2) 0)
  let buf ← wrAt buf (emLen - h - s - 2) [0x01]
  let buf ← mgfAt P.hmgf buf (emLen - h - 1) h 0 (emLen - h - 1)
  let b0 ← rdAt buf 0 1
  wrAt buf 0 [b0.getD 0 0 &&& BitVec.ofNat 8 (0xff / 2 ^ (8 * emLen - emBits))]

/-- `RSASSA_PSS_Sign`, `rsassa-pss-sign.c:40-54`, with `PKCS1v2_SSA_PSS_Sign`, `:79-170`.  `Bool`: a non-NULL return.
The sum in the check (`:107`) is one of `uint32_t`.  When it wraps, the offsets of `pssBuild` wrap too; here they are cut off at 0, and the salt
does not fit the buffer either way. -/
def pssSign (P : Padding) (x : Priv) (msg : List Byte) (rng : Nat → Nat → List Byte) : Option (Priv × Bool) :=
  let emBits := x.bits - 1
  let emLen := (emBits + 7) / 8
  if emLen < (P.hmsg.hlen + P.slen + 2) % 2 ^ 32 then some ({ x with status := -1 }, false) else do
    let buf ← pssBuild P emBits msg (rng 0 P.slen) x.w2
    let em ← rdAt buf 0 emLen
    let x ← ({ x with w2 := buf, w1 := loadW1 x.w1 em }).fastdec
    let w1 ← wrAt x.w1 0 (i2osp (words x.w2) emLen)
    some ({ x with w1 := w1, status := 1 }, true)

/-- The part of `PKCS1v2_SSA_PSS_Verify` after the conversion to octets, `rsassa-pss-verify.c:136-210`, without the
`assert( po->status == 2 )` of `:183` (see `pssVerifyBody`): whether it ends with status 1. -/
def pssCheck (P : Padding) (emBits : Nat) (mHash buf : List Byte) : Option Bool := do
  let emLen := (emBits + 7) / 8
  let h := P.hmsg.hlen
  let s := P.slen
  let t := 8 * emLen - emBits
  let last ← rdAt buf (emLen - 1) 1
  if last.getD 0 0 ≠ 0xbc then some false else do
  let b0 ← rdAt buf 0 1
  if (b0.getD 0 0).toNat &&& (0xff - 0xff / 2 ^ t) ≠ 0 then some false else do
  let buf ← mgfAt P.hmgf buf (emLen - h - 1) h 0 (emLen - h - 1)
  let b0 ← rdAt buf 0 1
  let buf ← wrAt buf 0 [b0.getD 0 0 &&& BitVec.ofNat 8 (0xff / 2 ^ t)]
  let ps ← rdAt buf 0 (emLen - h - s - 2)
  if ps.any (· != 0) then some false else do
  let one ← rdAt buf (emLen - h - s - 2) 1
  if one.getD 0 0 ≠ 0x01 then some false else do
  let salt ← rdAt buf (emLen - h - s - 1) s
  let H ← rdAt buf (emLen - h - 1) h
  some (H == P.hmsg.digest (List.replicate 8 0 ++ mHash ++ salt) h)

/-- `PKCS1v2_SSA_PSS_Verify`, `rsassa-pss-verify.c:82-214`.  With a nonzero status the function returns at once
(`:99-104`).  With status 0 the rest runs, and reaching `assert( po->status == 2 )` (`:183`) aborts. -/
def pssVerifyBody (P : Padding) (x : Pub) (mHash : List Byte) : Option (Pub × Bool) :=
  if x.status ≠ 0 then some (x, !decide (x.status < 0)) else
  let emBits := x.bits - 1
  let emLen := (emBits + 7) / 8
  if emLen < (P.hmsg.hlen + P.slen + 2) % 2 ^ 32 then some ({ x with status := -1 }, false)
  else if !notAbove (words x.w1) x.n then some ({ x with status := -1 }, false) else do
    let x ← x.rsaEnc
    let w1 ← wrAt x.w1 0 (i2osp (words x.w2) emLen)
    match ← pssCheck P emBits mHash w1 with
    | false => some ({ x with w1 := w1, status := -1 }, false)
    | true => none

/-- `RSASSA_PSS_Verify`, `rsassa-pss-verify.c:25-45`: `Bool` is a non-NULL return. -/
def pssVerify (P : Padding) (x : Pub) (msg : List Byte) : Option (Pub × Bool) :=
  if x.status = 1 then some (x, true)
  else if x.status = -1 then some (x, false)
  else pssVerifyBody P { x with status := 2 } (P.hmsg.digest msg P.hmsg.hlen)

/-- `RSASSA_PSS_IncVerify_Init` and `RSASSA_PSS_IncVerify_Final`, `rsassa-pss-verify.c:47-80`, `msg` being the data passed to the
update function in between. -/
def pssIncVerify (P : Padding) (x : Pub) (msg : List Byte) : Option (Pub × Bool) :=
  let x := { x with status := 0 }
  if x.status = 1 then some (x, true)
  else if x.status = -1 then some (x, false)
  else pssVerifyBody P { x with status := 2 } (P.hmsg.digest msg P.hmsg.hlen)

/-- An entry of `HashOIDs_Table`, `rsassa-pkcs1-v1_5.c:6-74`, found by the hash function in use: the DER prefix and
the digest length.  The table look-up by function pointer is the argument `oid` below (`none`: not in the table). -/
structure HashOid where
  pre : List Byte
  dlen : Nat

/-- `HashOIDs_Table`, `rsassa-pkcs1-v1_5.c:6-74`: SHA-1, SHA-224, SHA-256, SHA-384, SHA-512, SHA-512/224, SHA-512/256. -/
def hashOids : List HashOid :=
  [⟨[0x30, 0x21, 0x30, 0x09, 0x06, 0x05, 0x2b, 0x0e, 0x03, 0x02, 0x1a, 0x05, 0x00, 0x04, 0x14], 20⟩,
   ⟨[0x30, 0x2d, 0x30, 0x0d, 0x06, 0x09, 0x60, 0x86, 0x48, 0x01, 0x65, 0x03, 0x04, 0x02, 0x04, 0x05, 0x00, 0x04, 0x1c], 28⟩,
   ⟨[0x30, 0x31, 0x30, 0x0d, 0x06, 0x09, 0x60, 0x86, 0x48, 0x01, 0x65, 0x03, 0x04, 0x02, 0x01, 0x05, 0x00, 0x04, 0x20], 32⟩,
   ⟨[0x30, 0x41, 0x30, 0x0d, 0x06, 0x09, 0x60, 0x86, 0x48, 0x01, 0x65, 0x03, 0x04, 0x02, 0x02, 0x05, 0x00, 0x04, 0x30], 48⟩,
   ⟨[0x30, 0x51, 0x30, 0x0d, 0x06, 0x09, 0x60, 0x86, 0x48, 0x01, 0x65, 0x03, 0x04, 0x02, 0x03, 0x05, 0x00, 0x04, 0x40], 64⟩,
   ⟨[0x30, 0x2d, 0x30, 0x0d, 0x06, 0x09, 0x60, 0x86, 0x48, 0x01, 0x65, 0x03, 0x04, 0x02, 0x05, 0x05, 0x00, 0x04, 0x1c], 28⟩,
   ⟨[0x30, 0x31, 0x30, 0x0d, 0x06, 0x09, 0x60, 0x86, 0x48, 0x01, 0x65, 0x03, 0x04, 0x02, 0x06, 0x05, 0x00, 0x04, 0x20], 32⟩]

/-- `for(t=2; ; t++) { if( tl + t + 1 >= emLen ) { ptr[t] = 0; break; } ptr[t] = 0xff; }`, `rsassa-pkcs1-v1_5-sign.c:132-144`. -/
def ffLoop (tl emLen : Nat) : (fuel t : Nat) → (buf : List Byte) → Option (List Byte)
  | 0, _, _ => none
  | f + 1, t, buf =>
    if tl + t + 1 ≥ emLen then wrAt buf t [0x00]
    else do
      let buf ← wrAt buf t [0xff]
      ffLoop tl emLen f (t + 1) buf

/-- The construction of EM, `rsassa-pkcs1-v1_5-sign.c:123-155`, `rsassa-pkcs1-v1_5-verify.c:138-170`. -/
def v15Build (P : Padding) (o : HashOid) (emLen : Nat) (msg buf : List Byte) : Option (List Byte) := do
  let buf ← wrAt buf 0 [0x00]
  let buf ← wrAt buf 1 [0x01]
  let buf ← ffLoop (o.pre.length + o.dlen) emLen (emLen + 1) 2 buf
  let buf ← wrAt buf (emLen - o.dlen - o.pre.length) o.pre
  wrAt buf (emLen - o.dlen) (P.hmsg.digest msg o.dlen)

/-- `RSAEncryptionWithHash_Sign`, `rsassa-pkcs1-v1_5-sign.c:40-54`, `:79-176`. -/
def v15Sign (P : Padding) (oid : Option HashOid) (x : Priv) (msg : List Byte) : Option (Priv × Bool) :=
  let emLen := (x.bits - 1 + 7) / 8
  match oid with
  | none => some ({ x with status := -1 }, false)
  | some o =>
    if emLen < o.pre.length + o.dlen + 11 then some ({ x with status := -1 }, false) else do
      let buf ← v15Build P o emLen msg x.w2
      let em ← rdAt buf 0 emLen
      let x ← ({ x with w2 := buf, w1 := loadW1 x.w1 em }).fastdec
      let w1 ← wrAt x.w1 0 (i2osp (words x.w2) emLen)
      some ({ x with w1 := w1, status := 1 }, true)

/-- `PKCS1v1_SSA_Verify`, `rsassa-pkcs1-v1_5-verify.c:70-192`; with status 0 the `assert( po->status == 2 )` (`:164`) aborts. -/
def v15VerifyBody (oid : Option HashOid) (x : Pub) : Option (Pub × Bool) :=
  if x.status ≠ 0 then some (x, !decide (x.status < 0)) else
  let emLen := (x.bits - 1 + 7) / 8
  if !notAbove (words x.w1) x.n then some ({ x with status := -1 }, false) else do
    let x ← x.rsaEnc
    let w1 ← wrAt x.w1 0 (i2osp (words x.w2) emLen)
    match oid with
    | none => some ({ x with w1 := w1, status := -1 }, false)
    | some o =>
      if emLen < o.pre.length + o.dlen + 11 then some ({ x with w1 := w1, status := -1 }, false) else none

/-- `RSAEncryptionWithHash_Verify`, `rsassa-pkcs1-v1_5-verify.c:23-41`. -/
def v15Verify (oid : Option HashOid) (x : Pub) (_msg : List Byte) : Option (Pub × Bool) :=
  if x.status = 1 then some (x, true)
  else if x.status = -1 then some (x, false)
  else v15VerifyBody oid { x with status := 2 }

/-- `RSAEncryptionWithHash_IncVerify_Init`, `_Final`, `rsassa-pkcs1-v1_5-verify.c:43-68`. -/
def v15IncVerify (oid : Option HashOid) (x : Pub) (_msg : List Byte) : Option (Pub × Bool) :=
  let x := { x with status := 0 }
  if x.status = 1 then some (x, true)
  else if x.status = -1 then some (x, false)
  else v15VerifyBody oid { x with status := 2 }

/-! ## Encryption -/

/-- `RSAES_OAEP_Encode_Ciphertext`, `rsaes-oaep-enc.c:7-25`, `RSAEncryption_Encode_Ciphertext`, `rsaes-pkcs1-v1_5-enc.c:7-25`. -/
def encodeCt (x : Pub) (ctlen : Nat) : Option (List Byte) :=
  if ctlen * 8 < x.bits then none else some (i2osp (words x.w2) ctlen)

/-- `RSAES_OAEP_Decode_Ciphertext`, `rsaes-oaep-dec.c:7-19`, `RSAEncryption_Decode_Ciphertext`, `rsaes-pkcs1-v1_5-dec.c:7-19`. -/
def decodeCt (x : Priv) (ct : List Byte) : Priv := { x with w1 := loadW1 x.w1 ct, status := 0 }

/-- `rsaes-oaep-enc.c:45-55`, `:91-98`: clear the block and put the hash of the label. -/
def oaepLabel (P : Padding) (k : Nat) (label buf : List Byte) : Option (List Byte) := do
  let buf ← wrAt buf 0 (List.replicate k 0)
  wrAt buf (1 + P.hmsg.hlen) (P.hmsg.digest label P.hmsg.hlen)

/-- `RSAES_OAEP_SetLabel`, `rsaes-oaep-enc.c:27-59`. -/
def oaepSetLabel (P : Padding) (x : Pub) (label : List Byte) : Option Pub := do
  let buf ← oaepLabel P (x.bits / 8) label x.w2
  some { x with w2 := buf, status := 2 }

/-- `rsaes-oaep-enc.c:100-124`, from the label `postlabel` to the masked block. -/
def oaepBlock (P : Padding) (k : Nat) (ss seed buf : List Byte) : Option (List Byte) := do
  let h := P.hmsg.hlen
  if k < ss.length + 1 then none else do
  let buf ← wrAt buf (k - ss.length - 1) [0x01]
  let buf ← wrAt buf (k - ss.length) ss
  let buf ← wrAt buf 1 seed
  let buf ← mgfAt P.hmgf buf 1 h (h + 1) (k - h - 1)
  mgfAt P.hmgf buf (h + 1) (k - h - 1) 1 h

/-- `*sslen > k - 2 * po->hlen_msg - 2`, `rsaes-oaep-enc.c:80`: the right-hand side is computed in `uint32_t`. -/
def oaepTooLong (h k sslen : Nat) : Bool := decide ((sslen : Int) > ((k : Int) - 2 * h - 2) % 2 ^ 32)

/-- The label is already in the block in status 2, `rsaes-oaep-enc.c:75-76`, `:88-98`. -/
def oaepStart (P : Padding) (x : Pub) : Option (List Byte) :=
  if x.status = 2 then some x.w2 else oaepLabel P (x.bits / 8) [] x.w2

/-- `RSAES_OAEP_Enc`, `rsaes-oaep-enc.c:61-136`: the context and the shared secret, or NULL (the inner `none`). -/
def oaepEnc (P : Padding) (x : Pub) (sslen : Nat) (rng : Nat → Nat → List Byte) : Option (Pub × Option (List Byte)) :=
  let k := x.bits / 8
  let ss := rng 0 sslen
  if x.status ≠ 2 ∧ oaepTooLong P.hmsg.hlen k sslen then some ({ x with status := 0 }, none) else do
    let buf ← oaepStart P x
    let buf ← oaepBlock P k ss (rng 1 P.hmsg.hlen) buf
    let em ← rdAt buf 0 k
    let x ← ({ x with w2 := buf, w1 := loadW1 x.w1 em }).rsaEnc
    some ({ x with status := 1 }, some ss)

/-- The error bit computed from the status, `rsaes-oaep-dec.c:41-48`, `:185-192`, `rsaes-pkcs1-v1_5-dec.c:41-48`. -/
def errBit (status : Int) : BitVec 32 :=
  let e := ~~~(BitVec.ofInt 32 status ^^^ BitVec.allOnes 32)
  let e := e &&& e.sshiftRight 16
  let e := e &&& e.sshiftRight 8
  let e := e &&& e.sshiftRight 4
  let e := e &&& e.sshiftRight 2
  let e := e &&& e.sshiftRight 1
  e &&& 1

/-- What a decryption call reports: whether it returned non-NULL, `*sslen` when `ss` was NULL, or the octets written to `ss`. -/
structure DecResult where
  ok : Bool
  len : Option Int
  ss : List Byte
deriving DecidableEq

/-- The `finish:` part, `rsaes-oaep-dec.c:37-79`, `rsaes-pkcs1-v1_5-dec.c:37-74`.  `req` is `none` when `ss` is NULL, else `*sslen`. -/
def decFinish (k : Nat) (status : Int) (w1 : List Byte) (req : Option Nat) : Option DecResult :=
  let ok := errBit status == 0
  match req with
  | none => some { ok := ok, len := some status, ss := [] }
  | some n => do
    let m := if status < 0 then 0 else status.toNat
    let src ← rdAt w1 (k - m) (min n m)
    some { ok := ok, len := none, ss := src ++ List.replicate (n - min n m) 0 }

/-- `for(t=0; t<k-1; t++) if( ptr[t] ) break;`, `rsaes-oaep-dec.c:150`, on the `k - 1` octets before the last. -/
def sepLoop : (l : List Byte) → Nat
  | [] => 0
  | b :: l => if b ≠ 0 then 0 else sepLoop l + 1

/-- `1 & ~((v - 1) >> 8)` on an `int`, `rsaes-oaep-dec.c:134`, `:151`. -/
def nonzeroBit (v : Byte) : Nat := ((~~~((v.setWidth 32 - 1#32).sshiftRight 8)) &&& 1).toNat

/-- `rsaes-oaep-dec.c:111-160`: unmasking and parsing; the buffer `w1` and the new status. -/
def oaepParse (P : Padding) (k : Nat) (buf : List Byte) : Option (List Byte × Int) := do
  let h := P.hmsg.hlen
  let buf ← mgfAt P.hmgf buf (h + 1) (k - h - 1) 1 h
  let buf ← mgfAt P.hmgf buf 1 h (h + 1) (k - h - 1)
  let b0 ← rdAt buf 0 1
  let rest ← rdAt buf (1 + h * 2) (k - (1 + h * 2))
  let t := sepLoop (rest.take (rest.length - 1))
  let err := nonzeroBit (b0.getD 0 0) ||| nonzeroBit (rest.getD t 0 ^^^ 0x01)
  some (buf, -(err : Int) + ((rest.length - t - 1 : Nat) : Int) * ((err ^^^ 1 : Nat) : Int))

/-- `RSAES_OAEP_Dec`, `rsaes-oaep-dec.c:21-165`. -/
def oaepDec (P : Padding) (x : Priv) (req : Option Nat) : Option (Priv × DecResult) :=
  let k := x.bits / 8
  if x.status ≠ 0 then (decFinish k x.status x.w1 req).map (x, ·)
  else if k < 2 * P.hmsg.hlen + 2 ∨ !notAbove (words x.w1) x.n then
    (decFinish k (-1) x.w1 req).map ({ x with status := -1 }, ·)
  else do
    let x ← x.fastdec
    let w1 ← wrAt x.w1 0 (i2osp (words x.w2) k)
    let (w1, status) ← oaepParse P k w1
    let r ← decFinish k status w1 req
    some ({ x with w1 := w1, status := status }, r)

/-- `RSAES_OAEP_TestLabel`, `rsaes-oaep-dec.c:167-219` (label NULL is the empty label).  The 16-bit accumulator `c` collects
the differing bits and is folded onto bit 0. -/
def oaepTestLabel (P : Padding) (x : Priv) (label : List Byte) : Option (Priv × Bool) := do
  let h := P.hmsg.hlen
  let got ← rdAt x.w1 (1 + h) h
  let c : BitVec 16 := (List.zipWith (· ^^^ ·) got (P.hmsg.digest label h)).foldl (fun c d => c ||| d.setWidth 16) 0
  let c := c ||| c >>> 4
  let c := c ||| c >>> 2
  let c := c ||| c >>> 1
  let err := errBit x.status ||| (c &&& 1).setWidth 32
  some ({ x with status := -(err.toNat : Int) }, err == 0)

/-- `prng_gen(prng, u, t)`, `rsaes-pkcs1-v1_5-enc.c:62`, when it is due. -/
def drawIf (rng : Nat → Nat → List Byte) (fresh : Bool) (i u t : Nat) (buf : List Byte) : Option (List Byte) :=
  if fresh then wrAt buf u (rng i t) else some buf

/-- The padding loop, `rsaes-pkcs1-v1_5-enc.c:61-70`: `u`, `v` are offsets into the buffer, `t` the octets to go, `fresh` says
that `prng_gen(prng, u, t)` comes next, `i` counts the calls of the generator.  Each unit of fuel is one octet. -/
def psLoop (rng : Nat → Nat → List Byte) : (fuel i : Nat) → (fresh : Bool) → (u v t : Nat) → (buf : List Byte) → Option (List Byte × Nat)
  | 0, _, _, _, _, _, _ => none
  | f + 1, i, fresh, u, v, t, buf =>
    if fresh ∧ t = 0 then some (buf, i) else do
    let buf ← drawIf rng fresh i u t buf
    let i := if fresh then i + 1 else i
    let b ← rdAt buf v 1
    let buf ← wrAt buf u b
    let u' := if b.getD 0 0 ≠ 0 then u + 1 else u
    let t' := if b.getD 0 0 ≠ 0 then t - 1 else t
    psLoop rng f i (decide (v + 1 ≥ t' + 2)) u' (v + 1) t' buf

/-- `rsaes-pkcs1-v1_5-enc.c:52-75`: the block in `w2` and the shared secret.  `fuel` bounds the number of octets examined. -/
def es15Block (k sslen : Nat) (rng : Nat → Nat → List Byte) (fuel : Nat) (buf : List Byte) : Option (List Byte × List Byte) := do
  let t := k - sslen - 3
  let buf ← wrAt buf 0 [0x00]
  let buf ← wrAt buf 1 [0x02]
  let buf ← wrAt buf (t + 2) [0x00]
  let (buf, i) ← psLoop rng fuel 0 true 2 2 t buf
  let ss := rng i sslen
  let buf ← wrAt buf (k - sslen) ss
  some (buf, ss)

/-- `RSAEncryption_Enc`, `rsaes-pkcs1-v1_5-enc.c:27-89`. -/
def es15Enc (x : Pub) (sslen : Nat) (rng : Nat → Nat → List Byte) (fuel : Nat) : Option (Pub × Option (List Byte)) :=
  let k := x.bits / 8
  if sslen + 11 > k then some ({ x with status := 0 }, none) else do
    let (buf, ss) ← es15Block k sslen rng fuel x.w2
    let em ← rdAt buf 0 k
    let x ← ({ x with w2 := buf, w1 := loadW1 x.w1 em }).rsaEnc
    some ({ x with status := 1 }, some ss)

/-- `for(t=2; t<k; t++) if( 0 == ptr[t] ) break;`, `rsaes-pkcs1-v1_5-dec.c:107-111`, on the octets from index 2. -/
def zeroLoop : (l : List Byte) → Nat
  | [] => 0
  | b :: l => if b = 0 then 0 else zeroLoop l + 1

/-- `rsaes-pkcs1-v1_5-dec.c:99-134`: the status computed from the octets of the block; `t`, `k` are `uint32_t`, `err` is `int32_t`. -/
def es15Parse (k : Nat) (buf : List Byte) : Option Int := do
  let b0 ← rdAt buf 0 1
  let b1 ← rdAt buf 1 1
  let rest ← rdAt buf 2 (k - 2)
  let t := 2 + zeroLoop rest
  let err : BitVec 32 := (b0.getD 0 0).setWidth 32
  let err := err ||| (b1.getD 0 0).setWidth 32 ^^^ 0x02
  let err := err ||| (BitVec.ofNat 32 t - 10) >>> 31
  let err := err ||| (BitVec.ofNat 32 k - BitVec.ofNat 32 t - 1) >>> 31
  let err := err ||| err.sshiftRight 16
  let err := err ||| err.sshiftRight 8
  let err := err ||| err.sshiftRight 4
  let err := err ||| err.sshiftRight 2
  let err := err ||| err.sshiftRight 1
  let err := err &&& 1
  some ((-err + (BitVec.ofNat 32 k - BitVec.ofNat 32 t - 1) * (err ^^^ 1)).toInt)

/-- `RSAEncryption_Dec`, `rsaes-pkcs1-v1_5-dec.c:21-138`. -/
def es15Dec (x : Priv) (req : Option Nat) : Option (Priv × DecResult) :=
  let k := x.bits / 8
  if x.status ≠ 0 then (decFinish k x.status x.w1 req).map (x, ·)
  else if !notAbove (words x.w1) x.n then (decFinish k (-1) x.w1 req).map ({ x with status := -1 }, ·)
  else do
    let x ← x.fastdec
    let w1 ← wrAt x.w1 0 (i2osp (words x.w2) k)
    let status ← es15Parse k w1
    let r ← decFinish k status w1 req
    some ({ x with w1 := w1, status := status }, r)

end Pkcs1
