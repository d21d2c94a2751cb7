import Verif.Model.Ecdsa
import Verif.Model.Der

/-!
# Model of the signature codec: `src/3-ecc-common/ecc-common.c:226-324` and `src/3-sec1/ecdsa.c:454-485`
-/

namespace Ecc
open Vlong Ec

/-- `for(t=ret+subret; t-->subret; ) enc[t] = enc[t - subret];`, `ecc-common.c:268-269`, `n` steps to go;
`none` when `enc[t]` lies outside the buffer. -/
def moveUp (subret : Nat) : (n : Nat) → List Byte → Option (List Byte)
  | 0, buf => some buf
  | n + 1, buf => if subret + n < buf.length then moveUp subret n (buf.set (subret + n) (buf.getD n 0)) else none

/-- The octets `o` written at `buf + off` (by `ber_tlv_put_integer`, `ecc-common.c:242-243`, `:249-250`, or the loop `:271-272`);
`none` when some of them fall outside the buffer. -/
def putAt (buf : List Byte) (off : Nat) (o : List Byte) : Option (List Byte) :=
  if off + o.length ≤ buf.length then some (buf.take off ++ o ++ buf.drop (off + o.length)) else none

/-- `ber_tlv_ecc_encode_dss_signature`, `ecc-common.c:226-277`.  `buf` is the output buffer (`none`: NULL).  Result: the outer
`none` undefined behaviour, in particular a write outside the buffer, the inner `none` the return of `-1`, otherwise the returned
length and the buffer. -/
def encodeDss (r s : List W) (buf : Option (List Byte)) : Option (Option (Nat × List Byte)) := do
  let room := fun (ret : Nat) => buf.map fun b => b.length - ret
  let (n1, o1) ← Der.putInteger r (room 0)
  if n1 < 0 then return none
  let ret := n1.toNat
  let buf1 ← buf.elim (some []) fun b => putAt b 0 o1
  let (n2, o2) ← Der.putInteger s (room ret)
  if n2 < 0 then return none
  let buf2 ← buf.elim (some []) fun _ => putAt buf1 ret o2
  let ret2 := ret + n2.toNat
  let len ← Der.putLen (BitVec.ofNat 64 ret2)
  let tl := Der.putTag 0x80000010#32 1#32 ++ len
  let subret := tl.length
  match buf with
  | none => return some (ret2 + subret, [])
  | some b =>
    if ret2 + subret > b.length then return none
    let b ← moveUp subret ret2 buf2
    let b ← putAt b 0 tl
    return some (ret2 + subret, b)

/-- Outcomes of the decoder: a read outside the input, or the words of `r` and `s` afterwards and success. -/
inductive DecRes
  | oob
  | done (r s : List W) (ok : Bool)

/-- `ber_tlv_ecc_decode_dss_signature`, `ecc-common.c:283-324`; `r`, `s` are the words before the call. -/
def decodeDss (c : Nat) (r s : List W) (enc : List Byte) : DecRes :=
  match Der.getHdr enc with
  | .oob => .oob
  | .fail => .done r s false
  | .ok tag _ w =>
    if tag ≠ 0x80000010#32 then .done r s false else
    match Der.getHdr w with
    | .oob => .oob
    | .fail => .done r s false
    | .ok tag len w =>
      if tag ≠ 0x80000002#32 then .done r s false else
      let r := os2ip c (w.take len.toNat)
      let w := w.drop len.toNat
      match Der.getHdr w with
      | .oob => .oob
      | .fail => .done r s false
      | .ok tag len w =>
        if tag ≠ 0x80000002#32 then .done r s false else
        .done r (os2ip c (w.take len.toNat)) true

/-- `ECDSA_Encode_Signature`, `ecdsa.c:454-470`, with a buffer; `none` undefined behaviour, `some none` NULL, otherwise the
buffer. -/
def ecdsaEncodeSignature (x : Ctx) (sig : List Byte) : Option (Option (List Byte)) := do
  let minlen ← encodeDss x.r x.s none
  match minlen with
  | none => return none   -- `(size_t)-1` is more than any buffer
  | some (minlen, _) =>
    if sig.length < minlen then return none
    let res ← encodeDss x.r x.s (some sig)
    return some ((res.map (·.2)).getD sig)

/-- `ECDSA_Encode_Signature`, `ecdsa.c:454-470`, with a NULL buffer: what it stores in `*siglen`. -/
def ecdsaSignatureLength (x : Ctx) : Option (Option Nat) := do
  let minlen ← encodeDss x.r x.s none
  return minlen.map (·.1)

/-- `ECDSA_Decode_Signature`, `ecdsa.c:476-485`: `none` a read outside the input; the truth value is whether the return is not
NULL. -/
def ecdsaDecodeSignature (c : Nat) (x : Ctx) (sig : List Byte) : Option (Ctx × Bool) :=
  match decodeDss c x.r x.s sig with
  | .oob => none
  | .done r s ok => some ({ x with r, s, status := 0 }, ok)

end Ecc
