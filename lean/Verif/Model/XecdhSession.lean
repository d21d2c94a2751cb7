import Verif.Model.Xecdh
import Verif.Spec.XecdhSession

/-!
# Model of a sequence of calls on an XECDH context

Models `src/3-rfc-7748,8032/rfc-7748.c`, the functions of `Verif.Model.Xecdh` called one after the other on one context.  The calls of
`Spec.XOp` carry what a program gives: buffers and the octets the generator will produce; the memory of the context is that of the
call before, as in the C code, where the decoders of keys leave the words of the members they do not set as they are.
-/

namespace Xecdh
open Spec Vlong

/-- One call: what the program gets, and the context. `XECDH_Keygen`, `rfc-7748.c:27-61`; `XECDH_Decode_PrivateKey`, `:79-97`;
`XECDH_Decode_PublicKey`, `:117-144`; `XECDH_Enc`, `:146-191`; `XECDH_Decode_Ciphertext`, `:264-277`; `XECDH_Dec`, `:197-243`, with and
without a buffer (without: the ciphertext is opened too, and `*sslen = SSLEN` is the answer); `XECDH_Encode_Ciphertext`, `:249-258`;
`XECDH_Encode_PublicKey`, `:101-113`; `XECDH_Encode_PrivateKey`, `:65-77`. -/
def step (crv : MtCurve) (x : Ctx) : XOp → XOut × Ctx
  | .generate sk => (.done, keygen crv sk x.P)
  | .takePrivate e =>
    match decodePriv crv e x.P with
    | none => (.refused, x)
    | some y => (.done, y)
  | .takePublic e => (.done, decodePub crv e x.k x.P)
  | .encap n r => (.octets (enc x n r).1, (enc x n r).2)
  | .takeCt ct => (.done, decodeCt x ct)
  | .decap n => (.octets (dec x n).1, (dec x n).2)
  | .secretLength => (.length x.curve.sslen, (dec x 0).2)
  | .writeCt n => ((encodeCt x n).elim .refused .octets, x)
  | .writePublic n => ((encodePub x n).elim .refused .octets, x)
  | .writePrivate n => ((encodePriv x n).elim .refused .octets, x)

/-- A history of calls on one context, `rfc-7748.c:27-277`; what the program gets from each. -/
def run (crv : MtCurve) (x : Ctx) : List XOp → List XOut
  | [] => []
  | op :: l => (step crv x op).1 :: run crv (step crv x op).2 l

end Xecdh
