import Verif.Model.EdDsa
import Verif.Spec.EdSession

/-!
# Histories of calls on one EdDSA context

Any sequence of the exported functions, each acting on what the one before left.  The names of the calls are those of
`Verif.Spec.EdSession`.
-/

namespace EdDsa
open Vlong Ec Spec

/-- The calls in order, with the answers of the verifications: `EdDSA_Decode_PublicKey` (`eddsa.c:91-111`), `EdDSA_Verify_Xctrl` with
`EdDSA_set_ctxstr` (`:531-556`), `EdDSA_Decode_Signature` (`:489-529`), `EdDSA_Verify` (`:284-294`), `EdDSA_IncVerify_Init`
(`:296-307`), the update function it hands out, `EdDSA_IncVerify_Final` (`:309-332`).  A refused context string, and a key of the wrong
length, leave the context as it is. -/
def verifyRun (C : EdCurve) (c : Nat) (H : Pkcs1.Hash) (x : Ctx) : List EdOp → List Bool
  | [] => []
  | .key pk :: l =>
    match decodePublicKey C c x pk with
    | none => verifyRun C c H x l
    | some (y, _) => verifyRun C c H y l
  | .context s :: l => verifyRun C c H ((xctrl x true (some s)).getD x) l
  | .load sig :: l => verifyRun C c H (decodeSignature C c x sig).1 l
  | .verify m :: l => (verify C c H x m).2 :: verifyRun C c H (verify C c H x m).1 l
  | .start :: l => verifyRun C c H (incInit x) l
  | .feed d :: l => verifyRun C c H (update x d) l
  | .final :: l => (incVerifyFinal C c H x).2 :: verifyRun C c H (incVerifyFinal C c H x).1 l

/-- The calls in order, with the signatures exported after each that makes one: `EdDSA_Sign_Xctrl` with `EdDSA_set_ctxstr`
(`eddsa.c:458-483`), `EdDSA_Sign` (`:122-129`), `EdDSA_IncSign_Init` (`:131-142`), the update function, `EdDSA_IncSign_Final` (`:144-158`),
`EdDSA_Encode_Signature` (`:434-456`). -/
def signRun (C : EdCurve) (c : Nat) (H : Pkcs1.Hash) (x : Ctx) : List EdSignOp → List (Option (List Byte))
  | [] => []
  | .context s :: l => signRun C c H ((xctrl x true (some s)).getD x) l
  | .sign m :: l => encodeSignature C (sign C c H x m) (plen C * 2) :: signRun C c H (sign C c H x m) l
  | .start :: l => signRun C c H (incInit x) l
  | .feed d :: l => signRun C c H (update x d) l
  | .final :: l => encodeSignature C (incSignFinal C c H x) (plen C * 2) :: signRun C c H (incSignFinal C c H x) l

end EdDsa
