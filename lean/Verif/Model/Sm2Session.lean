import Verif.Model.Sm2
import Verif.Model.EccSig

/-!
# Histories of calls on one SM2 signature context

Any sequence of the exported functions, each acting on what the one before left.
-/

namespace Ecc
open Vlong Ec

/-- A call on a context used to verify. -/
inductive Sm2Call
  | key (enc : List Byte)
  | identity (id : List Byte)
  | load (sig : List Byte)
  | verify (msg : List Byte)
  | start
  | feed (d : List Byte)
  | final

/-- The calls in order, with the answers of the verifications: `SM2SIG_Decode_PublicKey` (`sm2sig.c:135-155`), `SM2SIG_Verify_Xctrl` with
`SM2SIG_set_signer_id` (`:619-639`), `SM2SIG_Decode_Signature` (`:608-617`, literally that of ECDSA), `SM2SIG_Verify` (`:381-399`),
`SM2SIG_IncVerify_Init` (`:401-413`), the update function it hands out, `SM2SIG_IncVerify_Final` (`:415-425`); `none`: a read outside an
input. -/
def sm2Run (C : Curve) (c : Nat) (H : Pkcs1.Hash) (x : Ctx) : List Sm2Call → Option (List Bool)
  | [] => some []
  | .key enc :: l =>
    match sm2DecodePublicKey C c H x enc with
    | none => none
    | some (y, _) => sm2Run C c H y l
  | .identity id :: l => sm2Run C c H ((sm2Xctrl C c H x true (some id)).getD x) l
  | .load sig :: l =>
    match ecdsaDecodeSignature c x sig with
    | none => none
    | some (y, _) => sm2Run C c H y l
  | .verify msg :: l => (sm2Run C c H (sm2Verify C c H x msg).1 l).map ((sm2Verify C c H x msg).2 :: ·)
  | .start :: l => sm2Run C c H (sm2IncInit x) l
  | .feed d :: l => sm2Run C c H (ecdsaUpdate x d) l
  | .final :: l => (sm2Run C c H (sm2IncVerifyFinal C c H x).1 l).map ((sm2IncVerifyFinal C c H x).2 :: ·)

/-- A call on a context used to sign; `rng i` is the `i`-th draw of the call from the generator, at most `fuel` of them. -/
inductive Sm2SignCall
  | identity (id : List Byte)
  | sign (msg : List Byte) (rng : Nat → List Byte) (fuel : Nat)
  | start
  | feed (d : List Byte)
  | final (rng : Nat → List Byte) (fuel : Nat)

/-- The calls in order, with the signatures made: `SM2SIG_Sign_Xctrl` with `SM2SIG_set_signer_id` (`sm2sig.c:582-602`), `SM2SIG_Sign`
(`:164-181`), `SM2SIG_IncSign_Init` (`:183-195`), the update function, `SM2SIG_IncSign_Final` (`:197-204`), and the members `r`, `s`
afterwards; `none`: a signing loop does not end within its draws. -/
def sm2SignRun (C : Curve) (c : Nat) (H : Pkcs1.Hash) (x : Ctx) : List Sm2SignCall → Option (List (List W × List W))
  | [] => some []
  | .identity id :: l => sm2SignRun C c H ((sm2Xctrl C c H x true (some id)).getD x) l
  | .sign msg rng fuel :: l =>
    match sm2Sign C c H x msg rng fuel with
    | none => none
    | some y => (sm2SignRun C c H y l).map ((y.r, y.s) :: ·)
  | .start :: l => sm2SignRun C c H (sm2IncInit x) l
  | .feed d :: l => sm2SignRun C c H (ecdsaUpdate x d) l
  | .final rng fuel :: l =>
    match sm2IncSignFinal C c H x rng fuel with
    | none => none
    | some y => (sm2SignRun C c H y l).map ((y.r, y.s) :: ·)

end Ecc
