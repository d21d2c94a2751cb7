import Verif.Model.EccSig

/-!
# Histories of calls on one ECDSA context

Any sequence of the exported functions, each acting on what the one before left.
-/

namespace Ecc
open Vlong Ec

/-- A call on a context used to verify. -/
inductive EcdsaCall
  | key (enc : List Byte)
  | load (sig : List Byte)
  | verify (msg : List Byte)
  | start
  | feed (d : List Byte)
  | final

/-- The calls in order, with the answers of the verifications: `ECC_Decode_PublicKey` (`ecc-common.c:330-354`),
`ECDSA_Decode_Signature` (`ecdsa.c:476-485`), `ECDSA_Verify` (`:279-296`), `ECDSA_IncVerify_Init` (`:298-309`), the update function it
hands out, `ECDSA_IncVerify_Final` (`:311-321`); `none`: a read outside an input. -/
def ecdsaRun (C : Curve) (c : Nat) (H : Pkcs1.Hash) (x : Ctx) : List EcdsaCall → Option (List Bool)
  | [] => some []
  | .key enc :: l =>
    match decodePublicKey C c x enc with
    | none => none
    | some (y, _) => ecdsaRun C c H y l
  | .load sig :: l =>
    match ecdsaDecodeSignature c x sig with
    | none => none
    | some (y, _) => ecdsaRun C c H y l
  | .verify msg :: l =>
    let (y, v) := ecdsaVerify C c H x msg
    (ecdsaRun C c H y l).map (v :: ·)
  | .start :: l => ecdsaRun C c H (ecdsaIncInit x) l
  | .feed d :: l => ecdsaRun C c H (ecdsaUpdate x d) l
  | .final :: l =>
    let (y, v) := ecdsaIncVerifyFinal C c H x
    (ecdsaRun C c H y l).map (v :: ·)

/-- A call on a context used to sign; `rng i` is the `i`-th draw of the call from the generator, at most `fuel` of them. -/
inductive EcdsaSignCall
  | sign (msg : List Byte) (rng : Nat → List Byte) (fuel : Nat)
  | start
  | feed (d : List Byte)
  | final (rng : Nat → List Byte) (fuel : Nat)

/-- The calls in order, with the signatures made: `ECDSA_Sign` (`ecdsa.c:97-113`), `ECDSA_IncSign_Init`
(`:115-126`), the update function, `ECDSA_IncSign_Final` (`:128-135`), and the members `r`, `s` afterwards; `none`: a signing loop
does not end within its draws. -/
def ecdsaSignRun (C : Curve) (c : Nat) (H : Pkcs1.Hash) (x : Ctx) : List EcdsaSignCall → Option (List (List W × List W))
  | [] => some []
  | .sign msg rng fuel :: l =>
    match ecdsaSign C c H x msg rng fuel with
    | none => none
    | some y => (ecdsaSignRun C c H y l).map ((y.r, y.s) :: ·)
  | .start :: l => ecdsaSignRun C c H (ecdsaIncInit x) l
  | .feed d :: l => ecdsaSignRun C c H (ecdsaUpdate x d) l
  | .final rng fuel :: l =>
    match ecdsaIncSignFinal C c H x rng fuel with
    | none => none
    | some y => (ecdsaSignRun C c H y l).map ((y.r, y.s) :: ·)

end Ecc
