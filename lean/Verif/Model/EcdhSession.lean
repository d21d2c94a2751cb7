import Verif.Model.Ecdh

/-!
# Model of a sequence of calls on an ECDH-KEM context

Models `src/3-sec1/ecdh-kem.c` and the key functions of `src/3-ecc-common/ecc-common.c`, called one after the other on one context.
-/

namespace Ecc
open Vlong Ec

/-- A call, with what the program and the generator give (`fuel`: the number of draws after which the model gives up). -/
inductive EcdhCall
  | takePrivate (enc : List Byte)
  | takePublic (enc : List Byte)
  | encap (n : Nat) (rng : Nat → List Byte) (fuel : Nat)
  | takeCt (ct : List Byte)
  | decap (n : Nat)
  | writeCt (len : Nat)
  | writePublic (len : Nat)

/-- What the program gets. -/
inductive EcdhOut
  | kem (o : KemOut)
  | octets (l : List Byte)

/-- A history on one context: `ECC_Decode_PrivateKey`, `ecc-common.c:187-206`; `ECC_Decode_PublicKey`, `:330-354`; `ECDH_KEM_Enc`,
`ecdh-kem.c:71-163`; `ECDH_KEM_Decode_Ciphertext`, `:259-280`; `ECDH_KEM_Dec`, `:169-234`; `ECDH_KEM_Encode_Ciphertext`, `:240-253`;
`ECC_Encode_PublicKey`, `ecc-common.c:208-224`.  `none`: a decoder or an encoder refused, or no draw was acceptable (simplification: the
history is given up there). -/
def ecdhRun (C : Curve) (c : Nat) (x : Ctx) : List EcdhCall → Option (List EcdhOut)
  | [] => some []
  | .takePrivate enc :: l =>
    match decodePrivateKey C c x enc with
    | some y => ecdhRun C c y l
    | none => none
  | .takePublic enc :: l =>
    match decodePublicKey C c x enc with
    | some (y, true) => ecdhRun C c y l
    | _ => none
  | .encap n rng fuel :: l =>
    match ecdhEnc C c x n rng fuel with
    | some (y, o) => (ecdhRun C c y l).map (.kem o :: ·)
    | none => none
  | .takeCt ct :: l =>
    match ecdhDecodeCiphertext C c x ct with
    | some (y, true) => ecdhRun C c y l
    | _ => none
  | .decap n :: l => (ecdhRun C c (ecdhDec C c x n).1 l).map (.kem (ecdhDec C c x n).2 :: ·)
  | .writeCt len :: l =>
    match ecdhEncodeCiphertext C x len with
    | some e => (ecdhRun C c x l).map (.octets e :: ·)
    | none => none
  | .writePublic len :: l =>
    match encodePublicKey C x len with
    | some e => (ecdhRun C c x l).map (.octets e :: ·)
    | none => none

end Ecc
