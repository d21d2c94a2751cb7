import Verif.Spec.Mem
import Verif.Spec.Blocks
import Verif.Spec.Aead
import Verif.Spec.Chacha

/-!
# What a sequence of authenticated encryptions and decryptions under one key does
-/
namespace Spec

/-- What the caller of an encryption or decryption sees: a null pointer; a pointer, and the octets stored as the tag; a pointer from a decryption; a null
pointer although a tag has been stored. -/
inductive AeadAnswer | null | tag (T : List (BitVec 8)) | accepted | nullTag (T : List (BitVec 8))
deriving DecidableEq

/-- One call: `len` octets at `inp` are encrypted or decrypted to `out`, with the nonce `iv` and the associated data `A`; a tag of `tlen` octets is wanted, or
the tag `T` is to be checked. -/
inductive AeadOp
  | enc (iv A : List (BitVec 8)) (len inp out tlen : Nat)
  | dec (iv A : List (BitVec 8)) (len inp out : Nat) (T : List (BitVec 8))

/-- An algorithm under a key: the lengths (nonce, associated data, message, tag) it is defined for, the key stream cipher, and the tag of a nonce,
associated data, plaintext and ciphertext. -/
structure AeadAlg where
  fits : (ivlen alen len tlen : Nat) → Bool
  cipher : (iv P : List (BitVec 8)) → List (BitVec 8)
  tag : (iv A P C : List (BitVec 8)) → (t : Nat) → List (BitVec 8)

/-- One call: lengths out of range are refused; encryption stores the ciphertext; decryption stores the plaintext exactly if the tag is right;
nothing else changes. -/
def AeadAlg.step (a : AeadAlg) (m : Mem) : AeadOp → Mem × AeadAnswer
  | .enc iv A len inp out tlen =>
    if a.fits iv.length A.length len tlen then
      let P := bytesAt m inp len
      (storeAt m out (a.cipher iv P), .tag (a.tag iv A P (a.cipher iv P) tlen))
    else (m, .null)
  | .dec iv A len inp out T =>
    if a.fits iv.length A.length len T.length then
      let C := bytesAt m inp len
      if T = a.tag iv A (a.cipher iv C) C T.length then (storeAt m out (a.cipher iv C), .accepted) else (m, .null)
    else (m, .null)

/-- A sequence of calls: the memory afterwards and the answers. -/
def AeadAlg.session (a : AeadAlg) (m : Mem) : List AeadOp → Mem × List AeadAnswer
  | [] => (m, [])
  | op :: ops =>
    let r := a.step m op
    let s := a.session r.1 ops
    (s.1, r.2 :: s.2)

/-- GCM, SP 800-38D with 96-bit nonces, over the keyed block cipher `E`. -/
def gcmAlg (mul : List (BitVec 8) → List (BitVec 8) → List (BitVec 8)) (E : List (BitVec 8) → List (BitVec 8)) : AeadAlg where
  fits := fun ivlen alen len _ => decide (ivlen = 12 ∧ alen < 2 ^ 61 ∧ len ≤ 2 ^ 36 - 32)
  cipher := gcmCipher E
  tag := fun iv A _ C t => fitTo (gcmTag mul E iv A C) t

/-- CCM, SP 800-38C, over the keyed block cipher `E`. -/
def ccmAlg (E : List (BitVec 8) → List (BitVec 8)) : AeadAlg where
  fits := fun ivlen _ len t => decide ((7 ≤ ivlen ∧ ivlen ≤ 13) ∧ t ∈ [4, 6, 8, 10, 12, 14, 16] ∧ len < 256 ^ (15 - ivlen))
  cipher := ccmCipher E
  tag := fun iv A P _ t => ccmTag E iv A P t

/-- ChaCha20-Poly1305, RFC 8439, 2.8, with the given 16-octet tags. -/
def chachaAlg (key : List (BitVec 8)) (tag : List (BitVec 8) → List (BitVec 8) → List (BitVec 8) → List (BitVec 8)) : AeadAlg where
  fits := fun ivlen _ len _ => decide (ivlen = 12 ∧ len < 2 ^ 38)
  cipher := chachaCipher key
  tag := fun iv A _ C t => fitTo (tag iv A C) t

end Spec
