/-!
# Specification: the encodings of RFC 8017 (PKCS #1 v2.2)

`hash` is the message hash function (`hLen` octets of output), `mgf seed len` a mask generation
function with `len` octets of output.
-/

namespace Spec.Pkcs1
abbrev Byte := BitVec 8

def xorBytes (a b : List Byte) : List Byte := List.zipWith (· ^^^ ·) a b

/-- The four octets of `c`, most significant first (I2OSP(c, 4)). -/
def counter4 (c : Nat) : List Byte :=
  [BitVec.ofNat 8 (c / 2 ^ 24), BitVec.ofNat 8 (c / 2 ^ 16), BitVec.ofNat 8 (c / 2 ^ 8), BitVec.ofNat 8 c]

/-- MGF1, RFC 8017 appendix B.2.1: concatenate `hash (seed ‖ 0), hash (seed ‖ 1), ...` and keep `len`
octets. -/
def mgf1 (hash : List Byte → List Byte) (hLen : Nat) (seed : List Byte) (len : Nat) : List Byte :=
  ((List.range ((len + hLen - 1) / hLen)).flatMap fun c => hash (seed ++ counter4 c)).take len

/-- EME-OAEP encoding, RFC 8017 section 7.1.1 step 2. -/
def oaepEncode (mgf : List Byte → Nat → List Byte) (hLen k : Nat) (lHash M seed : List Byte) : List Byte :=
  let DB := lHash ++ List.replicate (k - M.length - 2 * hLen - 2) 0 ++ [0x01] ++ M
  let maskedDB := xorBytes DB (mgf seed (k - hLen - 1))
  let maskedSeed := xorBytes seed (mgf maskedDB hLen)
  0x00 :: (maskedSeed ++ maskedDB)

/-- EME-OAEP decoding, RFC 8017 section 7.1.2 step 3, with the hash of the label returned
instead of compared: `EM` is well formed, carries the label hash `lHash` and the message `M`. -/
def OaepDecodes (mgf : List Byte → Nat → List Byte) (hLen k : Nat) (EM lHash M : List Byte) : Prop :=
  ∃ maskedSeed maskedDB z, EM = 0x00 :: (maskedSeed ++ maskedDB) ∧ maskedSeed.length = hLen ∧ lHash.length = hLen ∧
    xorBytes maskedDB (mgf (xorBytes maskedSeed (mgf maskedDB hLen)) (k - hLen - 1))
      = lHash ++ List.replicate z 0 ++ [0x01] ++ M

/-- EME-PKCS1-v1_5, RFC 8017 section 7.2.1 step 2: `EM = 00 02 PS 00 M`, with at least eight nonzero octets `PS`. -/
def EmePkcs1 (EM PS M : List Byte) : Prop :=
  EM = [0x00, 0x02] ++ PS ++ [0x00] ++ M ∧ 8 ≤ PS.length ∧ ∀ b ∈ PS, b ≠ 0x00

/-- EMSA-PKCS1-v1_5, RFC 8017 section 9.2: `EM = 00 01 FF..FF 00 T`. -/
def emsaPkcs1 (emLen : Nat) (T : List Byte) : List Byte :=
  [0x00, 0x01] ++ List.replicate (emLen - T.length - 3) 0xff ++ [0x00] ++ T

/-- Clear the leftmost `t` bits (`t < 8`) of an octet string. -/
def clearTop (t : Nat) : List Byte → List Byte
  | [] => []
  | b :: l => BitVec.ofNat 8 (b.toNat % 2 ^ (8 - t)) :: l

/-- EMSA-PSS-ENCODE, RFC 8017 section 9.1.1, steps 4-12. -/
def pssEncode (hash : List Byte → List Byte) (mgf : List Byte → Nat → List Byte) (hLen emBits : Nat)
    (mHash salt : List Byte) : List Byte :=
  let emLen := (emBits + 7) / 8
  let H := hash (List.replicate 8 0 ++ mHash ++ salt)
  let DB := List.replicate (emLen - salt.length - hLen - 2) 0 ++ [0x01] ++ salt
  clearTop (8 * emLen - emBits) (xorBytes DB (mgf H (emLen - hLen - 1))) ++ H ++ [0xbc]

/-- EMSA-PSS-VERIFY, RFC 8017 section 9.1.2, steps 3-14, answers "consistent" for salts of `sLen` octets. -/
def PssConsistent (hash : List Byte → List Byte) (mgf : List Byte → Nat → List Byte) (hLen sLen emBits : Nat)
    (mHash EM : List Byte) : Prop :=
  let emLen := (emBits + 7) / 8
  hLen + sLen + 2 ≤ emLen ∧
  ∃ maskedDB H salt, EM = maskedDB ++ H ++ [0xbc] ∧ EM.length = emLen ∧ H.length = hLen ∧ salt.length = sLen ∧
    clearTop (8 * emLen - emBits) maskedDB = maskedDB ∧
    clearTop (8 * emLen - emBits) (xorBytes maskedDB (mgf H (emLen - hLen - 1)))
      = List.replicate (emLen - hLen - sLen - 2) 0 ++ [0x01] ++ salt ∧
    hash (List.replicate 8 0 ++ mHash ++ salt) = H

end Spec.Pkcs1

namespace Spec.Pkcs1

/-- A DER element with a short length. -/
def tlv (tag : Byte) (body : List Byte) : List Byte := tag :: BitVec.ofNat 8 body.length :: body

/-- One object identifier component in base 128 (components below 2^14 only). -/
def oidArc (a : Nat) : List Byte := if a < 128 then [BitVec.ofNat 8 a] else [BitVec.ofNat 8 (128 + a / 128), BitVec.ofNat 8 (a % 128)]

/-- An object identifier: the first two components share an octet. -/
def oid : List Nat → List Byte
  | a :: b :: l => tlv 0x06 (oidArc (40 * a + b) ++ l.flatMap oidArc)
  | _ => []

/-- The `DigestInfo` of RFC 8017 appendix A.2.4: `SEQUENCE { SEQUENCE { OID, NULL }, OCTET STRING digest }`. -/
def digestInfo (hash : List Nat) (digest : List Byte) : List Byte :=
  tlv 0x30 (tlv 0x30 (oid hash ++ tlv 0x05 []) ++ tlv 0x04 digest)

/-- RFC 8017 appendix B.1: id-sha1, id-sha224, id-sha256, id-sha384, id-sha512, id-sha512-224, id-sha512-256, with the digest lengths. -/
def hashIds : List (List Nat × Nat) :=
  [([1, 3, 14, 3, 2, 26], 20), ([2, 16, 840, 1, 101, 3, 4, 2, 4], 28), ([2, 16, 840, 1, 101, 3, 4, 2, 1], 32),
   ([2, 16, 840, 1, 101, 3, 4, 2, 2], 48), ([2, 16, 840, 1, 101, 3, 4, 2, 3], 64), ([2, 16, 840, 1, 101, 3, 4, 2, 5], 28),
   ([2, 16, 840, 1, 101, 3, 4, 2, 6], 32)]

end Spec.Pkcs1
