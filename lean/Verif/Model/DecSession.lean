import Verif.Model.Pkcs1

/-!
# Model of a sequence of calls on an RSA decryption context

Models `src/3-pkcs1/rsaes-oaep-dec.c` and `src/3-pkcs1/rsaes-pkcs1-v1_5-dec.c`, called one after the other on one context.
-/

namespace Pkcs1

/-- Calls of the decryptor one after the other, `rsaes-oaep-dec.c:21-165`, `rsaes-pkcs1-v1_5-dec.c:21-138`: each asks for the length of
the message (`none`) or for so many octets of it. -/
def asks (dec : Priv → Option Nat → Option (Priv × DecResult)) : Priv → List (Option Nat) → Option (Priv × List DecResult)
  | y, [] => some (y, [])
  | y, req :: reqs => do
    let (y, r) ← dec y req
    let (y, rs) ← asks dec y reqs
    some (y, r :: rs)

/-- A history on one context: `RSAES_OAEP_Decode_Ciphertext`, `rsaes-oaep-dec.c:7-19`, or `RSAEncryption_Decode_Ciphertext`,
`rsaes-pkcs1-v1_5-dec.c:7-19`, takes a ciphertext, calls of the decryptor follow, then comes the next ciphertext.
(`RSAES_OAEP_TestLabel` is not among the calls: simplification.) -/
def decHistory (dec : Priv → Option Nat → Option (Priv × DecResult)) :
    Priv → List (List Byte × List (Option Nat)) → Option (Priv × List (List DecResult))
  | y, [] => some (y, [])
  | y, (ct, reqs) :: hist => do
    let (y, rs) ← asks dec (decodeCt y ct) reqs
    let (y, rss) ← decHistory dec y hist
    some (y, rs :: rss)

end Pkcs1
