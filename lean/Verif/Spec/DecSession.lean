import Verif.Spec.Pkcs1

/-!
# What the calls on an RSA decryption context should report
-/

namespace Spec.DecSession
open Spec

abbrev Byte := BitVec 8

/-- The message in the ciphertext `c` under the key `(n, e)`: a ciphertext below `n` is `m ^ e` modulo `n` for an `m < n`, and the `k` octets
of `m` (`block m`) encode a message (`some M`) or none; a ciphertext above `n` holds no message. -/
def Opens (n e : Nat) (block : Nat → List Byte) (encodes : List Byte → List Byte → Prop) (c : Nat) : Option (List Byte) → Prop
  | some M => ∃ m < n, m ^ e % n = c ∧ encodes (block m) M
  | none => n < c ∨ ∃ m < n, m ^ e % n = c ∧ ∀ M, ¬ encodes (block m) M

/-- What a call reports when the ciphertext holds the message `some M`, or no message: success and the length of `M`, or its first octets
padded with zeros; or failure, the length -1 and zeros. -/
def Reports : Option (List Byte) → (req : Option Nat) → (ok : Bool) → (len : Option Int) → (ss : List Byte) → Prop
  | some M, none, ok, len, _ => ok = true ∧ len = some (M.length : Int)
  | some M, some n, ok, _, ss => ok = true ∧ ss = M.take n ++ List.replicate (n - M.length) 0
  | none, none, ok, len, _ => ok = false ∧ len = some (-1)
  | none, some n, ok, _, ss => ok = false ∧ ss = List.replicate n 0

end Spec.DecSession
