import Mathlib.Data.Nat.Prime.Defs

/-! # Specification: multi-prime RSA keys (RFC 8017, section 3.2, second representation) -/

namespace Spec

/-- `d` undoes exponentiation by `e` modulo the prime `r`. -/
def ExponentFor (e r d : Nat) : Prop := ∃ k, e * d = 1 + k * (r - 1)

/-- The CRT triples `(r, d, t)` following the primes whose product is `R`: each `r` is prime, `d` is
its CRT exponent, and `t` is the inverse of the product of the earlier primes modulo `r`. -/
def ValidChain (e : Nat) : (R : Nat) → List (Nat × Nat × Nat) → Prop
  | _, [] => True
  | R, (r, d, t) :: l =>
    r.Prime ∧ ExponentFor e r d ∧ R * t % r = 1 ∧ ValidChain e (R * r) l

/-- The product of the first prime and the primes of the triples. -/
def chainProduct : (R : Nat) → List (Nat × Nat × Nat) → Nat
  | R, [] => R
  | R, (r, _, _) :: l => chainProduct (R * r) l

/-- A valid multi-prime RSA private key: the first prime `q` with its exponent `dQ`, then the triples
`(p, dP, qInv), (r_3, d_3, t_3), ...`; the modulus is the product of all primes. -/
def ValidRsaKey (n e q dQ : Nat) (l : List (Nat × Nat × Nat)) : Prop :=
  q.Prime ∧ ExponentFor e q dQ ∧ ValidChain e q l ∧ n = chainProduct q l

end Spec
