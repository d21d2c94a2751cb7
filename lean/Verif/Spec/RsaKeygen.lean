import Verif.Spec.RsaDer

/-! # Specification: the numbers of a generated multi-prime RSA key (RFC 8017, 3.2) -/

namespace Spec

/-- The primes of a key. -/
def keyPrimes (k : RsaNumbers) : List Nat := k.q :: k.p :: k.others.map (·.1)

/-- Euler's function of the product of distinct primes. -/
def totient (l : List Nat) : Nat := (l.map (· - 1)).prod

/-- Each prime with its CRT exponent. -/
def crtPairs (k : RsaNumbers) : List (Nat × Nat) := (k.q, k.dQ) :: (k.p, k.dP) :: k.others.map fun x => (x.1, x.2.1)

/-- The coefficient of each prime `r` is `R ^ (r - 2) mod r`, `R` being the product of the primes before it. -/
def FermatChain : (R : Nat) → List (Nat × Nat × Nat) → Prop
  | _, [] => True
  | R, (r, _, t) :: l => t = R ^ (r - 2) % r ∧ FermatChain (R * r) l

end Spec
