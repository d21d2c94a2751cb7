import Mathlib.Data.Nat.ModEq
import Mathlib.Algebra.Group.Nat.Even

/-! # Specification: strong probable primes (FIPS 186-4 C.3.1, Miller 1976, Rabin 1980) -/

namespace Spec

/-- `w` passes the Miller-Rabin test to base `b`: with `w - 1 = 2^a * m`, `m` odd, either
`b^m = 1` or `b^(2^j * m) = -1` for some `j < a`, modulo `w`. -/
def StrongProbablePrime (w b : Nat) : Prop :=
  ∃ a m, w - 1 = 2 ^ a * m ∧ m % 2 = 1 ∧
    (b ^ m ≡ 1 [MOD w] ∨ ∃ j < a, b ^ (2 ^ j * m) + 1 ≡ 0 [MOD w])

end Spec
