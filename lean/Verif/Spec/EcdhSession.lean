import Verif.Spec.Ecc
import Verif.Spec.Ecdsa

/-!
# Histories of calls on an ECDH key encapsulation context

`P` is the group of the points of the curve, `G` the base point.
-/

namespace Spec

/-- A call: take a private key, take a public key, encapsulate with the scalar `k` into a buffer of `n` octets, take a ciphertext, open it
into a buffer of `n` octets, write the ciphertext, write the public key. -/
inductive EcdhOp (P : Type)
  | takePrivate (d : Nat)
  | takePublic (Q : P)
  | encap (n k : Nat)
  | takeCt (R : P)
  | decap (n : Nat)
  | writeCt (len : Nat)
  | writePublic (len : Nat)

/-- The answers: the first `n` octets of the secret of a point; `len` octets that encode a point. -/
inductive EcdhAnswer (P : Type)
  | secret (n : Nat) (S : P)
  | point (len : Nat) (R : P)

/-- What the context has been told: private key; public key, and whether it is that of a private key; ciphertext, and whether the context
made it. -/
structure EcdhTold (P : Type) where
  sk : Option Nat
  pub : Option (P × Bool)
  ct : Option (P × Bool)

/-- The answers of a history; `none` if what a call needs has not been given.  Encapsulating uses up the private key, opening uses up the
ciphertext. -/
def ecdhSession {P : Type} [AddCommGroup P] (G : P) (σ : EcdhTold P) : List (EcdhOp P) → Option (List (EcdhAnswer P))
  | [] => some []
  | .takePrivate d :: l => ecdhSession G ⟨some d, some (d • G, true), σ.ct⟩ l
  | .takePublic Q :: l => ecdhSession G ⟨σ.sk, some (Q, false), σ.ct⟩ l
  | .encap n k :: l =>
    match σ.pub with
    | some (Q, _) => (ecdhSession G ⟨none, σ.pub, some (k • G, true)⟩ l).map (.secret n (k • Q) :: ·)
    | none => none
  | .takeCt R :: l => ecdhSession G ⟨σ.sk, σ.pub, some (R, false)⟩ l
  | .decap n :: l =>
    match σ.sk, σ.ct with
    | some d, some (R, _) => (ecdhSession G ⟨σ.sk, σ.pub, none⟩ l).map (.secret n (d • R) :: ·)
    | _, _ => none
  | .writeCt len :: l =>
    match σ.ct with
    | some (R, true) => (ecdhSession G σ l).map (.point len R :: ·)
    | _ => none
  | .writePublic len :: l =>
    match σ.pub with
    | some (Q, true) => (ecdhSession G σ l).map (.point len Q :: ·)
    | _ => none

/-- The secret of a point (SEC 1, 3.3.1): its `x`-coordinate in `plen` octets; for the coordinate zero the prime may stand for zero. -/
def IsEcdhSecret (plen : Nat) {p : Nat} [Fact p.Prime] {a b : ZMod p} (S : (shortW a b).Point) (full : List (BitVec 8)) : Prop :=
  full.length = plen ∧ ∃ X Y h, S = .some X Y h ∧ (beNat full : ZMod p) = X ∧ beNat full ≤ p ∧ (X ≠ 0 → beNat full = X.val)

end Spec
