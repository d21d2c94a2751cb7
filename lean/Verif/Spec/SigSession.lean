import Verif.Spec.Ecdsa
import Mathlib.Data.List.Forall2

/-!
# Histories of calls on a signature context

What a user who makes calls in any order on one context expects, as a function of a yes/no question `valid key r s message`.
-/

namespace Spec

/-- A call on a verification context: take a public key, take a signature, verify a message held in memory; begin, feed and end
a message that comes in pieces. -/
inductive SigOp (K : Type)
  | key (k : K)
  | load (r s : Nat)
  | verify (msg : List (BitVec 8))
  | start
  | feed (d : List (BitVec 8))
  | final

/-- What the context has been told: the key, the signature, the verdict if there is one already, and the message being fed if
there is one. -/
structure SigState (K : Type) where
  key : K
  r : Nat
  s : Nat
  verdict : Option Bool
  msg : Option (List (BitVec 8))

/-- The answers to the verifications of a history, in order; `none` if a piece is fed with no message begun, or the end is asked
with neither a message begun nor a verdict. A verdict lasts until a key, a signature or a new message in pieces comes. -/
def sigSession {K : Type} (valid : K → Nat → Nat → List (BitVec 8) → Bool) (σ : SigState K) : List (SigOp K) → Option (List Bool)
  | [] => some []
  | .key k :: l => sigSession valid { σ with key := k, verdict := none } l
  | .load r s :: l => sigSession valid { σ with r, s, verdict := none } l
  | .start :: l => sigSession valid { σ with verdict := none, msg := some [] } l
  | .feed d :: l =>
    match σ.msg with
    | none => none
    | some m => sigSession valid { σ with msg := some (m ++ d) } l
  | .verify m :: l =>
    match σ.verdict with
    | some v => (sigSession valid σ l).map (v :: ·)
    | none =>
      let v := valid σ.key σ.r σ.s m
      (sigSession valid { σ with verdict := some v, msg := none } l).map (v :: ·)
  | .final :: l =>
    match σ.verdict, σ.msg with
    | some v, _ => (sigSession valid σ l).map (v :: ·)
    | none, none => none
    | none, some m =>
      let v := valid σ.key σ.r σ.s m
      (sigSession valid { σ with verdict := some v, msg := none } l).map (v :: ·)

/-- A call on a signing context: sign a message held in memory; begin, feed and end one that comes in pieces.  A call that makes a
signature takes random numbers `t`. -/
inductive SignOp (T : Type)
  | sign (msg : List (BitVec 8)) (t : T)
  | start
  | feed (d : List (BitVec 8))
  | final (t : T)

/-- The messages signed by a history, each with the random numbers of its call; `none` if a piece is fed, or the end asked, with no
message begun. -/
def signedMessages {T : Type} : Option (List (BitVec 8)) → List (SignOp T) → Option (List (List (BitVec 8) × T))
  | _, [] => some []
  | _, .sign m t :: l => (signedMessages none l).map ((m, t) :: ·)
  | _, .start :: l => signedMessages (some []) l
  | none, .feed _ :: _ => none
  | some m, .feed d :: l => signedMessages (some (m ++ d)) l
  | none, .final _ :: _ => none
  | some m, .final t :: l => (signedMessages none l).map ((m, t) :: ·)

/-- The answer of the verifier for an ECDSA signature: valid by the standard, and the `x`-coordinate of the point is below the
group order. -/
def EcdsaAccepted {p : Nat} [Fact p.Prime] {a b : ZMod p} (n : Nat) (G Q : (shortW a b).Point) (e r s : Nat) : Prop :=
  EcdsaValid n G Q e r s ∧ ∀ x y h, ecdsaPoint n G Q e r s = .some x y h → x.val < n

/-- `(r, s)` is made from the private key `d`, the digest number `e` and the ephemeral number `k`: `r` is the `x`-coordinate of
`k G`, `s = (e + r d) / k`. -/
def EcdsaMade {p : Nat} [Fact p.Prime] {a b : ZMod p} (n : Nat) (G : (shortW a b).Point) (d e k r s : Nat) : Prop :=
  1 ≤ k ∧ k < n ∧ 1 ≤ s ∧ s < n ∧ ∃ x y h, k • G = .some x y h ∧ (r : ZMod p) = x ∧ r ≤ p ∧
    (s : ZMod n) = (k : ZMod n)⁻¹ * ((e : ZMod n) + (r : ZMod n) * (d : ZMod n))

end Spec
