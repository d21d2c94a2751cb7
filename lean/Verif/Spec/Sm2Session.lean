import Verif.Spec.Sm2

/-!
# Histories of calls on an SM2 signature context

As for EdDSA, a signature taken serves for one verification: the verdict can be asked again, but for another message the signature has to
be given again.
-/

namespace Spec

/-- A call on a verification context: take a public key, an identity of the signer, a signature; verify a message held in memory;
begin, feed and end a message that comes in pieces. -/
inductive Sm2Op
  | key (pk : List (BitVec 8))
  | identity (id : List (BitVec 8))
  | load (r s : Nat)
  | verify (msg : List (BitVec 8))
  | start
  | feed (d : List (BitVec 8))
  | final

/-- What the context has been told: key, identity, signature not yet used, verdict, message being fed. -/
structure Sm2State where
  key : List (BitVec 8)
  id : List (BitVec 8)
  sig : Option (Nat × Nat)
  verdict : Option Bool
  msg : Option (List (BitVec 8))

/-- The identity a key has when none is given: `1234567812345678`. -/
def sm2StdId : List (BitVec 8) := [0x31, 0x32, 0x33, 0x34, 0x35, 0x36, 0x37, 0x38, 0x31, 0x32, 0x33, 0x34, 0x35, 0x36, 0x37, 0x38]

/-- The answers to the verifications of a history, in order, `valid key identity r s message` being the question asked; `none` if a
verification is asked with no verdict and no signature, a piece is fed with no message begun (or with the key or the identity changed
since), or the end asked with neither. -/
def sm2Session (valid : List (BitVec 8) → List (BitVec 8) → Nat → Nat → List (BitVec 8) → Bool) (σ : Sm2State) :
    List Sm2Op → Option (List Bool)
  | [] => some []
  | .key pk :: l => sm2Session valid { σ with key := pk, id := sm2StdId, verdict := none, msg := none } l
  | .identity id :: l => sm2Session valid { σ with id, msg := none } l
  | .load r s :: l => sm2Session valid { σ with sig := some (r, s), verdict := none } l
  | .verify m :: l =>
    match σ.verdict, σ.sig with
    | some v, _ => (sm2Session valid σ l).map (v :: ·)
    | none, none => none
    | none, some (r, s) =>
      let v := valid σ.key σ.id r s m
      (sm2Session valid { σ with verdict := some v, sig := none, msg := none } l).map (v :: ·)
  | .start :: l => sm2Session valid { σ with verdict := none, msg := some [] } l
  | .feed d :: l =>
    match σ.msg with
    | none => none
    | some m => sm2Session valid { σ with msg := some (m ++ d) } l
  | .final :: l =>
    match σ.verdict, σ.sig, σ.msg with
    | some v, _, _ => (sm2Session valid σ l).map (v :: ·)
    | none, some (r, s), some m =>
      let v := valid σ.key σ.id r s m
      (sm2Session valid { σ with verdict := some v, sig := none, msg := none } l).map (v :: ·)
    | none, _, _ => none

/-- A call on a signing context; a call that makes a signature takes random numbers `t`. -/
inductive Sm2SignOp (T : Type)
  | identity (id : List (BitVec 8))
  | sign (msg : List (BitVec 8)) (t : T)
  | start
  | feed (d : List (BitVec 8))
  | final (t : T)

/-- What is signed by a history: identity, message and random numbers of the call; `none` if a piece is fed, or the end asked, with no
message begun (or with the identity changed since). -/
def sm2Signed {T : Type} (id : List (BitVec 8)) (msg : Option (List (BitVec 8))) :
    List (Sm2SignOp T) → Option (List (List (BitVec 8) × List (BitVec 8) × T))
  | [] => some []
  | .identity id' :: l => sm2Signed id' none l
  | .sign m t :: l => (sm2Signed id none l).map ((id, m, t) :: ·)
  | .start :: l => sm2Signed id (some []) l
  | .feed d :: l =>
    match msg with
    | none => none
    | some m => sm2Signed id (some (m ++ d)) l
  | .final t :: l =>
    match msg with
    | none => none
    | some m => (sm2Signed id none l).map ((id, m, t) :: ·)

/-- `(r, s)` is made from the private key `d`, the digest number `e` and the ephemeral number `k`: `r = e + x` for the
`x`-coordinate of `k G`, `s = (k - r d) / (1 + d)`, modulo `n`; for a coordinate of zero `p` may stand in its place. -/
def Sm2Made {p : Nat} [Fact p.Prime] {a b : ZMod p} (n : Nat) (G : (shortW a b).Point) (d e k r s : Nat) : Prop :=
  1 ≤ k ∧ k < n ∧ 1 ≤ r ∧ r + k ≠ n ∧ 1 ≤ s ∧ s < n ∧ ∃ x y h v, k • G = .some x y h ∧ (x ≠ 0 → v = x.val) ∧ (x = 0 → v = 0 ∨ v = p) ∧
    r = (e + v) % n ∧ (s : ZMod n) = (1 + (d : ZMod n))⁻¹ * ((k : ZMod n) - (r : ZMod n) * (d : ZMod n))

end Spec
