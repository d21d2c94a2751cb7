import Verif.Spec.EdDsa

/-!
# Histories of calls on an EdDSA context

What a user who makes calls in any order on one context expects.  A signature taken serves for one verification: the verdict can be
asked again, but for another message the signature has to be given again.
-/

namespace Spec

/-- A call on a verification context: take a public key, a context string, a signature; verify a message held in memory; begin, feed
and end a message that comes in pieces (prehashed). -/
inductive EdOp
  | key (pk : List (BitVec 8))
  | context (s : List (BitVec 8))
  | load (sig : List (BitVec 8))
  | verify (msg : List (BitVec 8))
  | start
  | feed (d : List (BitVec 8))
  | final

/-- What the context has been told: key, context string, signature not yet used, verdict, message being fed. -/
structure EdState where
  key : List (BitVec 8)
  ctx : List (BitVec 8)
  sig : Option (List (BitVec 8))
  verdict : Option Bool
  msg : Option (List (BitVec 8))

/-- The answers to the verifications of a history, in order, `valid prehash key context signature message` being the question asked
and `wf` telling the octets that can be a signature at all; `none` if a verification is asked with no verdict and no signature, a
piece is fed with no message begun, or the end asked with neither. -/
def edSession (wf : List (BitVec 8) → Bool)
    (valid : Bool → List (BitVec 8) → List (BitVec 8) → List (BitVec 8) → List (BitVec 8) → Bool) (σ : EdState) :
    List EdOp → Option (List Bool)
  | [] => some []
  | .key pk :: l => edSession wf valid { σ with key := pk, ctx := [], verdict := none, msg := none } l
  | .context s :: l => edSession wf valid { σ with ctx := s } l
  | .load sig :: l =>
    if wf sig then edSession wf valid { σ with sig := some sig, verdict := none } l
    else edSession wf valid { σ with sig := none, verdict := some false } l
  | .verify m :: l =>
    match σ.verdict, σ.sig with
    | some v, _ => (edSession wf valid σ l).map (v :: ·)
    | none, none => none
    | none, some sig =>
      let v := valid false σ.key σ.ctx sig m
      (edSession wf valid { σ with verdict := some v, sig := none, msg := none } l).map (v :: ·)
  | .start :: l => edSession wf valid { σ with verdict := none, msg := some [] } l
  | .feed d :: l =>
    match σ.msg with
    | none => none
    | some m => edSession wf valid { σ with msg := some (m ++ d) } l
  | .final :: l =>
    match σ.verdict, σ.sig, σ.msg with
    | some v, _, _ => (edSession wf valid σ l).map (v :: ·)
    | none, some sig, some m =>
      let v := valid true σ.key σ.ctx sig m
      (edSession wf valid { σ with verdict := some v, sig := none, msg := none } l).map (v :: ·)
    | none, _, _ => none

/-- A call on a signing context. -/
inductive EdSignOp
  | context (s : List (BitVec 8))
  | sign (msg : List (BitVec 8))
  | start
  | feed (d : List (BitVec 8))
  | final

/-- The signatures made by a history, `sign prehash context message` being the signature of a message. -/
def edSignSession (sign : Bool → List (BitVec 8) → List (BitVec 8) → List (BitVec 8)) (ctx : List (BitVec 8))
    (msg : Option (List (BitVec 8))) : List EdSignOp → Option (List (List (BitVec 8)))
  | [] => some []
  | .context s :: l => edSignSession sign s msg l
  | .sign m :: l => (edSignSession sign ctx none l).map (sign false ctx m :: ·)
  | .start :: l => edSignSession sign ctx (some []) l
  | .feed d :: l =>
    match msg with
    | none => none
    | some m => edSignSession sign ctx (some (m ++ d)) l
  | .final :: l =>
    match msg with
    | none => none
    | some m => (edSignSession sign ctx none l).map (sign true ctx m :: ·)

end Spec
