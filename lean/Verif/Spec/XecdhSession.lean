import Verif.Spec.Xecdh

/-!
# Histories of calls on an X25519 or X448 context

One context: keys are generated or taken, secrets are encapsulated for a public key taken, ciphertexts are taken and opened, and everything
the context holds can be written out.  `xSession` says which answer each call is to give, in terms of the octets that were given
to the calls before; `XAnswer.Holds` says what an answer is, in terms of RFC 7748.
-/

namespace Spec

/-- A call: generate a key from the octets of the generator, take a private key, take a public key, encapsulate into a buffer of `n` octets
with the octets of the generator, take a ciphertext, open it into a buffer of `n` octets, ask for the length of the secret, write
the ciphertext, the public key, the private key into a buffer of `n` octets. -/
inductive XOp
  | generate (sk : List (BitVec 8))
  | takePrivate (enc : List (BitVec 8))
  | takePublic (enc : List (BitVec 8))
  | encap (n : Nat) (r : List (BitVec 8))
  | takeCt (ct : List (BitVec 8))
  | decap (n : Nat)
  | secretLength
  | writeCt (n : Nat)
  | writePublic (n : Nat)
  | writePrivate (n : Nat)

/-- What a call gives to the program: nothing (but success), refusal, a length, octets. -/
inductive XOut
  | done
  | refused
  | length (n : Nat)
  | octets (l : List (BitVec 8))

/-- The answers: success, refusal, the length; the first `n` octets of the secret for a private key and a coordinate (padded with zeros);
the multiple of the base point; a coordinate; a scalar. -/
inductive XAnswer
  | done
  | refused
  | length
  | secret (n : Nat) (sk u : List (BitVec 8))
  | ofBase (sk : List (BitVec 8))
  | coordinate (u : List (BitVec 8))
  | scalar (sk : List (BitVec 8))

/-- The public key held: none, that of a private key, or one that was taken. -/
inductive XPub
  | nothing
  | own (sk : List (BitVec 8))
  | peer (enc : List (BitVec 8))

/-- The ciphertext held: none, one that was taken, one that was opened (with the key), one that was made (with the octets of the
generator). -/
inductive XPoint
  | nothing
  | taken (ct : List (BitVec 8))
  | opened (sk ct : List (BitVec 8))
  | made (r : List (BitVec 8))

/-- What the context has been told. -/
structure XTold where
  sk : Option (List (BitVec 8))
  pub : XPub
  pt : XPoint

/-- After a key has been generated or taken: a ciphertext that was opened is no longer there, the others are. -/
def XPoint.rekey : XPoint → XPoint
  | .opened _ _ => .nothing
  | pt => pt

/-- The answers of a history, `len` being the length of keys, secrets and ciphertexts.  `none` if octets have a length that is not
allowed, or if what a call needs has not been given. -/
def xSession (len : Nat) (σ : XTold) : List XOp → Option (List XAnswer)
  | [] => some []
  | .generate sk :: l =>
    if sk.length = len then (xSession len ⟨some sk, .own sk, σ.pt.rekey⟩ l).map (.done :: ·) else none
  | .takePrivate sk :: l =>
    if sk.length = len then (xSession len ⟨some sk, .own sk, σ.pt.rekey⟩ l).map (.done :: ·)
    else (xSession len σ l).map (.refused :: ·)
  | .takePublic enc :: l =>
    if enc.length ≤ len then (xSession len ⟨σ.sk, .peer enc, σ.pt.rekey⟩ l).map (.done :: ·) else none
  | .encap n r :: l =>
    match σ.pub with
    | .peer enc => if r.length = len then (xSession len ⟨some r, σ.pub, .made r⟩ l).map (.secret n r enc :: ·) else none
    | _ => none
  | .takeCt ct :: l =>
    match σ.pub with
    | .nothing => none
    | _ => if ct.length ≤ len then (xSession len ⟨σ.sk, σ.pub, .taken ct⟩ l).map (.done :: ·) else none
  | .decap n :: l =>
    match σ.sk, σ.pt with
    | some sk, .taken ct => (xSession len ⟨σ.sk, σ.pub, .opened sk ct⟩ l).map (.secret n sk ct :: ·)
    | _, .opened sk ct => (xSession len σ l).map (.secret n sk ct :: ·)
    | _, _ => none
  | .secretLength :: l =>
    match σ.sk, σ.pt with
    | some sk, .taken ct => (xSession len ⟨σ.sk, σ.pub, .opened sk ct⟩ l).map (.length :: ·)
    | _, .opened _ _ => (xSession len σ l).map (.length :: ·)
    | _, _ => none
  | .writeCt n :: l =>
    match σ.pt with
    | .taken ct => (xSession len σ l).map ((if n = len then .coordinate ct else .refused) :: ·)
    | .made r => (xSession len σ l).map ((if n = len then .ofBase r else .refused) :: ·)
    | _ => none
  | .writePublic n :: l =>
    match σ.pub with
    | .nothing => none
    | .own sk => (xSession len σ l).map ((if n = len then .ofBase sk else .refused) :: ·)
    | .peer enc => (xSession len σ l).map ((if n = len then .coordinate enc else .refused) :: ·)
  | .writePrivate n :: l =>
    match σ.sk with
    | none => none
    | some sk => (xSession len σ l).map ((if n = len then .scalar sk else .refused) :: ·)

/-- What the answers are: `A` is the coefficient of the curve, `decS` and `decU` the RFC's decoding of scalars and coordinates, `base`
the coordinate of the base point. -/
def XAnswer.Holds {q : Nat} [Fact q.Prime] (A : ZMod q) (decS decU : List (BitVec 8) → Nat) (base len : Nat) : XAnswer → XOut → Prop
  | .done, o => o = .done
  | .refused, o => o = .refused
  | .length, o => o = .length len
  | .secret n sk u, o => ∃ full : List (BitVec 8), full.length = len ∧ IsEncodedResult A (decS sk) (decU u : ZMod q) full ∧
      o = .octets ((full ++ List.replicate n 0).take n)
  | .ofBase sk, o => ∃ full : List (BitVec 8), full.length = len ∧ IsEncodedResult A (decS sk) (base : ZMod q) full ∧ o = .octets full
  | .coordinate u, o => ∃ full : List (BitVec 8), full.length = len ∧ leNat full = decU u ∧ o = .octets full
  | .scalar sk, o => ∃ full : List (BitVec 8), full.length = len ∧ leNat full = decS sk ∧ o = .octets full

end Spec
