import Verif.Spec.EdDsa
import Verif.Spec.Sha
import Verif.Spec.Keccak

/-!
# EdDSA with its hash functions (RFC 8032, sections 5.1 and 5.2)

The field, the curve and the base point `B` are given where these are used.  `f` is the flag octet (1 for the pre-hashed variants), `ctx` the context string.
-/

namespace Spec

/-- `L = 2^252 + 27742317777372353535851937790883648493`. -/
def L25519 : Nat := 2 ^ 252 + 27742317777372353535851937790883648493
/-- `L = 2^446 - 13818066809895115352007386748515426880336692474882178609894547503885`. -/
def L448 : Nat := 2 ^ 446 - 13818066809895115352007386748515426880336692474882178609894547503885

section
variable {p : Nat} [Fact p.Prime] {a d : ZMod p} [EdComplete a d] (B : EdPoint a d)

/-- The public key (section 5.1.5). -/
noncomputable def ed25519Public (sk : List (BitVec 8)) : List (BitVec 8) := edEncode 32 (edScalar 32 (Sha.sha512 sk) • B)

/-- The signature (section 5.1.6): Ed25519 with `f = 0` and no context, Ed25519ctx with `f = 0` and a context, Ed25519ph with `f = 1` and the SHA-512 of the message. -/
noncomputable def ed25519Sign (f : BitVec 8) (ctx sk msg : List (BitVec 8)) : List (BitVec 8) :=
  edSign 32 L25519 B Sha.sha512 (edDom 32 f ctx) ((Sha.sha512 sk).drop 32) (ed25519Public B sk) (edScalar 32 (Sha.sha512 sk)) msg

/-- The public key (section 5.2.5); `S m t` are `t` octets of SHAKE256. -/
noncomputable def ed448Public (S : List (BitVec 8) → Nat → List (BitVec 8)) (sk : List (BitVec 8)) : List (BitVec 8) := edEncode 57 (edScalar 57 (S sk 114) • B)

/-- The signature (section 5.2.6). -/
noncomputable def ed448Sign (S : List (BitVec 8) → Nat → List (BitVec 8)) (f : BitVec 8) (ctx sk msg : List (BitVec 8)) : List (BitVec 8) :=
  edSign 57 L448 B (fun m => S m 114) (edDom 57 f ctx) ((S sk 114).drop 57) (ed448Public B S sk) (edScalar 57 (S sk 114)) msg
end

/-- The curve edwards25519 and its base point (section 5.1). -/
def IsEd25519 {q : Nat} {a d : ZMod q} [Fact q.Prime] (B : EdPoint a d) : Prop :=
  q = 2 ^ 255 - 19 ∧ a = -1 ∧ 121666 * d = -121665 ∧ 5 * B.y = 4 ∧ B.x.val % 2 = 0

/-- The curve edwards448 and its base point (section 5.2). -/
def IsEd448 {q : Nat} {a d : ZMod q} [Fact q.Prime] (B : EdPoint a d) : Prop :=
  q = 2 ^ 448 - 2 ^ 224 - 1 ∧ a = 1 ∧ d = -39081 ∧
  B.x.val = 224580040295924300187604334099896036246789641632564134246125461686950415467406032909029192869357953282578032075146446173674602635247710 ∧
  B.y.val = 298819210078481492676017930443930673437544040154080242095928241372331506189835876003536878655418784733982303233503462500531545062832660

/-- `S m t` are the first `t` octets of SHAKE256 of `m`, as FIPS 202 defines it on bit strings. -/
def IsShake256 (S : List (BitVec 8) → Nat → List (BitVec 8)) : Prop := ∀ m t, Keccak.bits (S m t) = Keccak.shake256 (Keccak.bits m) (8 * t)

end Spec
