import Verif.Model.Query

/-!
# What announced numbers mean (specification)
-/
namespace Spec.Announce
open Query

/-- The meaning of `keyBytes` (`mysuitea-common.h:191-199`): a positive number is the only length accepted, `-1` means any length, a number below
`-4` means any length up to its absolute value; other numbers promise nothing. -/
def KeyOk (v : Int) (n : Nat) : Prop := if 0 < v then (n : Int) = v else if v = -1 then True else if v < -4 then (n : Int) ≤ -v else False

instance (v : Int) (n : Nat) : Decidable (KeyOk v n) := by unfold KeyOk; infer_instance

/-- An object within a block of memory. -/
structure Span where
  off : Nat
  len : Nat
  align : Nat

/-- The objects do not overlap, are aligned and lie within a block of `size` octets, which they fill. -/
def Fills (ss : List Span) (size : Nat) : Prop :=
  ss.Pairwise (fun a b => a.off + a.len ≤ b.off ∨ b.off + b.len ≤ a.off) ∧ (∀ s ∈ ss, s.off + s.len ≤ size ∧ s.off % s.align = 0) ∧
    (ss.map Span.len).sum = size

/-- The functions of a block cipher agree with the announced sizes: a schedule has `keyschedBytes` octets (as `wb`-octet words) and depends on
`keyBytes` octets of key only; enciphering and deciphering produce `blockBytes` octets and depend on `blockBytes` octets of input and
`keyschedBytes` octets of schedule only. -/
structure Sized {α : Type} (o : Obj) (wb : Nat) (ks : List (BitVec 8) → List α) (enc dec : List (BitVec 8) → List α → List (BitVec 8)) : Prop where
  sched : ∀ key, (key.length : Int) = o .keyBytes → ((wb * (ks key).length : Nat) : Int) = o .keyschedBytes
  keyOnly : ∀ key junk, (key.length : Int) = o .keyBytes → ks (key ++ junk) = ks key
  encLen : ∀ inp w, ((enc inp w).length : Int) = o .blockBytes
  encOnly : ∀ inp w j j', (inp.length : Int) = o .blockBytes → ((wb * w.length : Nat) : Int) = o .keyschedBytes → enc (inp ++ j) (w ++ j') = enc inp w
  decLen : ∀ inp w, ((dec inp w).length : Int) = o .blockBytes
  decOnly : ∀ inp w j j', (inp.length : Int) = o .blockBytes → ((wb * w.length : Nat) : Int) = o .keyschedBytes → dec (inp ++ j) (w ++ j') = dec inp w

/-- The functions of a hash object agree with what it announces: asked for `outBytes` octets it gives the digest, HMAC over it uses the announced
block and output sizes, for which the arrays of `hmac_t` suffice, and accepts the keys that the HMAC object announces. -/
structure HashSized {σ : Type} (o : Obj) (O : Mac.HashOps σ) (H : List (BitVec 8) → List (BitVec 8)) (ok : σ → Prop) : Prop where
  len : ∀ m, ((H m).length : Int) = o .outBytes
  digest : ∀ s, ok s → ∀ ms : List (List (BitVec 8)), ms.flatten.length < 2 ^ 61 →
    (O.hFinal (ms.foldl O.hUpdate (O.hInit s)) (o .outBytes).toNat).1 = H ms.flatten
  block : (O.B : Int) = o .blockBytes
  sizes : O.B = (HMAC_INIT o).B ∧ O.L = (HMAC_INIT o).L ∧ O.B ≤ (hmacT.map Field.size).getD 0 0 ∧ O.L ≤ (hmacT.map Field.size).getD 1 0
  keys : ∀ aux key, (Mac.hmacStart O aux key).isSome = true ↔ KeyOk (cHMAC o .keyBytes) key.length
  prfKey : KeyOk (cHMAC o .keyBytes) (HMAC_DRBG_INIT (cHMAC o)).prf_outlen

end Spec.Announce
