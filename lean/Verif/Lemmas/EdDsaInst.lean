import Verif.Lemmas.EdDsa
import Verif.Props.EcEd

/-! The two instances of EdDSA. -/

namespace EdDsa
open Vlong Ec Spec EdParam

theorem sigOk25519 : SigOk ed25519 11 qEd25519 ((aEd25519 : Nat) : ZMod qEd25519) ((dEd25519 : Nat) : ZMod qEd25519) where
  ok := edOkEd25519
  zero := fun l _ _ => remv25519_zero l
  pw := by decide +kernel
  plt := by decide +kernel
  pgt := by decide +kernel
  plow := by decide +kernel
  room := by decide +kernel
  Lprime := by
    have hn : val ed25519.L = LEd25519 := by decide +kernel
    rw [hn]
    exact EcPrime.prime_7237005577332262213973186563042994240857116359379907606001950938285454250989
  L2 := by decide +kernel
  Llen := by decide +kernel
  Lw := by decide +kernel
  Lroom := by decide +kernel
  Lp := by decide +kernel
  half := by decide +kernel
  kind := by
    refine Or.inl ⟨by decide +kernel, by decide +kernel, by decide +kernel, Props.C40_ed_curves.1.2.2.2.1, ?_⟩
    have h : val po2_25519 ^ 2 + 1 ≡ 0 [MOD qEd25519] := by show _ % _ = _ % _; decide +kernel
    have h2 := (ZMod.natCast_eq_natCast_iff _ _ _).mpr h
    rw [Nat.cast_add, Nat.cast_pow, Nat.cast_one, Nat.cast_zero] at h2
    exact eq_neg_of_add_eq_zero_left h2

theorem sigOk448 : SigOk ed448 17 qEd448 ((aEd448 : Nat) : ZMod qEd448) ((dEd448 : Nat) : ZMod qEd448) where
  ok := edOkEd448
  zero := fun l _ _ => remv448_zero l
  pw := by decide +kernel
  plt := by decide +kernel
  pgt := by decide +kernel
  plow := by decide +kernel
  room := by decide +kernel
  Lprime := by
    have hn : val ed448.L = LEd448 := by decide +kernel
    rw [hn]
    exact EcPrime.prime_181709681073901722637330951972001133588410340171829515070372549795146003961539585716195755291692375963310293709091662304773755859649779
  L2 := by decide +kernel
  Llen := by decide +kernel
  Lw := by decide +kernel
  Lroom := by decide +kernel
  Lp := by decide +kernel
  half := by decide +kernel
  kind := Or.inr ⟨by decide +kernel, by decide +kernel, by decide +kernel, by decide +kernel, Props.C40_ed_curves.2.2.2.2.1⟩

end EdDsa
