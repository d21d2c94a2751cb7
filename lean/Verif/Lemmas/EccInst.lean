import Verif.Lemmas.EccKey
import Verif.Props.Ec

/-! The three curves meet what the key and signature functions need. -/

namespace Ecc
open Vlong Ec Spec EcParam

theorem eccCurve256 : EccCurve secp256r1 11 q256 (-3) ((b256 : Nat) : ZMod q256) where
  toGoodCurve := good256
  zero := redZero256
  plen := by decide
  p4 := by decide +kernel
  plow := by decide +kernel
  pctx := by decide +kernel
  plt := by decide +kernel
  p2 := by decide +kernel
  top := by decide +kernel
  nlen := by decide
  nlow := by decide +kernel
  nprime := by rw [show val secp256r1.n = n256 by decide +kernel]; exact Fact.out
  nroom := by decide +kernel
  n2 := by decide +kernel
  np := by decide +kernel
  room := by decide
  base := by
    obtain ⟨G, h1, -, -, h4⟩ := Props.C40_base_point.1
    exact ⟨G, h1, h4⟩

theorem eccCurve384 : EccCurve secp384r1 15 q384 (-3) ((b384 : Nat) : ZMod q384) where
  toGoodCurve := good384
  zero := redZero384
  plen := by decide
  p4 := by decide +kernel
  plow := by decide +kernel
  pctx := by decide +kernel
  plt := by decide +kernel
  p2 := by decide +kernel
  top := by decide +kernel
  nlen := by decide
  nlow := by decide +kernel
  nprime := by rw [show val secp384r1.n = n384 by decide +kernel]; exact Fact.out
  nroom := by decide +kernel
  n2 := by decide +kernel
  np := by decide +kernel
  room := by decide
  base := by
    obtain ⟨G, h1, -, -, h4⟩ := Props.C40_base_point.2.1
    exact ⟨G, h1, h4⟩

theorem eccCurveSM2 : EccCurve curveSM2 11 qSM2 (-3) ((bSM2 : Nat) : ZMod qSM2) where
  toGoodCurve := goodSM2
  zero := redZeroSM2
  plen := by decide
  p4 := by decide +kernel
  plow := by decide +kernel
  pctx := by decide +kernel
  plt := by decide +kernel
  p2 := by decide +kernel
  top := by decide +kernel
  nlen := by decide
  nlow := by decide +kernel
  nprime := by rw [show val curveSM2.n = nSM2 by decide +kernel]; exact Fact.out
  nroom := by decide +kernel
  n2 := by decide +kernel
  np := by decide +kernel
  room := by decide
  base := by
    obtain ⟨G, h1, -, -, h4⟩ := Props.C40_base_point.2.2
    exact ⟨G, h1, h4⟩

end Ecc
