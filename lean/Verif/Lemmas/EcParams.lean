import Verif.Lemmas.EcCurveCheck
import Verif.Lemmas.EcPrimes

/-! The three short Weierstrass curves: prime field, prime order of the base point, no point of order
two (generated certificates). -/

namespace EcParam
open Spec

/-- Field prime. -/
abbrev q256 : Nat := 115792089210356248762697446949407573530086143415290314195533631308867097853951
/-- Order of the base point. -/
abbrev n256 : Nat := 115792089210356248762697446949407573529996955224135760342422259061068512044369
abbrev b256 : Nat := 41058363725152142129326129780047268409114441015993725554835256314039467401291
abbrev gx256 : Nat := 48439561293906451759052585252797914202762949526041747995844080717082404635286
abbrev gy256 : Nat := 36134250956749795798585127919587881956611106672985015071877198253568414405109

instance : Fact (Nat.Prime q256) := ⟨EcPrime.prime_115792089210356248762697446949407573530086143415290314195533631308867097853951⟩
instance : Fact (Nat.Prime n256) := ⟨EcPrime.prime_115792089210356248762697446949407573529996955224135760342422259061068512044369⟩

theorem noTwo256' : NoTwoTorsion ((115792089210356248762697446949407573530086143415290314195533631308867097853948 : Nat) : ZMod q256) ((b256 : Nat) : ZMod q256) :=
  EcCheck.noTwoTorsion_of_check (76626890310466861426869089647039036757962535851890885406097439786770458211455, 74462945259064871768191128030512052509059297803194871526163573358218695456204, 34768139465301476436978405170953382516735956999154666452188405812258086013549) (by decide +kernel)

theorem a256 : ((115792089210356248762697446949407573530086143415290314195533631308867097853948 : Nat) : ZMod q256) = -3 := by
  have : ((115792089210356248762697446949407573530086143415290314195533631308867097853948 + 3 : Nat) : ZMod q256) = 0 := ZMod.natCast_self q256
  push_cast at this
  linear_combination this

theorem noTwo256 : NoTwoTorsion (-3 : ZMod q256) ((b256 : Nat) : ZMod q256) := a256 ▸ noTwo256'

theorem two256 : (2 : ZMod q256) ≠ 0 := by
  have : ((2 : Nat) : ZMod q256) ≠ 0 := by
    rw [Ne, ZMod.natCast_eq_zero_iff]
    decide +kernel
  exact_mod_cast this

theorem order256 : ∃ hns : (shortW (-3 : ZMod q256) ((b256 : Nat) : ZMod q256)).Nonsingular (gx256 : ZMod q256) (gy256 : ZMod q256),
      n256 • (WeierstrassCurve.Affine.Point.some _ _ hns) = 0 := by
  have := EcCheck.order_of_check (p := q256) (a := 115792089210356248762697446949407573530086143415290314195533631308867097853948) (b := b256) (n := n256) (x := gx256) (y := gy256)
    two256 noTwo256' (by decide +kernel)
  rw [a256] at this
  exact this

/-- Field prime. -/
abbrev q384 : Nat := 39402006196394479212279040100143613805079739270465446667948293404245721771496870329047266088258938001861606973112319
/-- Order of the base point. -/
abbrev n384 : Nat := 39402006196394479212279040100143613805079739270465446667946905279627659399113263569398956308152294913554433653942643
abbrev b384 : Nat := 27580193559959705877849011840389048093056905856361568521428707301988689241309860865136260764883745107765439761230575
abbrev gx384 : Nat := 26247035095799689268623156744566981891852923491109213387815615900925518854738050089022388053975719786650872476732087
abbrev gy384 : Nat := 8325710961489029985546751289520108179287853048861315594709205902480503199884419224438643760392947333078086511627871

instance : Fact (Nat.Prime q384) := ⟨EcPrime.prime_39402006196394479212279040100143613805079739270465446667948293404245721771496870329047266088258938001861606973112319⟩
instance : Fact (Nat.Prime n384) := ⟨EcPrime.prime_39402006196394479212279040100143613805079739270465446667946905279627659399113263569398956308152294913554433653942643⟩

theorem noTwo384' : NoTwoTorsion ((39402006196394479212279040100143613805079739270465446667948293404245721771496870329047266088258938001861606973112316 : Nat) : ZMod q384) ((b384 : Nat) : ZMod q384) :=
  EcCheck.noTwoTorsion_of_check (23037766613497683937702734290281044719364893268180251583910224888989381657771069200037813904257325918671976092329602, 8235438212423615602427778915669574859600037698862346933589434399495169446996583974901273360826717582835190849638831, 12157362177932134139146813183752135342286725243554133716818896354380897714709611791313184492360272402950851405460538) (by decide +kernel)

theorem a384 : ((39402006196394479212279040100143613805079739270465446667948293404245721771496870329047266088258938001861606973112316 : Nat) : ZMod q384) = -3 := by
  have : ((39402006196394479212279040100143613805079739270465446667948293404245721771496870329047266088258938001861606973112316 + 3 : Nat) : ZMod q384) = 0 := ZMod.natCast_self q384
  push_cast at this
  linear_combination this

theorem noTwo384 : NoTwoTorsion (-3 : ZMod q384) ((b384 : Nat) : ZMod q384) := a384 ▸ noTwo384'

theorem two384 : (2 : ZMod q384) ≠ 0 := by
  have : ((2 : Nat) : ZMod q384) ≠ 0 := by
    rw [Ne, ZMod.natCast_eq_zero_iff]
    decide +kernel
  exact_mod_cast this

theorem order384 : ∃ hns : (shortW (-3 : ZMod q384) ((b384 : Nat) : ZMod q384)).Nonsingular (gx384 : ZMod q384) (gy384 : ZMod q384),
      n384 • (WeierstrassCurve.Affine.Point.some _ _ hns) = 0 := by
  have := EcCheck.order_of_check (p := q384) (a := 39402006196394479212279040100143613805079739270465446667948293404245721771496870329047266088258938001861606973112316) (b := b384) (n := n384) (x := gx384) (y := gy384)
    two384 noTwo384' (by decide +kernel)
  rw [a384] at this
  exact this

/-- Field prime. -/
abbrev qSM2 : Nat := 115792089210356248756420345214020892766250353991924191454421193933289684991999
/-- Order of the base point. -/
abbrev nSM2 : Nat := 115792089210356248756420345214020892766061623724957744567843809356293439045923
abbrev bSM2 : Nat := 18505919022281880113072981827955639221458448578012075254857346196103069175443
abbrev gxSM2 : Nat := 22963146547237050559479531362550074578802567295341616970375194840604139615431
abbrev gySM2 : Nat := 85132369209828568825618990617112496413088388631904505083283536607588877201568

instance : Fact (Nat.Prime qSM2) := ⟨EcPrime.prime_115792089210356248756420345214020892766250353991924191454421193933289684991999⟩
instance : Fact (Nat.Prime nSM2) := ⟨EcPrime.prime_115792089210356248756420345214020892766061623724957744567843809356293439045923⟩

theorem noTwoSM2' : NoTwoTorsion ((115792089210356248756420345214020892766250353991924191454421193933289684991996 : Nat) : ZMod qSM2) ((bSM2 : Nat) : ZMod qSM2) :=
  EcCheck.noTwoTorsion_of_check (106557179798172127300574136655860231618341984660982404479791742557385015191369, 84996361976986330174717689059298811725079258493181573729141059899368768071857, 35585630630933897022180037835235642085639273520660122098341330484096648951663) (by decide +kernel)

theorem aSM2 : ((115792089210356248756420345214020892766250353991924191454421193933289684991996 : Nat) : ZMod qSM2) = -3 := by
  have : ((115792089210356248756420345214020892766250353991924191454421193933289684991996 + 3 : Nat) : ZMod qSM2) = 0 := ZMod.natCast_self qSM2
  push_cast at this
  linear_combination this

theorem noTwoSM2 : NoTwoTorsion (-3 : ZMod qSM2) ((bSM2 : Nat) : ZMod qSM2) := aSM2 ▸ noTwoSM2'

theorem twoSM2 : (2 : ZMod qSM2) ≠ 0 := by
  have : ((2 : Nat) : ZMod qSM2) ≠ 0 := by
    rw [Ne, ZMod.natCast_eq_zero_iff]
    decide +kernel
  exact_mod_cast this

theorem orderSM2 : ∃ hns : (shortW (-3 : ZMod qSM2) ((bSM2 : Nat) : ZMod qSM2)).Nonsingular (gxSM2 : ZMod qSM2) (gySM2 : ZMod qSM2),
      nSM2 • (WeierstrassCurve.Affine.Point.some _ _ hns) = 0 := by
  have := EcCheck.order_of_check (p := qSM2) (a := 115792089210356248756420345214020892766250353991924191454421193933289684991996) (b := bSM2) (n := nSM2) (x := gxSM2) (y := gySM2)
    twoSM2 noTwoSM2' (by decide +kernel)
  rw [aSM2] at this
  exact this

end EcParam
