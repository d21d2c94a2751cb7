import Verif.Spec.National
import Verif.Model.Camellia
import Verif.Model.Seed
import Verif.Model.Aria

/-!
# The S-box tables of Camellia, SEED and ARIA are those of the algebraic definitions

Each is a statement about all 256 octets, evaluated by the kernel.
-/
namespace NatSbox

theorem cam_s1 : ∀ x : Fin 256, Spec.Camellia.s1 (BitVec.ofNat 8 x) = Camellia.sboxTable.getD x 0 := by decide +kernel
theorem seed_s1 : ∀ x : Fin 256, Spec.Seed.s1 (BitVec.ofNat 8 x) = Seed.s1Table.getD x 0 := by decide +kernel
theorem seed_s2 : ∀ x : Fin 256, Spec.Seed.s2 (BitVec.ofNat 8 x) = Seed.s2Table.getD x 0 := by decide +kernel
theorem aria_s1 : ∀ x : Fin 256, Spec.Aria.SB1 (BitVec.ofNat 8 x) = Aria.s1Table.getD x 0 := by decide +kernel
theorem aria_s2 : ∀ x : Fin 256, Spec.Aria.SB2 (BitVec.ofNat 8 x) = Aria.s2Table.getD x 0 := by decide +kernel

end NatSbox
