import Verif.Lemmas.Gimli
import Verif.Props.Sponge

/-!
# C73: the Gimli permutation and the Gimli XOF
-/
namespace Props
open Spec (leNat spongeStream)

/-- C73: on every state of 48 octets the permutation is the one of the Gimli paper. -/
theorem C73_permutation (b : List (BitVec 8)) (h : b.length = 48) :
    (Gimli.permute b).length = 48 ∧ Spec.Gimli.state (Gimli.permute b) = Spec.Gimli.gimli (Spec.Gimli.state b) := Gimli.permute_spec b h

/-- C73: and it is a permutation: different states are mapped to different states. -/
theorem C73_injective (b c : List (BitVec 8)) (hb : b.length = 48) (hc : c.length = 48) (h : Gimli.permute b = Gimli.permute c) : b = c := by
  apply Gimli.state_injective b c hb hc
  apply Gimli.gimli_injective
  rw [← (Gimli.permute_spec b hb).2, ← (Gimli.permute_spec c hc).2, h]

/-- The test vector of the paper: words `i³ + i · 9e3779b9`. -/
example : Gimli.gimli ((List.range 12).map fun i => BitVec.ofNat 32 (i * i * i + i * 0x9e3779b9)) =
    [0xba11c85a#32, 0x91bad119#32, 0x380ce880#32, 0xd24c2c68#32, 0x3eceffea#32, 0x277a921c#32, 0x4f73a0bd#32, 0xda5a9cd8#32,
     0x84b673f0#32, 0x34e52ff7#32, 0x9e2bef49#32, 0xf41bb8d6#32] := by decide +kernel

/-- Reads and repeated finalisations (which rewind) of a finalised Gimli XOF. -/
def gimliRun : Sponge.Ctx → List XofOp → List (List (BitVec 8))
  | _, [] => []
  | x, .read n :: ops => (Gimli.xofRead x n).1 :: gimliRun (Gimli.xofRead x n).2 ops
  | x, .rewind :: ops => gimliRun (Gimli.xofFinal x) ops

theorem gimliRun_eq (ops : List XofOp) (x : Sponge.Ctx) : gimliRun x ops = xofRun Gimli.permute x ops := by
  induction ops generalizing x with
  | nil => rfl
  | cons op ops ih =>
    cases op with
    | read n => simp only [gimliRun, xofRun]; rw [ih]; rfl
    | rewind => simp only [gimliRun, xofRun]; rw [ih]; rfl

/-- C73: for every message in any pieces and every sequence of reads and rewinds, the outputs are the consecutive pieces of the one
stream of the sponge with rate 16 and capacity 32 octets, padding `1f .. 80`. -/
theorem C73_xof (ms : List (List (BitVec 8))) (ops : List XofOp) :
    gimliRun (Gimli.xofFinal (ms.foldl Gimli.xofWrite Gimli.xofInit)) ops =
      streamRun (spongeStream Gimli.permute 16 48 0x1f 0x80 ms.flatten) 0 ops := by
  rw [gimliRun_eq]
  exact sponge_stream Gimli.permute Gimli.xofInit (by decide) rfl rfl ms ops

set_option maxRecDepth 10000000 in
/-- Gimli-Hash of "There's plenty for the both of us, may the best Dwarf win." (published value), written in two pieces and read in two. -/
example : gimliRun (Gimli.xofFinal ([(
      [0x54, 0x68, 0x65, 0x72, 0x65, 0x27, 0x73, 0x20, 0x70, 0x6c, 0x65, 0x6e, 0x74, 0x79, 0x20, 0x66, 0x6f, 0x72, 0x20, 0x74] : List (BitVec 8)),
      [0x68, 0x65, 0x20, 0x62, 0x6f, 0x74, 0x68, 0x20, 0x6f, 0x66, 0x20, 0x75, 0x73, 0x2c, 0x20, 0x6d, 0x61, 0x79, 0x20, 0x74, 0x68, 0x65, 0x20,
       0x62, 0x65, 0x73, 0x74, 0x20, 0x44, 0x77, 0x61, 0x72, 0x66, 0x20, 0x77, 0x69, 0x6e, 0x2e]].foldl Gimli.xofWrite Gimli.xofInit))
      [.read 1, .read 31, .rewind, .read 4] =
    [[0x4a], [0xfb, 0x3f, 0xf7, 0x84, 0xc7, 0xad, 0x69, 0x43, 0xd4, 0x9c, 0xf5, 0xda, 0x79, 0xfa, 0xcf, 0xa7, 0xc4, 0x43, 0x4e, 0x1c, 0xe4,
      0x4f, 0x5d, 0xd4, 0xb2, 0x8f, 0x91, 0xa8, 0x4d, 0x22, 0xc8], [0x4a, 0xfb, 0x3f, 0xf7]] := by decide +kernel

end Props
