import Verif.Spec.Words

/-!
# Specification: the Gimli permutation

Bernstein and others, "Gimli: a cross-platform permutation", section 2: a state is a 3 x 4 matrix of 32-bit words.
-/
namespace Spec.Gimli

abbrev State := Fin 3 → Fin 4 → BitVec 32

/-- The non-linear layer: all columns at once. -/
def sp (s : State) : State := fun i j =>
  let x := (s 0 j).rotateLeft 24
  let y := (s 1 j).rotateLeft 9
  let z := s 2 j
  if i = 2 then x ^^^ z <<< 1 ^^^ (y &&& z) <<< 2
  else if i = 1 then y ^^^ x ^^^ (x ||| z) <<< 1
  else z ^^^ y ^^^ (x &&& y) <<< 3

/-- The linear layer: in every fourth round the words of the first row are exchanged pairwise, and two rounds later its halves. -/
def mix (r : Nat) (s : State) : State := fun i j =>
  if i = 0 then
    if r % 4 = 0 then s 0 (match j with | 0 => 1 | 1 => 0 | 2 => 3 | 3 => 2)
    else if r % 4 = 2 then s 0 (match j with | 0 => 2 | 1 => 3 | 2 => 0 | 3 => 1)
    else s 0 j
  else s i j

/-- The constant of every fourth round. -/
def addConst (r : Nat) (s : State) : State := fun i j =>
  if i = 0 ∧ j = 0 ∧ r % 4 = 0 then s 0 0 ^^^ (0x9e377900#32 ^^^ BitVec.ofNat 32 r) else s i j

def round (r : Nat) (s : State) : State := addConst r (mix r (sp s))

/-- Rounds `n`, `n - 1`, .., 1. -/
def rounds : Nat → State → State
  | 0, s => s
  | n + 1, s => rounds n (round (n + 1) s)

def gimli (s : State) : State := rounds 24 s

/-- The state held by 48 octets: words row by row, least significant octet first. -/
def state (b : List (BitVec 8)) : State := fun i j => BitVec.ofNat 32 (leNat ((b.drop (4 * (4 * i.val + j.val))).take 4))

end Spec.Gimli
