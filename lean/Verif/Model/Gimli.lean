import Verif.Model.Sponge

/-!
# Model of `src/1-symm/gimli.c` and `src/2-xof/gimli-xof.c`
-/
namespace Gimli
abbrev W := BitVec 32
abbrev Byte := BitVec 8

/-- `rotate`, `gimli.c:9-13`. -/
def rotate (x : W) (bits : Nat) : W := if bits = 0 then x else x <<< bits ||| x >>> (32 - bits)

/-- The body of the loop over the columns, `gimli.c:27-33`. -/
def column (s : List W) (c : Nat) : List W :=
  let x := rotate (s.getD c 0) 24
  let y := rotate (s.getD (4 + c) 0) 9
  let z := s.getD (8 + c) 0
  let s := s.set (8 + c) (x ^^^ z <<< 1 ^^^ (y &&& z) <<< 2)
  let s := s.set (4 + c) (y ^^^ x ^^^ (x ||| z) <<< 1)
  s.set c (z ^^^ y ^^^ (x &&& y) <<< 3)

/-- `x = state[i]; state[i] = state[j]; state[j] = x;`, `gimli.c:37-39` and so on. -/
def swap (s : List W) (i j : Nat) : List W := (s.set i (s.getD j 0)).set j (s.getD i 0)

/-- The body of the loop over the rounds, `gimli.c:25-55`. -/
def round (s : List W) (r : Nat) : List W :=
  let s := (List.range 4).foldl column s
  let s := if r &&& 3 = 0 then swap (swap s 0 1) 2 3 else s
  let s := if r &&& 3 = 2 then swap (swap s 0 2) 1 3 else s
  if r &&& 3 = 0 then s.set 0 (s.getD 0 0 ^^^ BitVec.ofNat 32 (0x9e377900 ||| r)) else s

/-- `gimli`, `gimli.c:15-57`: the rounds 24, 23, .., 1. -/
def gimli (s : List W) : List W := (List.range 24).foldl (fun s i => round s (24 - i)) s

/-- `le32toh(((const uint32_t *)in)[i])`. -/
def ld (b : List Byte) (i : Nat) : W :=
  (b.getD (4 * i + 3) 0 ++ b.getD (4 * i + 2) 0 ++ b.getD (4 * i + 1) 0 ++ b.getD (4 * i) 0 : BitVec (8 + 8 + 8 + 8))
/-- The octets stored by `((uint32_t *)out)[i] = htole32(w)`. -/
def st (w : W) : List Byte := [w.extractLsb' 0 8, w.extractLsb' 8 8, w.extractLsb' 16 8, w.extractLsb' 24 8]

/-- `Gimli_Permute`, `gimli.c:59-70`. -/
def permute (b : List Byte) : List Byte := (gimli ((List.range 12).map (ld b))).flatMap st

/-- `Gimli_XOF_Init`, `gimli-xof.c:6-12`, with `BLOCK_BYTES(xGimli)` of `gimli.h:14`. -/
def xofInit : Sponge.Ctx := Sponge.init 16 0x1f 0x80 48
/-- `Gimli_XOF_Write`, `gimli-xof.c:14-20`. -/
def xofWrite (x : Sponge.Ctx) (data : List Byte) : Sponge.Ctx := Sponge.update permute x data
/-- `Gimli_XOF_Final`, `gimli-xof.c:22-32`. -/
def xofFinal (x : Sponge.Ctx) : Sponge.Ctx :=
  if x.finalized then Sponge.restore x else Sponge.save (Sponge.final permute x)
/-- `Gimli_XOF_Read`, `gimli-xof.c:34-37`. -/
def xofRead (x : Sponge.Ctx) (len : Nat) : List Byte × Sponge.Ctx := Sponge.read permute x len

end Gimli
