import Verif.Spec.Mem

/-!
# Model of `src/2-encryption/ccm.c`

Input and output areas live in a byte-addressed memory; `iv`, `aad`, `T` are separate byte strings.  The main loops reuse
`i` for an inner loop, so they are modelled as a step function on the complete loop state, run for a given number of
iterations; `running` means that the loop condition still holds after that many iterations.
-/
namespace Ccm
abbrev Byte := BitVec 8
abbrev Mem := Spec.Mem

variable (enc : List Byte → List Byte)

def zeros : List Byte := List.replicate 16 0

/-- `for(i=0; i<ivlen; i++) X[i+1] = iv[i];`, `ccm.c:44-47`, `:57-60`. -/
def putIv (X iv : List Byte) : List Byte := (List.range iv.length).foldl (fun X i => X.set (i + 1) (iv.getD i 0)) X

/-- `Ctr`, `ccm.c:40-47` (`:205-212`). -/
def ctrInit (iv : List Byte) : List Byte := putIv ((zeros.set 0 (BitVec.ofNat 8 (15 - iv.length - 1))).set 15 1#8) iv

/-- `B_0`, `ccm.c:54-67` (`:219-232`). -/
def b0 (iv : List Byte) (alen len tlen : Nat) : List Byte :=
  let q := 15 - iv.length
  let B := zeros.set 0 (BitVec.ofNat 8 (((if alen ≠ 0 then 1 else 0) <<< 6) ||| ((tlen - 2) / 2) <<< 3 ||| (q - 1)))
  let B := putIv B iv
  (List.range q).foldl (fun B i => B.set (i + 1 + iv.length) (BitVec.ofNat 8 (len >>> ((q - (i + 1)) * 8)))) B

/-- The encoding of `alen` at the start of `B` and the number of bytes used, `ccm.c:76-113` (`:241-278`). -/
def aadHead (alen : Nat) : List Byte × Nat :=
  let by8 (k : Nat) : Byte := BitVec.ofNat 8 (alen >>> k)
  if alen = 0 then (zeros, 0)
  else if alen < 0xFF00 then ((zeros.set 0 (by8 8)).set 1 (by8 0), 2)
  else if alen ≤ 0xFFFFFFFF then
    ((((((zeros.set 0 0xFF#8).set 1 0xFE#8).set 2 (by8 24)).set 3 (by8 16)).set 4 (by8 8)).set 5 (by8 0), 6)
  else
    ((((((((((zeros.set 0 0xFF#8).set 1 0xFF#8).set 2 (by8 56)).set 3 (by8 48)).set 4 (by8 40)).set 5 (by8 32)).set 6 (by8 24)).set 7 (by8 16)).set 8
      (by8 8)).set 9 (by8 0), 10)

/-- The body of the loop over the associated data, `ccm.c:117-127` (`:282-292`); the state is `(B, Y, j)`. -/
def aadStep (s : List Byte × List Byte × Nat) (b : Byte) : List Byte × List Byte × Nat :=
  let (B, Y, j) := s
  let B := B.set j b
  let j := j + 1
  if j ≥ 16 then
    let B := List.zipWith (· ^^^ ·) B Y
    (zeros, enc B, 0)
  else (B, Y, j)

/-- `ccm.c:54-135` (`:219-300`): `Y` after the associated data. -/
def prelude (iv aad : List Byte) (len tlen : Nat) : List Byte :=
  let Y := enc (b0 iv aad.length len tlen)
  let (B, j) := aadHead aad.length
  let (B, Y, j) := aad.foldl (aadStep enc) (B, Y, j)
  if j ≠ 0 then enc (List.zipWith (· ^^^ ·) B Y) else Y

/-- `for(j=16; --j>ivlen; ) if( ++Ctr[j] ) break;`, `ccm.c:150-152`; `bump ivlen 15`. -/
def bump (ivlen : Nat) : Nat → List Byte → List Byte
  | 0, Ctr => Ctr
  | j + 1, Ctr =>
    if j + 1 > ivlen then
      let v := Ctr.getD (j + 1) 0 + 1#8
      let Ctr := Ctr.set (j + 1) v
      if v ≠ 0#8 then Ctr else bump ivlen j Ctr
    else Ctr

/-- The variables of the main loop. -/
structure St where
  i : Nat
  j : Nat
  B : List Byte
  Y : List Byte
  Ctr : List Byte
  S : List Byte
  mem : Mem

/-- The part of the loop body executed when a block is full, `ccm.c:145-157` (`:310-322`): note that `i` is the
index of the inner loop and is 16 afterwards. -/
def fullBlock (ivlen : Nat) (s : St) : St :=
  let B := List.zipWith (· ^^^ ·) s.B s.Y
  let Y := enc B
  let Ctr := bump ivlen 15 s.Ctr
  { i := 16, j := 0, B := zeros, Y, Ctr, S := enc Ctr, mem := s.mem }

/-- The loop body of `CCM_Encrypt`, `ccm.c:140-158`. -/
def encStep (ivlen inp out : Nat) (s : St) : St :=
  let b := s.mem (inp + s.i)
  let s := { s with B := s.B.set s.j b, mem := Spec.poke s.mem (out + s.i) (b ^^^ s.S.getD s.j 0), i := s.i + 1, j := s.j + 1 }
  if s.j ≥ 16 then fullBlock enc ivlen s else s

/-- The loop body of `CCM_Decrypt`, `ccm.c:305-323`. -/
def decStep (ivlen inp : Nat) (s : St) : St :=
  let s := { s with B := s.B.set s.j (s.mem (inp + s.i) ^^^ s.S.getD s.j 0), i := s.i + 1, j := s.j + 1 }
  if s.j ≥ 16 then fullBlock enc ivlen s else s

/-- `for(i=0; i<len; ) body`: `none` if the loop is still running after `fuel` iterations. -/
def loop (step : St → St) (len : Nat) : Nat → St → Option St
  | 0, s => if s.i < len then none else some s
  | fuel + 1, s => if s.i < len then loop step len fuel (step s) else some s

/-- `for(j=16; --j>ivlen; ) Ctr[j] = 0;`, `ccm.c:168` (`:333`). -/
def clearCtr (ivlen : Nat) (Ctr : List Byte) : List Byte := (List.range (15 - ivlen)).foldl (fun C k => C.set (15 - k) 0#8) Ctr

/-- `ccm.c:160-169` (`:325-334`): the final `Y`, `S_0`. -/
def finish (ivlen : Nat) (s : St) : List Byte × List Byte :=
  let Y := if s.j ≠ 0 then enc (List.zipWith (· ^^^ ·) s.B s.Y) else s.Y
  (Y, enc (clearCtr ivlen s.Ctr))

/-- What a call does within a number of loop iterations. -/
inductive Res (α : Type)
  | refused
  | running
  | done (r : α)

/-- The parameter checks, `ccm.c:26-33` (`:191-198`); `len` is a 64-bit `size_t`. -/
def bad (ivlen len tlen : Nat) : Prop :=
  (ivlen < 7 ∨ ivlen > 13) ∨ (tlen < 4 ∨ tlen > 16 ∨ tlen % 2 = 1) ∨ ((15 - ivlen) * 8 < 64 ∧ len ≥ 2 ^ ((15 - ivlen) * 8))

instance (ivlen len tlen : Nat) : Decidable (bad ivlen len tlen) := by unfold bad; infer_instance

/-- The state at the start of the main loop. -/
def start (iv aad : List Byte) (len tlen : Nat) (mem : Mem) : St :=
  { i := 0, j := 0, B := zeros, Y := prelude enc iv aad len tlen, Ctr := ctrInit iv, S := enc (ctrInit iv), mem := mem }

/-- `CCM_Encrypt`, `ccm.c:12-173`: new memory and tag. -/
def encrypt (iv aad : List Byte) (len inp out tlen : Nat) (mem : Mem) (fuel : Nat) : Res (Mem × List Byte) :=
  if bad iv.length len tlen then .refused
  else
    match loop (encStep enc iv.length inp out) len fuel (start enc iv aad len tlen mem) with
    | none => .running
    | some s =>
      let (Y, S) := finish enc iv.length s
      .done (s.mem, (List.range tlen).map fun j => Y.getD j 0 ^^^ S.getD j 0)

/-- The final loop of `CCM_Decrypt`, `ccm.c:348-362`. -/
def ctrLoop (ivlen len inp out i j : Nat) (Ctr S : List Byte) (mem : Mem) : Mem :=
  if i < len then
    let mem := Spec.poke mem (out + i) (mem (inp + i) ^^^ S.getD j 0)
    if j + 1 ≥ 16 then
      let Ctr := bump ivlen 15 Ctr
      ctrLoop ivlen len inp out (i + 1) 0 Ctr (enc Ctr) mem
    else ctrLoop ivlen len inp out (i + 1) (j + 1) Ctr S mem
  else mem
termination_by len - i

/-- `CCM_Decrypt`, `ccm.c:175-366`: acceptance and the new memory. -/
def decrypt (iv aad : List Byte) (len inp out : Nat) (T : List Byte) (mem : Mem) (fuel : Nat) : Res (Bool × Mem) :=
  if bad iv.length len T.length then .refused
  else
    match loop (decStep enc iv.length inp) len fuel (start enc iv aad len T.length mem) with
    | none => .running
    | some s =>
      let (Y, S) := finish enc iv.length s
      let tcmp := (List.range T.length).foldl (fun (t : BitVec 16) j => t ||| (T.getD j 0 ^^^ Y.getD j 0 ^^^ S.getD j 0).setWidth 16) 0#16
      if (tcmp.setWidth 32 - 1#32).sshiftRight 15 = 0#32 then .done (false, mem)
      else
        let Ctr := (clearCtr iv.length s.Ctr).set 15 1#8
        let Ctr := (List.range (14 - iv.length)).foldl (fun C k => C.set (14 - k) 0#8) Ctr
        .done (true, ctrLoop enc iv.length len inp out 0 0 Ctr (enc Ctr) s.mem)

end Ccm
