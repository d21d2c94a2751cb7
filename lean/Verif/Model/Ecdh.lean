import Verif.Model.Ecc

/-!
# Model of `src/3-sec1/ecdh-kem.c`

Word counts as in `Verif.Model.Ecc`.  The shared secret is stored as octets over the words of a number
(`vlong_I2OSP(_, (void *)vl->v, plen)`); the layout of words in memory is that of a little-endian machine.
-/

namespace Ecc
open Vlong Ec

/-- The octets of the words of a number in memory. -/
def octetsOf (v : List W) : List Byte :=
  v.flatMap fun w => [w.extractLsb' 0 8, w.extractLsb' 8 8, w.extractLsb' 16 8, w.extractLsb' 24 8]

/-- The words that octets in memory make up. -/
def wordsOf : List Byte → List W
  | b0 :: b1 :: b2 :: b3 :: l => 
    BitVec.ofNat 32 (b0.toNat + 256 * b1.toNat + 65536 * b2.toNat + 16777216 * b3.toNat) :: wordsOf l
  | _ => []

/-- `vlong_I2OSP(r, (void *)vl->v, plen)`, `ecdh-kem.c:146-147`, `:222-223`, on the words `v`: the first `plen` octets are
replaced. -/
def saveOctets (v r : List W) (plen : Nat) : List W :=
  wordsOf (i2osp r plen ++ (octetsOf v).drop plen)

/-- What the two functions return through `ss`: NULL, the octets written, or `outside`: octets outside the words of the
number that holds the secret were read. -/
inductive KemOut where
  | null
  | secret (ss : List Byte)
  | outside
deriving DecidableEq

/-- The two loops of `ecdh-kem.c:149-153`, `:225-229` for a buffer of `sslen` octets. -/
def copyOut (v : List W) (sslen : Nat) : KemOut :=
  if sslen ≤ 4 * v.length then .secret ((octetsOf v).take sslen) else .outside

/-- The loop of `ECDH_KEM_Enc`, `ecdh-kem.c:103-127`: the first acceptable scalar among the draws `i .. i + fuel - 1` of
`plen` octets, and its product with `Q`.  (`break` or `return` follows the multiplication in every case.) -/
def encLoop (C : Curve) (c : Nat) (Q : Xyz) (rng : Nat → List Byte) : (fuel i : Nat) → Option (List W × Xyz)
  | 0, _ => none
  | f + 1, i =>
    let k := candidate C c (rng i)
    if scalarOk C k then some (k, scaleAccumulate C c (xyzInf c) Q k) else encLoop C c Q rng f (i + 1)

/-- `ECDH_KEM_Enc`, `ecdh-kem.c:71-163`, with a buffer; `none`: none of the first `fuel` draws is acceptable (the C loop
goes on). -/
def ecdhEnc (C : Curve) (c : Nat) (x : Ctx) (sslen : Nat) (rng : Nat → List Byte) (fuel : Nat) : Option (Ctx × KemOut) :=
  match encLoop C c x.Q rng fuel 0 with
  | none => none
  | some (k, R) =>
    if !nonzero R.z then some ({ x with status := -1, k, R }, .null) else
    let w := invModP C c R.z
    let r := mulM C.aux c w R.x 1
    let d := saveOctets x.d r C.plen
    let R := canonPubkey C c (scaleAccumulate C c (xyzInf c) C.G k)
    some ({ x with d, k, R, r }, copyOut d sslen)

/-- `ECDH_KEM_Dec`, `ecdh-kem.c:169-234`, with a buffer.  `Tmp1` is passed both as the base and as the first temporary:
the copy at the start of the scaling is then from an object to itself. -/
def ecdhDec (C : Curve) (c : Nat) (x : Ctx) (sslen : Nat) : Ctx × KemOut :=
  let R := scaleAccumulate C c (xyzInf c) (xyzCopy c x.R) x.d
  if !nonzero R.z then ({ x with status := -1, R }, .null) else
  let w := invModP C c R.z
  let r := mulM C.aux c w R.x 1
  let k := saveOctets x.k r C.plen
  ({ x with k, R, r, status := (C.plen : Int) }, copyOut k sslen)

/-- `ECDH_KEM_Encode_Ciphertext`, `ecdh-kem.c:240-253`, with a buffer; `none` is NULL. -/
def ecdhEncodeCiphertext (C : Curve) (x : Ctx) (ctlen : Nat) : Option (List Byte) := pointEncode C x.R ctlen

/-- `ECDH_KEM_Decode_Ciphertext`, `ecdh-kem.c:259-280`: the context and whether the return is not NULL.  On failure the
words of `R` are whatever the attempt left there; the model leaves the old ones.  `none`: read outside the input. -/
def ecdhDecodeCiphertext (C : Curve) (c : Nat) (x : Ctx) (ct : List Byte) : Option (Ctx × Bool) :=
  match pointDecodeAlias C c ct with
  | none => none
  | some none => some ({ x with status := 0 }, false)
  | some (some R) => some ({ x with status := 0, R }, true)

end Ecc
