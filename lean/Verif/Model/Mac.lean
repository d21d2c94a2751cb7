import Verif.Spec.Words

/-!
# Model of `src/2-mac/hmac.c`, `src/2-mac/cmac.c` and `src/2-prng/hmac-drbg.c`
-/

namespace Mac
abbrev Byte := BitVec 8

/-- The members of `hmac_t` set by `HMAC_INIT(hash)`, `hmac.h:32-43`: an incremental hash.  `hInit` works on
whatever the memory held. -/
structure HashOps (σ : Type) where
  B : Nat
  L : Nat
  hInit : σ → σ
  hUpdate : σ → List Byte → σ
  hFinal : σ → Nat → List Byte × σ     -- `hFinal(aux, NULL, 0)` writes nothing: length 0

/-- `hmac_t`, `hmac.h:11-22`, with the hash context that follows it. -/
structure Hmac (σ : Type) where
  K0 : List Byte        -- 256 bytes
  tag : List Byte       -- 64 bytes
  finalized : Bool
  aux : σ

section
variable {σ : Type} (O : HashOps σ)

/-- `HMAC_INIT(hash)`, `hmac.h:32-43`, over the memory `aux` of the hash context. -/
def hmacInit (aux : σ) : Hmac σ := { K0 := List.replicate 256 0, tag := List.replicate 64 0, finalized := false, aux }

/-- `for(i=0; i<B; i++) K0[i] ^= pad;` -/
def xorPad (K0 : List Byte) (n : Nat) (pad : Byte) : List Byte := K0.mapIdx fun i b => if i < n then b ^^^ pad else b

/-- `HMAC_SetKey`, `hmac.c:9-37`; `none` is the NULL return. -/
def hmacSetKey (h : Hmac σ) (key : List Byte) : Option (Hmac σ) :=
  if key.length ≤ O.B then
    let K0 := key ++ (List.replicate 256 (0 : Byte)).drop key.length
    let aux := O.hInit h.aux
    let K0 := xorPad K0 O.B 0x36
    let aux := O.hUpdate aux (K0.take O.B)
    let K0 := xorPad K0 O.B 0x36
    some { h with K0 := K0, tag := List.replicate 64 0, aux := aux }
  else none

/-- `HMAC_Update`, `hmac.c:39-42`. -/
def hmacUpdate (h : Hmac σ) (data : List Byte) : Hmac σ := { h with aux := O.hUpdate h.aux data }

/-- `HMAC_Final`, `hmac.c:44-67`. -/
def hmacFinal (h : Hmac σ) (t : Nat) : List Byte × Hmac σ :=
  let h :=
    if h.finalized then h
    else
      let (out, aux) := O.hFinal h.aux O.L
      let tag := out ++ h.tag.drop O.L
      let aux := O.hInit aux
      let K0 := xorPad h.K0 O.B 0x5c
      let aux := O.hUpdate aux (K0.take O.B)
      let K0 := K0.mapIdx fun i b => if i < O.B then 0 else b
      let aux := O.hUpdate aux (tag.take O.L)
      let (_, aux) := O.hFinal aux 0
      { K0 := K0, tag := tag, finalized := true, aux := aux }
  let (out, aux) := O.hFinal h.aux t
  (out, { h with aux := aux })

/-- `HMAC_*_Init(x, key, keylen)`, `hmac.c.h:3-15`. -/
def hmacStart (aux : σ) (key : List Byte) : Option (Hmac σ) := hmacSetKey O (hmacInit aux) key
end

/-! ### CMAC -/

/-- `cmac_t`, `cmac.h:16-36`.  `flags` is a `uint8_t`. -/
structure Cmac where
  T : List Byte
  K1 : List Byte
  K2 : List Byte
  filled : Nat
  flags : Byte

variable (enc : List Byte → List Byte)

/-- The doubling loops, `cmac.c:24-27` and `:30-33`: in place, ascending. -/
def cmacDouble (K : List Byte) : List Byte :=
  let b : Byte := K.getD 0 0 >>> 7
  let K := (List.range 15).foldl (fun (K : List Byte) j => K.set j ((K.getD j 0 <<< 1) ||| (K.getD (j + 1) 0 >>> 7))) K
  K.set 15 ((K.getD 15 0 <<< 1) ^^^ (0x87#8 &&& (0#8 - b)))

/-- `CMAC_SetKey`, `cmac.c:8-40`, after the key schedule; `enc` is `cmac->enc(.., aux)`; `keylen` is checked
against `flags & 077`. -/
def cmacSetKey (c : Cmac) (keylen : Nat) : Option Cmac :=
  if keylen ≠ (c.flags &&& 0x3f#8).toNat then none
  else
    let K1 := enc (List.replicate 16 0)
    let K1 := cmacDouble K1
    let K2 := cmacDouble K1
    some { T := List.replicate 16 0, K1, K2, filled := 0, flags := c.flags &&& 0xff#8 }

/-- `CMAC_INIT(bc)`, `cmac.h:40-49`. -/
def cmacInit (keyBytes : Nat) : Cmac :=
  { T := List.replicate 16 0, K1 := List.replicate 16 0, K2 := List.replicate 16 0, filled := 0,
    flags := BitVec.ofNat 8 keyBytes &&& 0x3f#8 }

/-- The `while( len )` loop of `CMAC_Update`, `cmac.c:53-63`. -/
def cmacLoop : Cmac → List Byte → Cmac
  | c, [] => c
  | c, b :: ds =>
    let c := { c with T := c.T.modify c.filled (· ^^^ b), filled := c.filled + 1 }
    let c := if c.filled ≥ 16 ∧ ds.length ≠ 0 then { c with T := enc c.T, filled := 0 } else c
    cmacLoop c ds

/-- `CMAC_Update`, `cmac.c:42-64`. -/
def cmacUpdate (c : Cmac) (data : List Byte) : Cmac :=
  let c := if c.filled ≥ 16 ∧ data.length ≠ 0 then { c with T := enc c.T, filled := 0 } else c
  cmacLoop enc c data

/-- `CMAC_Final`, `cmac.c:66-95`.  The test `flags & 0400` and the assignment `flags |= 0400` are done in
`int` and stored back to 8 bits. -/
def cmacFinal (c : Cmac) (t : Nat) : List Byte × Cmac :=
  let c :=
    if c.flags.setWidth 32 &&& 0x100#32 ≠ 0#32 then c
    else
      let c :=
        if c.filled ≥ 16 then
          { c with T := enc (List.zipWith (· ^^^ ·) c.T c.K1) }
        else
          let T := c.T.modify c.filled (· ^^^ 0x80#8)
          let T := List.zipWith (· ^^^ ·) T c.K2
          { c with T := enc T, filled := 0 }
      { c with flags := (c.flags.setWidth 32 ||| 0x100#32).setWidth 8 }
  ((List.range t).map fun i => if i < 16 then c.T.getD i 0 else 0, c)

/-- `CMAC_*_Init(x, key, keylen)`, `cmac.c.h:3-13`. -/
def cmacStart (keyBytes keylen : Nat) : Option Cmac := cmacSetKey enc (cmacInit keyBytes) keylen

/-! ### HMAC_DRBG -/

/-- `hmac_drbg_t`: the PRF functions (`prf_init`, `prf_update`, `prf_final`), its output length, and the
state `K`, `V` with the memory of the PRF context. `prf_init`'s NULL return is ignored by the code; here a
failing initialisation makes the whole computation `none`. -/
structure PrfOps (σ : Type) where
  outlen : Nat
  pInit : σ → List Byte → Option σ
  pUpdate : σ → List Byte → σ
  pFinal : σ → Nat → List Byte × σ

structure Drbg (σ : Type) where
  K : List Byte
  V : List Byte
  H : σ

variable {σ : Type} (P : PrfOps σ)

/-- `PRF_INIT(H, K, outlen)`, a sequence of `prf_update`, `prf_final(H, .., outlen)`. -/
def prfCall (H : σ) (K : List Byte) (ms : List (List Byte)) : Option (List Byte × σ) := do
  let H ← P.pInit H K
  some (P.pFinal (ms.foldl P.pUpdate H) P.outlen)

/-- `HMAC_DRBG_Update`, `hmac-drbg.c:11-47`. -/
def drbgUpdate (x : Drbg σ) (str : List Byte) : Option (Drbg σ) := do
  let (K, H) ← prfCall P x.H x.K [x.V, [0x00], str]
  let (V, H) ← prfCall P H K [x.V]
  if str.length = 0 then some { K, V, H }
  else
    let (K, H) ← prfCall P H K [V, [0x01], str]
    let (V, H) ← prfCall P H K [V]
    some { K, V, H }

/-- `HMAC_DRBG_Seed`, `hmac-drbg.c:49-60`. -/
def drbgSeed (x : Drbg σ) (seed : List Byte) : Option (Drbg σ) :=
  drbgUpdate P { x with K := List.replicate P.outlen 0, V := List.replicate P.outlen 1 } seed

/-- `HMAC_DRBG_Reseed`, `hmac-drbg.c:62-68`. -/
def drbgReseed (x : Drbg σ) (seed : List Byte) : Option (Drbg σ) := drbgUpdate P x seed

/-- The `while( tmplen < len )` loop of `HMAC_DRBG_Generate`, `hmac-drbg.c:84-92`; `n` is `len - tmplen`,
`fuel` bounds the number of rounds. -/
def drbgLoop : (fuel n : Nat) → Drbg σ → Option (List Byte × Drbg σ)
  | _, 0, x => some ([], x)
  | 0, _ + 1, _ => none
  | fuel + 1, n + 1, x => do
    let (V, H) ← prfCall P x.H x.K [x.V]
    let k := min P.outlen (n + 1)
    let (o, x) ← drbgLoop fuel (n + 1 - k) { x with V, H }
    some (V.take k ++ o, x)

/-- `HMAC_DRBG_Generate`, `hmac-drbg.c:70-95`. -/
def drbgGenerate (x : Drbg σ) (len : Nat) : Option (List Byte × Drbg σ) := do
  let (o, x) ← drbgLoop P len len x
  let x ← drbgUpdate P x []
  some (o, x)

end Mac
