/-!
# Model of `src/2-prng/ctr-drbg.c`

`enc` and `kschd` are the block cipher's encryption and key-schedule functions.  `K` and `V` are adjacent in the context
(`ctr-drbg.h:20-23`): `seed` is their concatenation, `ks` the stored key schedule.  Lengths are natural numbers.
-/
namespace CtrDrbg
abbrev Byte := BitVec 8

/-- Writing `bs` at offset `t`. -/
def put (l : List Byte) (t : Nat) (bs : List Byte) : List Byte := l.take t ++ bs ++ l.drop (t + bs.length)

/-- `inc(l + e)`, `ctr-drbg.c:6-14`. -/
def inc (l : List Byte) (e : Nat) : List Byte :=
  ((List.range 4).foldl (fun (s : List Byte × Nat) i =>
    (s.1.set (e - 1 - i) (BitVec.ofNat 8 (s.2 + (s.1.getD (e - 1 - i) 0).toNat)), (s.2 + (s.1.getD (e - 1 - i) 0).toNat) / 256)) (l, 1)).1

/-- `ctr_drbg_t` and what follows it, `ctr-drbg.h:15-31`. -/
structure Ctx (κ : Type) where
  seed : List Byte
  ks : κ

section
variable {κ : Type} (enc : κ → List Byte → List Byte) (kschd : List Byte → κ) (b k : Nat)

/-- The `for` loop of `CTR_DRBG_Update`, `ctr-drbg.c:36-41`. -/
def updLoop (ks : κ) : (fuel t : Nat) → (blk seed : List Byte) → Nat × List Byte × List Byte
  | 0, t, blk, seed => (t, blk, seed)
  | f + 1, t, blk, seed => if t ≤ k then updLoop ks f (t + b) (inc blk b) (put seed t (enc ks (inc blk b))) else (t, blk, seed)

/-- `CTR_DRBG_Update`, `ctr-drbg.c:18-66`; `str` is `none` for NULL. -/
def update (x : Ctx κ) (str : Option (List Byte)) : Ctx κ :=
  let blk := (x.seed.drop k).take b
  let (t, blk, seed) := updLoop enc b k x.ks (k + 1) 0 blk x.seed
  let seed := if b + k > t then put seed t ((enc x.ks (inc blk b)).take (k + b - t)) else seed
  let seed := match str with
    | none => seed
    | some s => seed.mapIdx fun i v => if i < s.length ∧ i < b + k then v ^^^ s.getD i 0 else v
  { seed := seed, ks := kschd (seed.take k) }

/-- `CTR_DRBG_Seed`, `ctr-drbg.c:68-86`. -/
def seed (_x : Ctx κ) (s : List Byte) : Ctx κ :=
  let z := List.replicate (b + k) 0
  update enc kschd b k { seed := z, ks := kschd (z.take k) } (some s)

/-- `CTR_DRBG_Reseed`, `ctr-drbg.c:88-94`. -/
def reseed (x : Ctx κ) (s : List Byte) : Ctx κ := update enc kschd b k x (some s)

/-- The `for` loop of `CTR_DRBG_Generate`, `ctr-drbg.c:115-119`. -/
def genLoop (ks : κ) (len : Nat) : (fuel t : Nat) → (blk out : List Byte) → Nat × List Byte × List Byte
  | 0, t, blk, out => (t, blk, out)
  | f + 1, t, blk, out => if t + b ≤ len then genLoop ks len f (t + b) (inc blk b) (put out t (enc ks (inc blk b))) else (t, blk, out)

/-- `CTR_DRBG_Generate`, `ctr-drbg.c:96-131`: the contents of the caller's buffer (`out` before, `len` bytes) and the context. -/
def generate (x : Ctx κ) (out : List Byte) : List Byte × Ctx κ :=
  let len := out.length
  let blk := (x.seed.drop k).take b
  let (t, blk, out) := genLoop enc b x.ks len (len + 1) 0 blk out
  let out := if t < len then put out t ((enc x.ks (inc blk b)).take (len - t)) else out
  (out, update enc kschd b k x none)

/-- The body of the inner loop of `BCC`, `ctr-drbg.c:150-157`. -/
def bccByte (ks : κ) (s : List Byte × Nat) (c : Byte) : List Byte × Nat :=
  let buf := s.1.modify s.2 (· ^^^ c)
  if s.2 + 1 ≥ b then (enc ks buf, 0) else (buf, s.2 + 1)

/-- `BCC`, `ctr-drbg.c:135-168`. -/
def bcc (ks : κ) (elems : List (List Byte)) : List Byte :=
  let (buf, t) := elems.foldl (fun s e => e.foldl (bccByte enc b ks) s) (List.replicate b 0, 0)
  enc ks (buf.modify t (· ^^^ 0x80))

/-- The loop filling the derived key, `ctr-drbg.c:210-222`. -/
def dfLoop (ks : κ) (LN input : List Byte) : (fuel t : Nat) → (buf key : List Byte) → Nat × List Byte × List Byte
  | 0, t, buf, key => (t, buf, key)
  | f + 1, t, buf, key => if t ≤ k then
      dfLoop ks LN input f (t + b) (inc buf 4) (put key t ((bcc enc b ks [buf, LN, input]).take (k + b - t)))
    else (t, buf, key)

/-- The output loop, `ctr-drbg.c:241-250`. -/
def dfOut (ks : κ) (outlen : Nat) : (fuel t : Nat) → (blk out : List Byte) → List Byte
  | 0, _, _, out => out
  | f + 1, t, blk, out => if t < outlen then dfOut ks outlen f (t + b) (enc ks blk) (put out t ((enc ks blk).take (outlen - t))) else out

/-- `BlockCipher_df`, `ctr-drbg.c:170-257`: the output and the key schedule left in the context; `key` and `out` before are arbitrary. -/
def df (input key out : List Byte) : List Byte × κ :=
  let LN := (List.range 4).map (fun o => BitVec.ofNat 8 (input.length / 2 ^ (24 - o * 8))) ++ (List.range 4).map (fun o => BitVec.ofNat 8 (out.length / 2 ^ (24 - o * 8)))
  let key := put key 0 ((List.range k).map (BitVec.ofNat 8))
  let ks := kschd (key.take k)
  let (t, buf, key) := dfLoop enc b k ks LN input (k + 1) 0 (List.replicate b 0) key
  let key := if k + b > t then put key t ((bcc enc b ks [buf, LN, input]).take (k + b - t)) else key
  let ks := kschd (key.take k)
  (dfOut enc b ks out.length (out.length + 1) 0 ((key.drop k).take b) out, ks)

/-- `CTR_DRBG_Seed_WithDF`, `ctr-drbg.c:259-270`; `u` and `w` are the uninitialised local buffers, of `k + b` bytes. -/
def seedDf (x : Ctx κ) (s u w : List Byte) : Ctx κ :=
  let (m, ks) := df enc kschd b k s u w
  seed enc kschd b k { x with ks := ks } m

/-- `CTR_DRBG_Reseed_WithDF`, `ctr-drbg.c:272-287`. -/
def reseedDf (x : Ctx κ) (s u w : List Byte) : Ctx κ :=
  let (m, _) := df enc kschd b k s u w
  update enc kschd b k { x with ks := kschd (x.seed.take k) } (some m)

end
end CtrDrbg
