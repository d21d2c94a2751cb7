import Verif.Model.NumTheory
import Verif.Model.Rsa
import Verif.Model.Pkcs1
import Verif.Model.RsaDer

/-!
# Model of `src/2-rsa/rsa-keygen.c`

The context is memory of 32-bit words as in `Verif.Model.RsaDer`; all intermediate results of the C function live in that memory and so do
the ones here, at the same places.  What the callees leave behind in their scratch objects is not modelled: these words become arbitrary
(`scratch`), the word counts of the scratch objects with them.
-/

namespace RsaKeygen
open Vlong RsaDer NumTheory

/-- The caller's generator (`GenFunc_t`): what its `k`-th call writes.  All calls made here ask for the words of one prime. -/
abbrev Rng := Nat → List W

/-- Arbitrary contents of scratch memory, by place in the program, number of generator calls so far, and word. -/
abbrev Junk := Nat → Nat → Nat → W

/-- The words from `lo` below `hi` become arbitrary. -/
def scratch (m : Mem) (lo hi : Nat) (g : Nat → W) : Mem := fun j => if lo ≤ j ∧ j < hi then g j else m j

/-- The loop of `rsa-keygen.c:28-36`: word `t` of `w->v[t] &= (1 << m) - 1`.  (`1 << 31` is undefined in C when `bits % 32 == 31`; it is
taken to wrap.) -/
def maskWord (bits t : Nat) (x : W) : W :=
  if bits / 32 ≤ t then x &&& ((1#32 <<< (if bits ≤ t * 32 then 0 else bits - t * 32)) - 1#32) else x

/-- `gen_oddint_bits`, `rsa-keygen.c:21-51`, on the words `d` the generator wrote.  For `bits <= 32` the C code writes to `w->v[-1]`:
`none`. -/
def genOdd (bits : Nat) (d : List W) : Option (List W) :=
  let w := d.mapIdx (maskWord bits)
  -- w->v[0] |= 1;
  let w := w.set 0 (rd w 0 ||| 1#32)
  -- bits = bits - 1;
  let b := bits - 1
  if b / 32 = 0 then none
  else
    let x : BitVec 64 := 0x1f0000000#64 <<< (b % 32)
    let w := w.set (b / 32 - 0) (rd w (b / 32 - 0) ||| (x >>> 32).setWidth 32)
    some (w.set (b / 32 - 1) (rd w (b / 32 - 1) ||| x.setWidth 32))

/-- `MillerRabin` (`NumTheory.rounds`) with the number of generator calls made when it returns. -/
def mrRun (w : List W) (rng : Rng) : (fuel k iterations : Nat) → Option (Bool × Nat)
  | _, k, 0 => some (true, k)
  | 0, _, _ + 1 => none
  | fuel + 1, k, it + 1 =>
    match condBase w (rng k) with
    | none => mrRun w rng fuel (k + 1) (it + 1)
    | some b =>
      match round w b with
      | none => none
      | some false => some (false, k + 1)
      | some true => mrRun w rng fuel (k + 1) it

/-- Memory and number of generator calls made. -/
structure St where
  m : Mem
  k : Nat

/-- The search for one prime at word `ul`, `rsa-keygen.c:95-108` (and `:115-128`, `:137-150`, the same text): `vl` at `ul`, the scratch
objects `t1`, `t2`, `t3` behind it.  `fuel` bounds the candidates and `mf` the draws of a primality test, since a generator may keep both
loops going forever: `none` then. -/
def search (rng : Rng) (junk : Junk) (mf f b ul : Nat) : (fuel : Nat) → St → Option St
  | 0, _ => none
  | fuel + 1, s =>
    match genOdd b (rng s.k) with
    | none => none
    | some w =>
      let m := s.m.wr ul w
      match mrRun w rng mf (s.k + 1) 5 with
      | none => none
      | some (r, k) =>
        let m := scratch m (ul + (f + 1)) (ul + 4 * (f + 1)) (junk 0 k)
        if r then some ⟨m, k⟩ else search rng junk mf f b ul fuel ⟨m, k⟩

/-- The primes: `p`, `q`, `r_i`, `rsa-keygen.c:94-155`, each followed by `offset_* = DeltaOf(x, vl); ul += vl->c + 1;`.  `flds` are the
header words 12, 10, 15, 18, ... -/
def primes (rng : Rng) (junk : Junk) (mf cf f b : Nat) : (flds : List Nat) → (ul : Nat) → St → Option (St × Nat)
  | [], ul, s => some (s, ul)
  | fld :: flds, ul, s => do
    let s ← search rng junk mf f b ul cf s
    primes rng junk mf cf f b flds (ul + (f + 1)) ⟨s.m.put fld (BitVec.ofNat 32 (4 * ul)), s.k⟩

/-- `for(i=0; i<vl->c; i++) vl->v[i] = (i ? 0 : x);` -/
def small (c : Nat) (x : W) : List W := (List.range c).map fun i => if i = 0 then x else 0

/-- `vlong_adds(r, r, x, 0)` on the object at word `i`. -/
def bump (m : Mem) (i : Nat) (x : BitVec 64) : Mem := m.wr i (adds (m.vlong i).length (m.vlong i) x 0)

/-- "mult (r - 1)", `rsa-keygen.c:175-186` (`:191-202`, `:209-220`): `vl` is at `ul`, `t1` behind it. -/
def mulPhi (vm ul : Nat) (m : Mem) (fld : Nat) : Option Mem := do
  let m := bump m (m.at_ fld) (-1#64)
  let t1 ← mulvMasked vm (m.vlong ul) (m.vlong (m.at_ fld)) 1 none
  let m := m.wr (ul + (vm + 1)) t1
  let m := bump m (m.at_ fld) 1#64
  return m.wr ul (m.vlong (ul + (vm + 1)))

/-- `goto restart`, or the state in which the program goes on. -/
inductive Out
  | restart (s : St)
  | go (s : St) (ul : Nat)

/-- The private exponent, `rsa-keygen.c:157-243`.  The rounds of `EGCD` are bounded by its first operand (C36), so the fuel is exact. -/
def exponent (junk : Junk) (vm : Nat) (flds : List Nat) (ul : Nat) (s : St) : Option Out := do
  let m := s.m.wr ul (small vm 1#32)
  let m ← flds.foldlM (mulPhi vm ul) m
  let t5 := ul + 5 * (vm + 1)
  let t6 := ul + 6 * (vm + 1)
  let m := m.wr t5 (small vm 65537#32)
  let m := m.wr t6 (m.vlong ul)
  match egcd 65539 vm vm vm vm (m.vlong t5) (m.vlong ul) with
  | none => none
  | some none => return .restart ⟨scratch m ul t6 (junk 1 s.k), s.k⟩
  | some (some y) =>
    let m := scratch m ul t6 (junk 1 s.k)
    let m := m.wr ul y
    let m := m.wr ul (imodInplace (m.vlong ul) (m.vlong t6))
    let m := m.put 9 (BitVec.ofNat 32 (4 * ul))
    return .go ⟨m, s.k⟩ (ul + (vm + 1))

/-- The CRT coefficients and the modulus, the loop of `rsa-keygen.c:261-309` from index `t` with `n` rounds to go.  `t6` is the first word
of the modulus; the prime of round `t` is `px[t - 1].offset_r`, header word `12 + 3 * t`. -/
def coeffs (junk : Junk) (b f vm t6 : Nat) : (n t ul : Nat) → St → Option Out
  | 0, _, ul, s => some (.go s ul)
  | n + 1, t, ul, s => do
    let t1 := ul + (f + 1)
    let t2 := ul + 2 * (f + 1)
    let t4 := ul + 4 * (f + 1)
    let m := s.m
    -- vlong_divv(vl, NULL, t6, r);
    let h ← Rsa.rem f (m.vlong t6) (m.vlong (m.at_ (12 + 3 * t)))
    let m := m.wr ul h
    -- vlong_adds(t1, r, -2, 0);
    let m := m.wr t1 (adds f (m.vlong (m.at_ (12 + 3 * t))) (-2#64) 0)
    -- vlong_modexpv(vl, vl, t1, t2, t3, vlong_remv_inplace, r);
    let h ← modexpv f (m.vlong ul) (m.vlong t1) (some (Rsa.modBy (m.vlong (m.at_ (12 + 3 * t)))))
    let m := scratch m t2 t4 (junk (2 + t) s.k)
    let m := m.wr ul h
    let m := m.put (14 + 3 * t) (BitVec.ofNat 32 (4 * ul))
    -- vlong_mulv_masked(t4, t6, r, 1, NULL, NULL);  t6 = t4;
    let x ← mulvMasked vm (m.vlong t6) (m.vlong (m.at_ (12 + 3 * t))) 1 none
    let m := m.wr t4 x
    let m := m.wr t6 (m.vlong t4)
    -- i = bits_per_prime * (t + 2) - 1;  if( t6->v[i / 32] >> (i % 32) == 0 ) goto restart;
    let i := b * (t + 2) - 1
    if rd (m.vlong t6) (i / 32) >>> (i % 32) = 0 then return .restart ⟨m, s.k⟩
    else coeffs junk b f vm t6 n (t + 1) (ul + (f + 1)) ⟨m, s.k⟩

/-- A CRT exponent, `rsa-keygen.c:314-331` (`:336-353`, `:360-377`): `fld` locates the prime, `fld + 1` will locate the exponent. -/
def crtExp (f : Nat) (x : Mem × Nat) (fld : Nat) : Option (Mem × Nat) := do
  let (m, ul) := x
  let m := bump m (m.at_ fld) (-1#64)
  let h ← Rsa.rem f (m.vlong (m.at_ 9)) (m.vlong (m.at_ fld))
  let m := m.wr ul h
  let m := bump m (m.at_ fld) 1#64
  return (m.put (fld + 1) (BitVec.ofNat 32 (4 * ul)), ul + (f + 1))

/-- The working variables, `rsa-keygen.c:382-420` (each is cleared when it is placed; the C code clears all of them at the end). -/
def works (vm : Nat) (x : Mem × Nat) (fld : Nat) : Mem × Nat :=
  ((x.1.wr x.2 (small vm 0#32)).put fld (BitVec.ofNat 32 (4 * x.2)), x.2 + (vm + 1))

/-- The header words of the primes of a key of `c` primes: `p`, `q`, then `r_i`. -/
def primeFlds (c : Nat) : List Nat := 12 :: 10 :: (List.range (c - 2)).map fun i => 15 + 3 * i

/-- From the label `restart` on, `rsa-keygen.c:81-423`, for a key of `c >= 2` primes.  (`count_primes_other`, read back from the context by
the C code, is `c - 2`.) -/
def attempt (rng : Rng) (junk : Junk) (mf cf bits c : Nat) (s : St) : Option Out := do
  let b := bits / c
  let f := Pkcs1.bitsWcnt b
  let vm := Pkcs1.bitsWcnt bits
  let ul := 15 + 3 * (c - 2)
  let m := s.m.wr ul [65537#32]
  let m := m.put 8 (BitVec.ofNat 32 (4 * ul))
  let (s, ul) ← primes rng junk mf cf f b (primeFlds c) (ul + 2) ⟨m, s.k⟩
  match ← exponent junk vm (primeFlds c) ul s with
  | .restart s => return .restart s
  | .go s ul =>
    let t6 := ul
    let q := s.m.vlong (s.m.at_ 10)
    let m := s.m.wr t6 ((List.range vm).map fun i => if i < f then rd q i else 0)
    match ← coeffs junk b f vm t6 (c - 2 + 1) 0 (ul + (vm + 1)) ⟨m, s.k⟩ with
    | .restart s => return .restart s
    | .go s ul =>
      let m := s.m.put 7 (BitVec.ofNat 32 (4 * t6))
      let x ← (primeFlds c).foldlM (crtExp f) (m, ul)
      let (m, ul) := [0, 1, 2, 3, 4].foldl (works vm) x
      return .go ⟨m, s.k⟩ ul

/-- The restarts; `rf` bounds their number. -/
def run (rng : Rng) (junk : Junk) (mf cf bits c : Nat) : (rf : Nat) → St → Option St
  | 0, _ => none
  | rf + 1, s =>
    match attempt rng junk mf cf bits c s with
    | none => none
    | some (.go s _) => some s
    | some (.restart s) => run rng junk mf cf bits c rf s

/-- `rsa_keygen`, `rsa-keygen.c:53-424`, with a context: `bits` is `param[0].aux`, `c` is `param[1].aux`; the context when the function
returns.  `none`: it has not returned within the given bounds. -/
def keygen (rng : Rng) (junk : Junk) (mf cf rf bits c : Nat) (m : Mem) : Option Mem :=
  let m := m.put 5 (BitVec.ofNat 32 (c - 2))
  let m := m.put 6 (BitVec.ofNat 32 bits)
  (run rng junk mf cf bits c rf ⟨m, 0⟩).map (·.m)

/-- `rsa_keygen` without a context: `RSA_PRIV_CTX_SIZE`, `rsa.h:60-75`. -/
def ctxSize (bits c : Nat) : Nat :=
  4 * (Pkcs1.bitsWcnt (bits / c) + 1) * (3 * c - 1) + 4 * (Pkcs1.bitsWcnt bits + 1) * (5 + 2) + 4 * (Pkcs1.bitsWcnt 17 + 1) +
    (60 + 12 * (c - 2))

end RsaKeygen
