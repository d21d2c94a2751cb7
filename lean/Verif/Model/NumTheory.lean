import Verif.Model.Vlong

/-!
# Model of `src/2-numbertheory/EGCD.c` and `src/2-numbertheory/MillerRabin.c`

Same conventions as `Verif.Model.Vlong`: a `vlong_t` is the list of its words.
-/

namespace NumTheory
open Vlong

/-! ## `EGCD.c` -/

/-- `for(t=j->c; t--; ) if( j->v[t] ) end = false;`, `EGCD.c:40`. -/
def allZero (j : List W) : Bool := j.all (· == 0)

/-- `EGCD.c:23-41`, the `while` loop, with the pointers `i`, `j`, `quo`, `rem`, `y1`, `y2` as the
words they point to (`quo` and `rem` only contribute their word counts, because `vlong_divv`
overwrites them).  One unit of fuel per round; `none` when it runs out (the theorems show that
it never does).  Simplification: the C code ignores a NULL from `vlong_divv`; the model stops
with `none` then as well (the theorems cover objects of equal size, where that cannot happen). -/
def egcdLoop : (fuel : Nat) → (quoc remc : Nat) → (i j y1 y2 : List W) →
    Option (List W × List W × List W)
  | 0, _, _, _, _, _, _ => none
  | fuel + 1, quoc, remc, i, j, y1, y2 =>
    -- vlong_divv(rem, quo, i, j);
    match divv remc quoc i j with
    | none => none
    | some (rem, quo) =>
      -- tmp = i; i = j; j = rem;  vlong_mulv_masked(tmp, y1, quo, 1, NULL, NULL);
      match mulvMasked i.length y1 quo 1 none with
      | none => none
      | some tmp =>
        -- vlong_subv(y2, y2, tmp);  rem = tmp; swap(y1, y2);
        let y2' := subv y2.length y2 tmp
        if allZero rem then some (j, y2', y1)
        else egcdLoop fuel quoc tmp.length j rem y2' y1

/-- `EGCD`, `EGCD.c:5-46`; `quoc`, `remc`, `y1c`, `y2c` are the word counts of the four scratch
objects.  The outer `none` is "still running", the inner `none` is the NULL return. -/
def egcd (fuel quoc remc y1c y2c : Nat) (x p : List W) : Option (Option (List W)) :=
  let y2 := List.replicate y2c (0 : W)
  let y1 := (List.replicate y1c (0 : W)).set 0 1
  match egcdLoop fuel quoc remc p x y1 y2 with
  | none => none
  | some (i, _, y2) =>
    -- for(t=1; t<i->c; t++) if( i->v[t] ) return NULL;  if( i->v[0] != 1 ) return NULL;
    if (i.drop 1).any (· != 0) then some none
    else if rd i 0 ≠ 1 then some none
    else some (some y2)

/-! ## `MillerRabin.c` -/

/-- The loop of `vlong_ge_shifted`, `MillerRabin.c:29-35`. -/
def geLoop (a b : List W) (s : Nat) : (t : Nat) → Bool
  | 0 => true
  | t + 1 =>
    let u := rd a t
    let v := wordShifted b t s
    if u.toNat > v.toNat then true
    else if u.toNat < v.toNat then false
    else geLoop a b s t

/-- `vlong_ge_shifted`, `MillerRabin.c:20-38` (its `vlong_word_shifted`, `:9-18`, is textually that
of `vlong.c:149-158`). -/
def geShifted (a b : List W) (s : Nat) : Bool :=
  let w := (s + 31) / 32
  let t := if a.length > b.length + w then a.length else b.length + w
  geLoop a b s t

/-- `vlong_sub_shifted`, `MillerRabin.c:40-59`. -/
def subShifted (c : Nat) (a b : List W) (s : Nat) : List W :=
  addKernel a (fun i x => x - (wordShifted b i s).setWidth 64) c 0 0

/-- `for(t=b->c; t && !b->v[--t]; ) i++;`, `MillerRabin.c:68-69`: the number of leading zero
words, looking at words `t-1` downwards. -/
def leadZeros (b : List W) : (t : Nat) → Nat
  | 0 => 0
  | t + 1 => if rd b t = 0 then leadZeros b t + 1 else 0

/-- `MillerRabin.c:74-78`. -/
def remFastLoop (b : List W) : (i : Nat) → (rem : List W) → List W
  | 0, rem => rem
  | i + 1, rem =>
    remFastLoop b i (if geShifted rem b i then subShifted rem.length rem b i else rem)

/-- `vlong_remv_inplace_fast`, `MillerRabin.c:61-81`.  The counter `i` is a 32-bit unsigned number:
when `rem` has more leading zero words than `b` it wraps to a huge value and the test
`i > rem->c` returns `rem` as it is. -/
def remvFast (rem b : List W) : Option (List W) :=
  if rem.length < b.length then none
  else if leadZeros b b.length < leadZeros rem rem.length then some rem
  else if leadZeros b b.length - leadZeros rem rem.length > rem.length then some rem
  else some (remFastLoop b ((leadZeros b b.length - leadZeros rem rem.length + 1) * 32) rem)

/-- Bit test `(w->v[i / 32] >> (i % 32)) & 1`, `MillerRabin.c:99`, `:125`. -/
def bit (w : List W) (i : Nat) : Bool := (rd w (i / 32) >>> (i % 32)) &&& 1 == 1

/-- `for(a=1; a<f; a++) if( bit ) break;`, `MillerRabin.c:97-101`, from `a` with `k` positions
left. -/
def findA (w : List W) : (k a : Nat) → Nat
  | 0, a => a
  | k + 1, a => if bit w a then a else findA w k (a + 1)

/-- `while( tmp1->v[i] && tmp1->v[i] >= w->v[i] ) tmp1->v[i] >>= 1;`, `MillerRabin.c:118`
(32 rounds clear the word, so the fuel `32` used below is exact). -/
def shrink (wi : W) : (fuel : Nat) → W → W
  | 0, v => v
  | fuel + 1, v => if v ≠ 0 ∧ v.toNat ≥ wi.toNat then shrink wi fuel (v >>> 1) else v

/-- `MillerRabin.c:111-119`: one draw is either refused (`goto regen`, `none`) or turned into a
base. -/
def condBase (w d : List W) : Option (List W) :=
  let i := topIdx d (d.length - 1)
  if i = 0 ∧ (rd d 0).toNat ≤ 1 then none
  else
    let d := if i > 0 then d.set i (shrink (rd w i) 32 (rd d i)) else d
    some (d.set 0 (rd d 0 ||| 0xAA55))

/-- `if( mask ) { tmp2 = tmp * tmp1 mod w; tmp = tmp2; }`, `MillerRabin.c:125-135`. -/
def mulIf (w : List W) (f : ModFunc) (i : Nat) (tmp tmp1 : List W) : Option (List W) :=
  if bit w i then mulvMasked w.length tmp tmp1 1 (some f) else some tmp

/-- `MillerRabin.c:122-147`, the exponentiation loop from exponent bit `i`, `k + 1` bits to go. -/
def powLoop (w : List W) (f : ModFunc) : (k i : Nat) → (tmp tmp1 : List W) → Option (List W)
  | 0, i, tmp, tmp1 => mulIf w f i tmp tmp1
  | k + 1, i, tmp, tmp1 => do
    let tmp ← mulIf w f i tmp tmp1
    let tmp1 ← mulvMasked w.length tmp1 tmp1 1 (some f)
    powLoop w f k (i + 1) tmp tmp1

/-- "z is 1", `MillerRabin.c:150-155`, `:168-173`. -/
def isOne (z : List W) : Bool := topIdx z (z.length - 1) == 0 && rd z 0 == 1

/-- "z is w - 1", `MillerRabin.c:157-159`, `:175-177`. -/
def isMinusOne (w z : List W) : Bool := adds z.length z 1 0 == w

/-- `MillerRabin.c:161-178`, the squaring loop, `k` rounds to go; `true` is
`goto iteration_enter`, `false` is `return 0`. -/
def sqLoop (w : List W) (f : ModFunc) : (k : Nat) → (z : List W) → Option Bool
  | 0, _ => some false
  | k + 1, z => do
    let z ← mulvMasked w.length z z 1 (some f)
    if isOne z then some false
    else if isMinusOne w z then some true
    else sqLoop w f k z

/-- One round, `MillerRabin.c:97-101` and `:121-181`, with base `b`: `some true` is `goto iteration_enter`,
`some false` is `return 0`.  When `w` has no set bit above bit 0 the C code reads outside `w`
(undefined behaviour): `none`. -/
def round (w b : List W) : Option Bool :=
  let f : ModFunc := fun l => remvFast l w
  let n := w.length
  let a := findA w (n * 32 - 1) 1
  if a ≥ n * 32 then none
  else do
    let z ← powLoop w f (n * 32 - 1 - a) a ((List.replicate n (0 : W)).set 0 1) b
    if isOne z then some true
    else if isMinusOne w z then some true
    else sqLoop w f (a - 1) z

/-- The rounds of `MillerRabin`, `MillerRabin.c:105-181`.  `rng k` is what the `k`-th call of the
caller's generator writes into `tmp1` (`w->c` words).  `fuel` bounds the number of draws (a
generator may make the `regen` loop run forever): `none` when it runs out. -/
def rounds (w : List W) (rng : Nat → List W) : (fuel k iterations : Nat) → Option Bool
  | _, _, 0 => some true
  | 0, _, _ + 1 => none
  | fuel + 1, k, it + 1 =>
    match condBase w (rng k) with
    | none => rounds w rng fuel (k + 1) (it + 1)
    | some b =>
      match round w b with
      | none => none
      | some false => some false
      | some true => rounds w rng fuel (k + 1) it

/-- `MillerRabin`, `MillerRabin.c:83-182`; `some true` is the return value 1, `some false` is 0. -/
def millerRabin (w : List W) (iterations : Nat) (rng : Nat → List W) (fuel : Nat) : Option Bool :=
  rounds w rng fuel 0 iterations

end NumTheory
