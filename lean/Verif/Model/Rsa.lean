import Verif.Model.Vlong

/-!
# Model of `src/2-rsa/rsa-enc.c` and `src/2-rsa/rsa-fastdec.c`

Same conventions as `Verif.Model.Vlong`.  The context structure (offsets into one allocation,
`rsa.h:22-98`) is replaced by the integers it points to; the overlay of the temporaries `h`, `m`,
`t` on the working variables `w4`, `w5` is not modelled (they are separate objects here).
-/

namespace Rsa
open Vlong

/-- The reduction callback `(vlong_modfunc_t)vlong_remv_inplace` with its modulus. -/
def modBy (m : List W) : ModFunc := fun l => remvInplace l m

/-- `rsa_enc`, `rsa-enc.c:6-16`; `c` is the word count of the working variables. -/
def enc (c : Nat) (n e M : List W) : Option (List W) := modexpv c M e (some (modBy n))

/-- One prime of the private key with its CRT exponent and coefficient: `(p, dP, qInv)` or
`(r_i, d_i, t_i)` (`rsa.h:29-34`; the code reads both through `px[j]`, `rsa-fastdec.c:80-83`). -/
structure Triple where
  r : List W
  d : List W
  t : List W

/-- `rsa-fastdec.c:101-109`, one row of "M += R * h": `k` words of `R` from index `b`, carry
`ax`. -/
def accRow (R : List W) (ha : W) (a : Nat) : (k b : Nat) → (M : List W) → BitVec 64 → List W
  | 0, _, M, _ => M
  | k + 1, b, M, ax =>
    let ax := ax + (rd R b).setWidth 64 * ha.setWidth 64
    if a + b ≥ M.length then M
    else
      let ax := ax + (rd M (a + b)).setWidth 64
      accRow R ha a k (b + 1) (M.set (a + b) (ax.setWidth 32)) (ax >>> 32)

/-- `rsa-fastdec.c:99-110`, the rows `a` for `k` more words of `h`. -/
def mulAcc (R h : List W) : (k a : Nat) → (M : List W) → List W
  | 0, _, M => M
  | k + 1, a, M => mulAcc R h k (a + 1) (accRow R (rd h a) a R.length 0 M 0)

/-- `vlong_divv(rem, NULL, a, b)`: the remainder only.  (`quo == NULL` skips the size check on the
quotient, `vlong.c:218`; here the discarded quotient is given the size of `a`.) -/
def rem (remc : Nat) (a b : List W) : Option (List W) := (divv remc a.length a b).map (·.1)

/-- The loop body, `rsa-fastdec.c:80-119`, for one prime.  `cf` is `vlsize_factor`, `vm` is
`vlsize_modulus`.  Simplification: a NULL from a callee, which the C code ignores, is `none`. -/
def step (cf vm : Nat) (C : List W) (x : Triple) (M R : List W) : Option (List W × List W) := do
  -- vlong_divv(h, NULL, C, ri);  vlong_modexpv(h, h, di, t, m, remv_inplace, ri);
  let h ← rem cf C x.r
  let h ← modexpv cf h x.d (some (modBy x.r))
  -- vlong_divv(m, NULL, M, ri);  vlong_subv(m, h, m);  vlong_imod_inplace(m, ri);
  let m ← rem cf M x.r
  let m := subv cf h m
  let m := imodInplace m x.r
  -- vlong_mulv_masked(h, m, ti, 1, remv_inplace, ri);
  let h ← mulvMasked cf m x.t 1 (some (modBy x.r))
  -- M += R * h
  let M := mulAcc R h h.length 0 M
  -- vlong_mulv_masked(t, R, ri, 1, NULL, NULL);  R = t
  let t ← mulvMasked vm R x.r 1 none
  some (M, cpy R.length t)

/-- The loop of `rsa_fastdec`, `rsa-fastdec.c:78-133`. -/
def steps (cf vm : Nat) (C : List W) : List Triple → (M R : List W) → Option (List W)
  | [], M, _ => some M
  | x :: l, M, R =>
    match step cf vm C x M R with
    | none => none
    | some (M, R) => steps cf vm C l M R

/-- `rsa_fastdec`, `rsa-fastdec.c:26-136`: `C` is the input `w1`; `cm` is the word count of the
working variables `w2` (M) and `w3` (R). -/
def fastdec (cf vm cm : Nat) (q dQ : List W) (l : List Triple) (C : List W) : Option (List W) := do
  let h ← rem cf C q
  let h ← modexpv cf h dQ (some (modBy q))
  steps cf vm C l (cpy cm h) (cpy cm q)

end Rsa
