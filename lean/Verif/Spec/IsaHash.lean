import Verif.Spec.Sm4

/-!
# Specification: the hash and SM4 instructions used by the accelerated variants

Written from the manuals (Intel SDM volume 2B "SHA1RNDS4" and following; Arm ARM DDI 0487, C7.2, "SHA1C" and following, and the
shared pseudocode), not from the code.  A vector register is the structure of its lanes, lane 0 the least significant; trusted base.
-/
namespace Spec.Isa

/-- Four 32-bit lanes. -/
@[ext] structure Q where
  l0 : BitVec 32
  l1 : BitVec 32
  l2 : BitVec 32
  l3 : BitVec 32
  deriving DecidableEq

/-- Two 64-bit lanes. -/
@[ext] structure D where
  l0 : BitVec 64
  l1 : BitVec 64
  deriving DecidableEq

/-- Lane number `k`. -/
def Q.lane (q : Q) (k : Nat) : BitVec 32 := match k with | 0 => q.l0 | 1 => q.l1 | 2 => q.l2 | _ => q.l3

/-- Sixteen octets in memory order as lanes of little-endian words. -/
def q32 (b : List (BitVec 8)) : Q :=
  let w k := b.getD (4 * k + 3) 0 ++ b.getD (4 * k + 2) 0 ++ b.getD (4 * k + 1) 0 ++ b.getD (4 * k) 0
  ⟨w 0, w 1, w 2, w 3⟩
def d64 (b : List (BitVec 8)) : D :=
  let w k := b.getD (8 * k + 7) 0 ++ b.getD (8 * k + 6) 0 ++ b.getD (8 * k + 5) 0 ++ b.getD (8 * k + 4) 0 ++
    b.getD (8 * k + 3) 0 ++ b.getD (8 * k + 2) 0 ++ b.getD (8 * k + 1) 0 ++ b.getD (8 * k) 0
  ⟨w 0, w 1⟩

/-- Lane-wise addition and exclusive or. -/
def Q.add (x y : Q) : Q := ⟨x.l0 + y.l0, x.l1 + y.l1, x.l2 + y.l2, x.l3 + y.l3⟩
def Q.xor (x y : Q) : Q := ⟨x.l0 ^^^ y.l0, x.l1 ^^^ y.l1, x.l2 ^^^ y.l2, x.l3 ^^^ y.l3⟩
def D.add (x y : D) : D := ⟨x.l0 + y.l0, x.l1 + y.l1⟩
def D.xor (x y : D) : D := ⟨x.l0 ^^^ y.l0, x.l1 ^^^ y.l1⟩

/-- The lane functions of the manuals. -/
def choose {n : Nat} (x y z : BitVec n) : BitVec n := (x &&& y) ^^^ (~~~x &&& z)
def majority {n : Nat} (x y z : BitVec n) : BitVec n := (x &&& y) ^^^ (x &&& z) ^^^ (y &&& z)
def par (x y z : BitVec 32) : BitVec 32 := x ^^^ y ^^^ z
def S0 (x : BitVec 32) : BitVec 32 := x.rotateRight 2 ^^^ x.rotateRight 13 ^^^ x.rotateRight 22
def S1 (x : BitVec 32) : BitVec 32 := x.rotateRight 6 ^^^ x.rotateRight 11 ^^^ x.rotateRight 25
def s0 (x : BitVec 32) : BitVec 32 := x.rotateRight 7 ^^^ x.rotateRight 18 ^^^ x >>> 3
def s1 (x : BitVec 32) : BitVec 32 := x.rotateRight 17 ^^^ x.rotateRight 19 ^^^ x >>> 10

/-! ## x86 -/

/-- `_mm_set_epi32(e3, e2, e1, e0)`. -/
def setEpi32 (e3 e2 e1 e0 : BitVec 32) : Q := ⟨e0, e1, e2, e3⟩

/-- `_mm_shuffle_epi8(x, m)` on octets; all control octets used are below 16. -/
def shuffleEpi8 (x : List (BitVec 8)) (m : List Nat) : List (BitVec 8) := m.map fun k => x.getD k 0

/-- `_mm_shuffle_epi32(x, imm)`: two bits of the immediate per lane. -/
def shuffleEpi32 (x : Q) (imm : Nat) : Q := ⟨x.lane (imm % 4), x.lane (imm / 4 % 4), x.lane (imm / 16 % 4), x.lane (imm / 64 % 4)⟩

/-- `_mm_alignr_epi8(a, b, 4)`: the concatenation `a:b` shifted right by four octets. -/
def alignr4 (a b : Q) : Q := ⟨b.l1, b.l2, b.l3, a.l0⟩

/-- `_mm_sha1rnds4_epu32(src1, src2, imm)`; the first round has no E of its own (it is in the message operand). -/
def sha1rnds4 (src1 src2 : Q) (imm : Nat) : Q :=
  let f := if imm = 0 then choose else if imm = 1 then par else if imm = 2 then majority else par
  let K : BitVec 32 := if imm = 0 then 0x5a827999 else if imm = 1 then 0x6ed9eba1 else if imm = 2 then 0x8f1bbcdc else 0xca62c1d6
  let (a, b, c, d) := (src1.l3, src1.l2, src1.l1, src1.l0)
  let (a, b, c, d, e) := (f b c d + a.rotateLeft 5 + src2.l3 + K, a, b.rotateLeft 30, c, d)
  let (a, b, c, d, e) := (f b c d + a.rotateLeft 5 + src2.l2 + e + K, a, b.rotateLeft 30, c, d)
  let (a, b, c, d, e) := (f b c d + a.rotateLeft 5 + src2.l1 + e + K, a, b.rotateLeft 30, c, d)
  let (a, b, c, d, _) := (f b c d + a.rotateLeft 5 + src2.l0 + e + K, a, b.rotateLeft 30, c, d)
  ⟨d, c, b, a⟩

/-- `_mm_sha1nexte_epu32`. -/
def sha1nexte (src1 src2 : Q) : Q := { src2 with l3 := src2.l3 + src1.l3.rotateLeft 30 }

/-- `_mm_sha1msg1_epu32`. -/
def sha1msg1 (src1 src2 : Q) : Q := ⟨src2.l2 ^^^ src1.l0, src2.l3 ^^^ src1.l1, src1.l0 ^^^ src1.l2, src1.l1 ^^^ src1.l3⟩

/-- `_mm_sha1msg2_epu32`. -/
def sha1msg2 (src1 src2 : Q) : Q :=
  let w16 := (src1.l3 ^^^ src2.l2).rotateLeft 1
  ⟨(src1.l0 ^^^ w16).rotateLeft 1, (src1.l1 ^^^ src2.l0).rotateLeft 1, (src1.l2 ^^^ src2.l1).rotateLeft 1, w16⟩

/-- `_mm_sha256rnds2_epu32(cdgh, abef, wk)`. -/
def sha256rnds2 (src1 src2 wk : Q) : Q :=
  let (a, b, c, d, e, f, g, h) := (src2.l3, src2.l2, src1.l3, src1.l2, src2.l1, src2.l0, src1.l1, src1.l0)
  let (a, b, c, d, e, f, g, h) := (choose e f g + S1 e + wk.l0 + h + majority a b c + S0 a, a, b, c, choose e f g + S1 e + wk.l0 + h + d, e, f, g)
  let (a, b, _, _, e, f, _, _) := (choose e f g + S1 e + wk.l1 + h + majority a b c + S0 a, a, b, c, choose e f g + S1 e + wk.l1 + h + d, e, f, g)
  ⟨f, e, b, a⟩

/-- `_mm_sha256msg1_epu32`. -/
def sha256msg1 (src1 src2 : Q) : Q := ⟨src1.l0 + s0 src1.l1, src1.l1 + s0 src1.l2, src1.l2 + s0 src1.l3, src1.l3 + s0 src2.l0⟩

/-- `_mm_sha256msg2_epu32`. -/
def sha256msg2 (src1 src2 : Q) : Q :=
  let w16 := src1.l0 + s1 src2.l2
  let w17 := src1.l1 + s1 src2.l3
  ⟨w16, w17, src1.l2 + s1 w16, src1.l3 + s1 w17⟩

/-! ## Arm -/

/-- `vrev32q_u8`, `vrev64q_u8` on octets. -/
def rev32 (x : List (BitVec 8)) : List (BitVec 8) := [3, 2, 1, 0, 7, 6, 5, 4, 11, 10, 9, 8, 15, 14, 13, 12].map fun k => x.getD k 0
def rev64 (x : List (BitVec 8)) : List (BitVec 8) := [7, 6, 5, 4, 3, 2, 1, 0, 15, 14, 13, 12, 11, 10, 9, 8].map fun k => x.getD k 0

/-- `vdupq_n_u32`. -/
def dup32 (x : BitVec 32) : Q := ⟨x, x, x, x⟩

/-- One of the four iterations of SHA1C, SHA1P, SHA1M: `X` is `V[d]`, `Y` is `V[n]`; at the end `Y:X` is rotated left by 32 bits. -/
def sha1Iter (f : BitVec 32 → BitVec 32 → BitVec 32 → BitVec 32) (s : Q × BitVec 32) (w : BitVec 32) : Q × BitVec 32 :=
  let (X, Y) := s
  let t := f X.l1 X.l2 X.l3
  let Y := Y + X.l0.rotateLeft 5 + t + w
  let X := { X with l1 := X.l1.rotateLeft 30 }
  (⟨Y, X.l0, X.l1, X.l2⟩, X.l3)

def sha1Hash (f : BitVec 32 → BitVec 32 → BitVec 32 → BitVec 32) (X : Q) (Y : BitVec 32) (W : Q) : Q :=
  (sha1Iter f (sha1Iter f (sha1Iter f (sha1Iter f (X, Y) W.l0) W.l1) W.l2) W.l3).1

/-- `vsha1cq_u32`, `vsha1pq_u32`, `vsha1mq_u32`, `vsha1h_u32`. -/
def vsha1c (X : Q) (Y : BitVec 32) (W : Q) : Q := sha1Hash choose X Y W
def vsha1p (X : Q) (Y : BitVec 32) (W : Q) : Q := sha1Hash par X Y W
def vsha1m (X : Q) (Y : BitVec 32) (W : Q) : Q := sha1Hash majority X Y W
def vsha1h (x : BitVec 32) : BitVec 32 := x.rotateLeft 30

/-- `vsha1su0q_u32(d, n, m)`: `(n<63:0> : d<127:64>) xor d xor m`. -/
def vsha1su0 (d n m : Q) : Q := (Q.mk d.l2 d.l3 n.l0 n.l1).xor (d.xor m)

/-- `vsha1su1q_u32(d, n)`. -/
def vsha1su1 (d n : Q) : Q :=
  let T := d.xor ⟨n.l1, n.l2, n.l3, 0⟩
  ⟨T.l0.rotateLeft 1, T.l1.rotateLeft 1, T.l2.rotateLeft 1, T.l3.rotateLeft 1 ^^^ T.l0.rotateLeft 2⟩

/-- One of the four iterations of `SHA256hash(X, Y, W)`; at the end `Y:X` is rotated left by 32 bits. -/
def sha256Iter (s : Q × Q) (w : BitVec 32) : Q × Q :=
  let (X, Y) := s
  let chs := choose Y.l0 Y.l1 Y.l2
  let maj := majority X.l0 X.l1 X.l2
  let t := Y.l3 + S1 Y.l0 + chs + w
  let X3 := t + X.l3
  let Y3 := t + S0 X.l0 + maj
  (⟨Y3, X.l0, X.l1, X.l2⟩, ⟨X3, Y.l0, Y.l1, Y.l2⟩)

def sha256Hash (X Y W : Q) : Q × Q := sha256Iter (sha256Iter (sha256Iter (sha256Iter (X, Y) W.l0) W.l1) W.l2) W.l3

/-- `vsha256hq_u32(abcd, efgh, wk)` and `vsha256h2q_u32(efgh, abcd, wk)`. -/
def vsha256h (d n m : Q) : Q := (sha256Hash d n m).1
def vsha256h2 (d n m : Q) : Q := (sha256Hash n d m).2

/-- `vsha256su0q_u32(d, n)`. -/
def vsha256su0 (d n : Q) : Q := ⟨s0 d.l1 + d.l0, s0 d.l2 + d.l1, s0 d.l3 + d.l2, s0 n.l0 + d.l3⟩

/-- `vsha256su1q_u32(d, n, m)`. -/
def vsha256su1 (d n m : Q) : Q :=
  let r0 := s1 m.l2 + d.l0 + n.l1
  let r1 := s1 m.l3 + d.l1 + n.l2
  ⟨r0, r1, s1 r0 + d.l2 + n.l3, s1 r1 + d.l3 + m.l0⟩

/-- `vextq_u64(a, b, 1)`. -/
def vext64 (a b : D) : D := ⟨a.l1, b.l0⟩

def S0w (x : BitVec 64) : BitVec 64 := x.rotateRight 28 ^^^ x.rotateRight 34 ^^^ x.rotateRight 39
def S1w (x : BitVec 64) : BitVec 64 := x.rotateRight 14 ^^^ x.rotateRight 18 ^^^ x.rotateRight 41
def s0w (x : BitVec 64) : BitVec 64 := x.rotateRight 1 ^^^ x.rotateRight 8 ^^^ x >>> 7
def s1w (x : BitVec 64) : BitVec 64 := x.rotateRight 19 ^^^ x.rotateRight 61 ^^^ x >>> 6

/-- `vsha512hq_u64(w, x, y)` (SHA512H Qd, Qn, Vm). -/
def vsha512h (w x y : D) : D :=
  let hi := choose y.l1 x.l0 x.l1 + S1w y.l1 + w.l1
  let tmp := hi + y.l0
  ⟨choose tmp y.l1 x.l0 + S1w tmp + w.l0, hi⟩

/-- `vsha512h2q_u64(w, x, y)`. -/
def vsha512h2 (w x y : D) : D :=
  let hi := majority x.l0 y.l1 y.l0 + S0w y.l0 + w.l1
  ⟨majority hi y.l0 y.l1 + S0w hi + w.l0, hi⟩

/-- `vsha512su0q_u64(w, x)`, `vsha512su1q_u64(w, x, y)`. -/
def vsha512su0 (w x : D) : D := ⟨w.l0 + s0w w.l1, w.l1 + s0w x.l0⟩
def vsha512su1 (w x y : D) : D := ⟨w.l0 + s1w x.l0 + y.l0, w.l1 + s1w x.l1 + y.l1⟩

/-- `vtrn1q_u32`, `vtrn2q_u32`, `vtrn1q_u64`, `vtrn2q_u64`. -/
def vtrn1 (a b : Q) : Q := ⟨a.l0, b.l0, a.l2, b.l2⟩
def vtrn2 (a b : Q) : Q := ⟨a.l1, b.l1, a.l3, b.l3⟩
def vtrn1d (a b : D) : D := ⟨a.l0, b.l0⟩
def vtrn2d (a b : D) : D := ⟨a.l1, b.l1⟩

/-- The same register seen as two 64-bit lanes. -/
def Q.toD (q : Q) : D := ⟨q.l1 ++ q.l0, q.l3 ++ q.l2⟩
def D.toQ (d : D) : Q := ⟨d.l0.setWidth 32, (d.l0 >>> 32).setWidth 32, d.l1.setWidth 32, (d.l1 >>> 32).setWidth 32⟩

/-- `vqtbl2q_u8({a, b}, idx)` when the indices are `4 s .. 4 s + 15`: four consecutive lanes of the pair, from lane `s`. -/
def tblLanes (a b : Q) (s : Nat) : Q :=
  let l := [a.l0, a.l1, a.l2, a.l3, b.l0, b.l1, b.l2, b.l3]
  ⟨l.getD s 0, l.getD (s + 1) 0, l.getD (s + 2) 0, l.getD (s + 3) 0⟩

/-- `vsm3ss1q_u32(n, m, a)`. -/
def vsm3ss1 (n m a : Q) : Q := ⟨0, 0, 0, (n.l3.rotateLeft 12 + m.l3 + a.l3).rotateLeft 7⟩

/-- `vsm3tt1aq_u32(d, n, m, imm)`, `vsm3tt1bq_u32(d, n, m, imm)`: the Boolean function differs. -/
def sm3tt1 (f : BitVec 32 → BitVec 32 → BitVec 32 → BitVec 32) (d n m : Q) (imm : Nat) : Q :=
  let SS2 := n.l3 ^^^ d.l3.rotateLeft 12
  let TT1 := f d.l1 d.l3 d.l2 + d.l0 + SS2 + m.lane imm
  ⟨d.l1, d.l2.rotateLeft 9, d.l3, TT1⟩
def vsm3tt1a : Q → Q → Q → Nat → Q := sm3tt1 fun c a b => c ^^^ (a ^^^ b)
def vsm3tt1b : Q → Q → Q → Nat → Q := sm3tt1 fun c a b => (a &&& c) ||| (a &&& b) ||| (c &&& b)

/-- `vsm3tt2aq_u32(d, n, m, imm)`, `vsm3tt2bq_u32(d, n, m, imm)`. -/
def sm3tt2 (f : BitVec 32 → BitVec 32 → BitVec 32 → BitVec 32) (d n m : Q) (imm : Nat) : Q :=
  let TT2 := f d.l1 d.l3 d.l2 + d.l0 + n.l3 + m.lane imm
  ⟨d.l1, d.l2.rotateLeft 19, d.l3, TT2 ^^^ TT2.rotateLeft 9 ^^^ TT2.rotateLeft 17⟩
def vsm3tt2a : Q → Q → Q → Nat → Q := sm3tt2 fun g e f => g ^^^ (e ^^^ f)
def vsm3tt2b : Q → Q → Q → Nat → Q := sm3tt2 fun g e f => (e &&& f) ||| (~~~e &&& g)

/-- `vsm3partw1q_u32(d, n, m)`. -/
def vsm3partw1 (d n m : Q) : Q :=
  let p (x : BitVec 32) := x ^^^ x.rotateLeft 15 ^^^ x.rotateLeft 23
  let r0 := p (d.l0 ^^^ n.l0 ^^^ m.l1.rotateLeft 15)
  ⟨r0, p (d.l1 ^^^ n.l1 ^^^ m.l2.rotateLeft 15), p (d.l2 ^^^ n.l2 ^^^ m.l3.rotateLeft 15), p (d.l3 ^^^ n.l3 ^^^ r0.rotateLeft 15)⟩

/-- `vsm3partw2q_u32(d, n, m)`. -/
def vsm3partw2 (d n m : Q) : Q :=
  let tmp := n.xor ⟨m.l0.rotateLeft 7, m.l1.rotateLeft 7, m.l2.rotateLeft 7, m.l3.rotateLeft 7⟩
  let r := d.xor tmp
  let t2 := tmp.l0.rotateLeft 15
  { r with l3 := r.l3 ^^^ (t2 ^^^ t2.rotateLeft 15 ^^^ t2.rotateLeft 23) }

/-- One of the four iterations of SM4E, with the round key `k`, and of SM4EKEY, with the constant `k`: `T` is the S-box on each octet
followed by the linear map (Spec/Sm4.lean; the manuals refer to the standard's S-box). -/
def sm4Iter (T : BitVec 32 → BitVec 32) (r : Q) (k : BitVec 32) : Q :=
  let intval := T (r.l3 ^^^ r.l2 ^^^ r.l1 ^^^ k) ^^^ r.l0
  ⟨r.l1, r.l2, r.l3, intval⟩
def sm4Four (T : BitVec 32 → BitVec 32) (r : Q) (k : Q) : Q := sm4Iter T (sm4Iter T (sm4Iter T (sm4Iter T r k.l0) k.l1) k.l2) k.l3

/-- `vsm4eq_u32(X, rk)`, `vsm4ekeyq_u32(K, CK)`. -/
def vsm4e : Q → Q → Q := sm4Four Spec.sm4T
def vsm4ekey : Q → Q → Q := sm4Four Spec.sm4T'

/-- `veor3q_u64`, `vrax1q_u64`, `vbcaxq_u64`. -/
def veor3 (a b c : D) : D := ⟨a.l0 ^^^ b.l0 ^^^ c.l0, a.l1 ^^^ b.l1 ^^^ c.l1⟩
def vrax1 (n m : D) : D := ⟨n.l0 ^^^ m.l0.rotateLeft 1, n.l1 ^^^ m.l1.rotateLeft 1⟩
def vbcax (n m a : D) : D := ⟨n.l0 ^^^ (m.l0 &&& ~~~a.l0), n.l1 ^^^ (m.l1 &&& ~~~a.l1)⟩

end Spec.Isa
