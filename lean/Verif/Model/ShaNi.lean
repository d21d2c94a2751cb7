import Verif.Spec.IsaHash
import Verif.Model.Fips180

/-!
# Model of `src/1-symm/fips-180-x86.c` and `src/1-symm/fips-180-arm.c` (little-endian)

The array `w[]` of vectors is a list overwritten in place.  The mock definitions of `fips-180-x86.c:6-180` (`TEST_WITH_MOCK`) are not
modelled: the intrinsics are those of `Spec/IsaHash.lean`.
-/
namespace Fips180
open Spec.Isa

/-- Element of a vector array. -/
def atq (w : List Q) (i : Nat) : Q := w.getD i ⟨0, 0, 0, 0⟩
def atd (w : List D) (i : Nat) : D := w.getD i ⟨0, 0⟩

/-- The sixteen octets from offset `o`: `_mm_loadu_si128`, `vld1q_u32`, `vld1q_u64`. -/
def oct16 (M : List (BitVec 8)) (o : Nat) : List (BitVec 8) := (List.range 16).map fun k => M.getD (o + k) 0

/-- Registers of `compressfunc_sha1_ni`. -/
structure X1 where
  w : List Q
  abcd : Q
  e : Q
  save : Q

/-- The loop body, `fips-180-x86.c:204-218`. -/
def x86Sha1Step (s : X1) (i : Nat) : X1 :=
  let e := s.abcd
  let abcd := s.abcd
  let abcd := if 0 ≤ i ∧ i < 5 then sha1rnds4 abcd s.save 0 else abcd
  let abcd := if 5 ≤ i ∧ i < 10 then sha1rnds4 abcd s.save 1 else abcd
  let abcd := if 10 ≤ i ∧ i < 15 then sha1rnds4 abcd s.save 2 else abcd
  let abcd := if 15 ≤ i ∧ i < 20 then sha1rnds4 abcd s.save 3 else abcd
  let w := s.w
  let w := if i ≥ 1 then w.set ((i - 1) % 4) (sha1msg1 (atq w ((i - 1) % 4)) (atq w (i % 4))) else w
  let w := if i ≥ 2 then w.set ((i - 2) % 4) ((atq w ((i - 2) % 4)).xor (atq w (i % 4))) else w
  let w := if i ≥ 3 then w.set ((i - 3) % 4) (sha1msg2 (atq w ((i - 3) % 4)) (atq w (i % 4))) else w
  ⟨w, abcd, e, sha1nexte e (atq w ((i + 1) % 4))⟩

/-- `compressfunc_sha1_ni`, `fips-180-x86.c:183-225`. -/
def x86Sha1 (H : List (BitVec 32)) (M : List (BitVec 8)) : List (BitVec 32) :=
  let w := (List.range 4).map fun i => q32 (shuffleEpi8 (oct16 M (16 * i)) [15, 14, 13, 12, 11, 10, 9, 8, 7, 6, 5, 4, 3, 2, 1, 0])
  let abcd := setEpi32 (at_ H 0) (at_ H 1) (at_ H 2) (at_ H 3)
  let e := setEpi32 (at_ H 4) 0 0 0
  let save := e.add (atq w 0)
  let s := (List.range 20).foldl x86Sha1Step ⟨w, abcd, e, save⟩
  [at_ H 0 + s.abcd.l3, at_ H 1 + s.abcd.l2, at_ H 2 + s.abcd.l1, at_ H 3 + s.abcd.l0, at_ H 4 + (s.e.l3 <<< 30 ||| s.e.l3 >>> 2)]

/-- Registers of `compressfunc_sha256_ni`. -/
structure X2 where
  w : List Q
  abef : Q
  cdgh : Q

/-- `_mm_loadu_si128(&K_sha256[i*4])`, `vld1q_u32(K_sha256+i*4)`. -/
def k4 (i : Nat) : Q := ⟨at_ kSha256 (4 * i), at_ kSha256 (4 * i + 1), at_ kSha256 (4 * i + 2), at_ kSha256 (4 * i + 3)⟩

/-- The loop body, `fips-180-x86.c:248-266`. -/
def x86Sha256Step (s : X2) (i : Nat) : X2 :=
  let save := (atq s.w (i % 4)).add (k4 i)
  let cdgh := sha256rnds2 s.cdgh s.abef save
  let save := shuffleEpi32 save 0x0e
  let abef := sha256rnds2 s.abef cdgh save
  let w := s.w
  let w := if i ≥ 3 then
      let save := atq w (i % 4)
      let save := alignr4 save (atq w ((i - 1) % 4))
      let w := w.set ((i - 3) % 4) ((atq w ((i - 3) % 4)).add save)
      w.set ((i - 3) % 4) (sha256msg2 (atq w ((i - 3) % 4)) (atq w (i % 4)))
    else w
  let w := if i ≥ 1 then w.set ((i - 1) % 4) (sha256msg1 (atq w ((i - 1) % 4)) (atq w (i % 4))) else w
  ⟨w, abef, cdgh⟩

/-- `compressfunc_sha256_ni`, `fips-180-x86.c:229-279`. -/
def x86Sha256 (H : List (BitVec 32)) (M : List (BitVec 8)) : List (BitVec 32) :=
  let w := (List.range 4).map fun i => q32 (shuffleEpi8 (oct16 M (16 * i)) [3, 2, 1, 0, 7, 6, 5, 4, 11, 10, 9, 8, 15, 14, 13, 12])
  let abef := setEpi32 (at_ H 0) (at_ H 1) (at_ H 4) (at_ H 5)
  let cdgh := setEpi32 (at_ H 2) (at_ H 3) (at_ H 6) (at_ H 7)
  let s := (List.range 16).foldl x86Sha256Step ⟨w, abef, cdgh⟩
  [at_ H 0 + s.abef.l3, at_ H 1 + s.abef.l2, at_ H 2 + s.cdgh.l3, at_ H 3 + s.cdgh.l2,
   at_ H 4 + s.abef.l1, at_ H 5 + s.abef.l0, at_ H 6 + s.cdgh.l1, at_ H 7 + s.cdgh.l0]

/-- `compressfunc_sha512_ni`, `fips-180-x86.c:281-285`: the portable function. -/
def x86Sha512 (H : List (BitVec 64)) (M : List (BitVec 8)) : List (BitVec 64) := sha2 par512 H M

/-! ## Arm -/

/-- Registers of `compressfunc_sha1_ni`. -/
structure A1 where
  w : List Q
  abcd : Q
  e : BitVec 32

/-- The loop body, `fips-180-arm.c:33-66`; one of the four conditions holds for every `i < 20`, `save` keeps its value otherwise (here 0). -/
def armSha1Step (s : A1) (i : Nat) : A1 :=
  let wi := atq s.w (i % 4)
  let save :=
    if 0 ≤ i ∧ i < 5 then vsha1c s.abcd s.e (wi.add (dup32 0x5a827999))
    else if 5 ≤ i ∧ i < 10 then vsha1p s.abcd s.e (wi.add (dup32 0x6ed9eba1))
    else if 10 ≤ i ∧ i < 15 then vsha1m s.abcd s.e (wi.add (dup32 0x8f1bbcdc))
    else if 15 ≤ i ∧ i < 20 then vsha1p s.abcd s.e (wi.add (dup32 0xca62c1d6))
    else ⟨0, 0, 0, 0⟩
  let e := vsha1h s.abcd.l0
  let abcd := save
  let w := s.w
  let w := w.set (i % 4) (vsha1su0 (atq w (i % 4)) (atq w ((i + 1) % 4)) (atq w ((i + 2) % 4)))
  let w := w.set (i % 4) (vsha1su1 (atq w (i % 4)) (atq w ((i + 3) % 4)))
  ⟨w, abcd, e⟩

/-- `w[i] = vld1q_u32(M+i*4)` with the octets of each word reversed, `fips-180-arm.c:17-25`, `:84-92`. -/
def armLoad (M : List (BitVec 8)) (i : Nat) : Q := q32 (rev32 (oct16 M (16 * i)))

/-- `compressfunc_sha1_ni`, `fips-180-arm.c:10-72`. -/
def armSha1 (H : List (BitVec 32)) (M : List (BitVec 8)) : List (BitVec 32) :=
  let w := (List.range 4).map (armLoad M)
  let s := (List.range 20).foldl armSha1Step ⟨w, ⟨at_ H 0, at_ H 1, at_ H 2, at_ H 3⟩, at_ H 4⟩
  [at_ H 0 + s.abcd.l0, at_ H 1 + s.abcd.l1, at_ H 2 + s.abcd.l2, at_ H 3 + s.abcd.l3, at_ H 4 + s.e]

/-- Registers of `compressfunc_sha256_ni`. -/
structure A2 where
  w : List Q
  abcd : Q
  efgh : Q

/-- The loop body, `fips-180-arm.c:98-107`. -/
def armSha256Step (s : A2) (i : Nat) : A2 :=
  let temp := (atq s.w (i % 4)).add (k4 i)
  let save := vsha256h s.abcd s.efgh temp
  let efgh := vsha256h2 s.efgh s.abcd temp
  let abcd := save
  let w := s.w
  let w := w.set (i % 4) (vsha256su0 (atq w (i % 4)) (atq w ((i + 1) % 4)))
  let w := w.set (i % 4) (vsha256su1 (atq w (i % 4)) (atq w ((i + 2) % 4)) (atq w ((i + 3) % 4)))
  ⟨w, abcd, efgh⟩

/-- `compressfunc_sha256_ni`, `fips-180-arm.c:77-114`. -/
def armSha256 (H : List (BitVec 32)) (M : List (BitVec 8)) : List (BitVec 32) :=
  let w := (List.range 4).map (armLoad M)
  let s := (List.range 16).foldl armSha256Step ⟨w, ⟨at_ H 0, at_ H 1, at_ H 2, at_ H 3⟩, ⟨at_ H 4, at_ H 5, at_ H 6, at_ H 7⟩⟩
  [at_ H 0 + s.abcd.l0, at_ H 1 + s.abcd.l1, at_ H 2 + s.abcd.l2, at_ H 3 + s.abcd.l3,
   at_ H 4 + s.efgh.l0, at_ H 5 + s.efgh.l1, at_ H 6 + s.efgh.l2, at_ H 7 + s.efgh.l3]

/-- Registers of `compressfunc_sha512_ni`. -/
structure A5 where
  w : List D
  ab : D
  cd : D
  ef : D
  gh : D

/-- The loop body, `fips-180-arm.c:140-157`. -/
def armSha512Step (s : A5) (i : Nat) : A5 :=
  let tmp1 := (atd s.w (i % 8)).add ⟨at_ kSha512 (2 * i), at_ kSha512 (2 * i + 1)⟩
  let tmp1 := (vext64 tmp1 tmp1).add s.gh
  let tmp2 := vext64 s.cd s.ef
  let tmp3 := vext64 s.ef s.gh
  let save := vsha512h tmp1 tmp3 tmp2
  let tmp1 := vsha512h2 save s.cd s.ab
  let gh := s.ef
  let ef := s.cd.add save
  let cd := s.ab
  let ab := tmp1
  let w := s.w
  let tmp1 := vext64 (atd w ((i + 4) % 8)) (atd w ((i + 5) % 8))
  let w := w.set (i % 8) (vsha512su0 (atd w (i % 8)) (atd w ((i + 1) % 8)))
  let w := w.set (i % 8) (vsha512su1 (atd w (i % 8)) (atd w ((i + 7) % 8)) tmp1)
  ⟨w, ab, cd, ef, gh⟩

/-- `compressfunc_sha512_ni`, `fips-180-arm.c:116-170`. -/
def armSha512 (H : List (BitVec 64)) (M : List (BitVec 8)) : List (BitVec 64) :=
  let w := (List.range 8).map fun i => d64 (rev64 (oct16 M (16 * i)))
  let s := (List.range 40).foldl armSha512Step ⟨w, ⟨at_ H 0, at_ H 1⟩, ⟨at_ H 2, at_ H 3⟩, ⟨at_ H 4, at_ H 5⟩, ⟨at_ H 6, at_ H 7⟩⟩
  [at_ H 0 + s.ab.l0, at_ H 1 + s.ab.l1, at_ H 2 + s.cd.l0, at_ H 3 + s.cd.l1,
   at_ H 4 + s.ef.l0, at_ H 5 + s.ef.l1, at_ H 6 + s.gh.l0, at_ H 7 + s.gh.l1]

end Fips180
