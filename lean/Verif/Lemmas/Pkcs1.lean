import Verif.Model.Pkcs1
import Verif.Spec.Pkcs1
import Verif.Lemmas.Rsa

/-! # Lemmas about the PKCS #1 model: buffers, mask generation, small bit tricks -/

namespace Pkcs1
open Vlong Spec.Pkcs1

/-! ## Buffers -/

theorem rdAt_mid (A B C : List Byte) (off len : Nat) (ho : A.length = off) (hl : B.length = len) :
    rdAt (A ++ (B ++ C)) off len = some B := by
  subst ho hl
  rw [rdAt, if_pos (by simp)]
  simp

theorem wrAt_mid (A B C bs : List Byte) (off : Nat) (ho : A.length = off) (hl : B.length = bs.length) :
    wrAt (A ++ (B ++ C)) off bs = some (A ++ (bs ++ C)) := by
  subst ho
  rw [wrAt, if_pos (by simp; omega)]
  rw [← hl]
  simp

theorem length_xorBytes (a b : List Byte) (h : a.length = b.length) : (xorBytes a b).length = a.length := by
  simp [xorBytes, h]

theorem xorBytes_self (a b : List Byte) (h : a.length = b.length) : xorBytes (xorBytes a b) b = a := by
  apply List.ext_getElem
  · simp [xorBytes, h]
  · intro i h1 h2
    simp [xorBytes, BitVec.xor_assoc]

@[simp] theorem length_digest (h : Hash) (m t) : (h.digest m t).length = t := by simp [Hash.digest]

/-! ## Mask generation -/

/-- The mask generation function a hash function gives: MGF1 for a plain hash, the output itself for an XOF. -/
def Hash.mgf (h : Hash) (seed : List Byte) (len : Nat) : List Byte :=
  if h.xof then h.digest seed len else Spec.Pkcs1.mgf1 (fun m => h.digest m h.hlen) h.hlen seed len

theorem be32_eq (c : Nat) : be32 (BitVec.ofNat 32 c) = counter4 c := by
  have key : ∀ s, (BitVec.ofNat 32 c >>> s).setWidth 8 = BitVec.ofNat 8 (c % 2 ^ 32 / 2 ^ s) := by
    intro s
    apply BitVec.eq_of_toNat_eq
    simp [Nat.shiftRight_eq_div_pow]
  have key0 : (BitVec.ofNat 32 c).setWidth 8 = BitVec.ofNat 8 c := by
    apply BitVec.eq_of_toNat_eq
    simp
  unfold be32 counter4
  rw [key, key, key, key0]
  congr 1
  · apply BitVec.eq_of_toNat_eq; simp; omega
  · congr 1
    · apply BitVec.eq_of_toNat_eq; simp; omega
    · congr 1
      apply BitVec.eq_of_toNat_eq; simp; omega

theorem zipWith_split (dst m1 m2 : List Byte) (h : m1.length ≤ dst.length) :
    List.zipWith (· ^^^ ·) dst (m1 ++ m2)
      = List.zipWith (· ^^^ ·) (dst.take m1.length) m1 ++ List.zipWith (· ^^^ ·) (dst.drop m1.length) m2 := by
  conv_lhs => rw [← List.take_append_drop m1.length dst]
  rw [List.zipWith_append]
  simp [h]

theorem mgf1Loop_eq (h : Hash) (inp : List Byte) (hh : 0 < h.hlen) (fuel c m : Nat) (dst : List Byte)
    (hf : dst.length ≤ fuel) (hm : dst.length ≤ m * h.hlen) :
    mgf1Loop h inp true fuel (BitVec.ofNat 32 c) dst
      = List.zipWith (· ^^^ ·) dst ((List.range' c m).flatMap fun i => h.digest (inp ++ counter4 i) h.hlen) := by
  induction fuel generalizing c m dst with
  | zero =>
    have : dst = [] := List.length_eq_zero_iff.mp (by omega)
    subst this; simp [mgf1Loop]
  | succ f ih =>
    rw [mgf1Loop]
    by_cases h0 : dst.length = 0
    · rw [if_pos h0]
      rw [List.length_eq_zero_iff] at h0
      subst h0; simp
    · rw [if_neg h0]
      obtain ⟨m', rfl⟩ : ∃ m', m = m' + 1 := ⟨m - 1, by
        rcases m with _ | m
        · rw [Nat.zero_mul] at hm; omega
        · rfl⟩
      rw [List.range'_succ, List.flatMap_cons]
      simp only [be32_eq, mask, if_true]
      by_cases ht : h.hlen < dst.length
      · rw [if_pos ht]
        rw [zipWith_split _ _ _ (by simp; omega), length_digest]
        congr 1
        rw [show BitVec.ofNat 32 c + 1 = BitVec.ofNat 32 (c + 1) by
          apply BitVec.eq_of_toNat_eq; simp]
        apply ih
        · simp; omega
        · simp; rw [Nat.add_mul] at hm; omega
      · rw [if_neg ht]
        have hd : h.digest (inp ++ counter4 c) h.hlen
            = h.digest (inp ++ counter4 c) dst.length ++ (h.digest (inp ++ counter4 c) h.hlen).drop dst.length := by
          conv_lhs => rw [← List.take_append_drop dst.length (h.digest (inp ++ counter4 c) h.hlen)]
          congr 1
          rw [Hash.digest, Hash.digest, ← List.map_take, List.take_range, Nat.min_eq_left (by omega)]
        rw [hd, List.append_assoc, zipWith_split _ _ _ (by simp), length_digest]
        congr 1
        have : dst.drop dst.length = [] := by simp
        rw [this]
        cases f <;> simp [mgf1Loop]

theorem mgfXofLoop_eq (h : Hash) (inp : List Byte) (fuel pos : Nat) (dst : List Byte) (hf : dst.length ≤ fuel) :
    mgfXofLoop h inp true fuel pos dst
      = List.zipWith (· ^^^ ·) dst ((List.range' pos dst.length).map (h.out inp)) := by
  induction fuel generalizing pos dst with
  | zero =>
    have : dst = [] := List.length_eq_zero_iff.mp (by omega)
    subst this; simp [mgfXofLoop]
  | succ f ih =>
    rw [mgfXofLoop]
    by_cases h0 : dst.length = 0
    · rw [if_pos h0]
      rw [List.length_eq_zero_iff] at h0
      subst h0; simp
    · rw [if_neg h0]
      simp only [mask, if_true]
      obtain ⟨t, ht⟩ : ∃ t, t = if 16 < dst.length then 16 else dst.length := ⟨_, rfl⟩
      rw [← ht]
      have htl : t ≤ dst.length ∧ 0 < t := by subst ht; split <;> omega
      have e1 : ((List.range t).map fun i => h.out inp (pos + i)) = (List.range' pos t).map (h.out inp) := by
        rw [List.range'_eq_map_range, List.map_map]; rfl
      have e2 : List.range' pos dst.length = List.range' pos t ++ List.range' (pos + t) (dst.length - t) := by
        have : dst.length = t + (dst.length - t) := by omega
        conv_lhs => rw [this]
        rw [List.range'_append_1]
      rw [e1, e2, List.map_append, zipWith_split _ _ _ (by simp; omega)]
      simp only [List.length_map, List.length_range']
      congr 1
      rw [ih _ _ (by simp; omega)]
      simp

theorem mgfAuto_eq (h : Hash) (inp dst : List Byte) (hh : h.xof = false → 0 < h.hlen) :
    mgfAuto h inp dst true = xorBytes dst (h.mgf inp dst.length) := by
  unfold mgfAuto Hash.mgf xorBytes
  by_cases hx : h.xof
  · rw [if_pos hx, if_pos hx, mgfXofLoop_eq _ _ _ _ _ (Nat.le_refl _), Hash.digest, List.range_eq_range']
  · rw [if_neg hx, if_neg hx]
    have hh := hh (by simpa using hx)
    rw [show (0 : BitVec 32) = BitVec.ofNat 32 0 from rfl,
      mgf1Loop_eq h inp hh _ 0 ((dst.length + h.hlen - 1) / h.hlen) dst (Nat.le_refl _) ?_]
    · unfold Spec.Pkcs1.mgf1
      rw [List.range_eq_range', List.zipWith_eq_zipWith_take_min]
      conv_rhs => rw [List.zipWith_eq_zipWith_take_min]
      simp only [List.length_take, List.take_take]
      congr 1 <;> congr 1 <;> omega
    · have := Nat.div_add_mod (dst.length + h.hlen - 1) h.hlen
      have := Nat.mod_lt (dst.length + h.hlen - 1) hh
      rw [Nat.mul_comm]; omega

theorem length_mgf (h : Hash) (hh : h.xof = false → 0 < h.hlen) (seed : List Byte) (len : Nat) :
    (h.mgf seed len).length = len := by
  unfold Hash.mgf
  by_cases hx : h.xof
  · rw [if_pos hx]; simp
  · rw [if_neg hx]
    have hh := hh (by simpa using hx)
    unfold Spec.Pkcs1.mgf1
    rw [List.length_take, List.length_flatMap]
    simp only [length_digest, List.map_const', List.length_range, List.sum_replicate]
    have h1 := Nat.div_add_mod (len + h.hlen - 1) h.hlen
    have h2 := Nat.mod_lt (len + h.hlen - 1) hh
    simp only [smul_eq_mul]
    rw [Nat.mul_comm] at h1
    omega

theorem mgfAt_eq (h : Hash) (hh : h.xof = false → 0 < h.hlen) (buf : List Byte) (i il o ol : Nat) (inp dst : List Byte)
    (hi : rdAt buf i il = some inp) (ho : rdAt buf o ol = some dst) (hl : dst.length = ol) :
    mgfAt h buf i il o ol = wrAt buf o (xorBytes dst (h.mgf inp ol)) := by
  unfold mgfAt
  rw [hi, ho]
  simp only [Option.bind_eq_bind, Option.bind_some]
  rw [mgfAuto_eq h _ _ hh, hl]

/-! ## Bit tricks -/

theorem nonzeroBit_eq : ∀ v : Byte, nonzeroBit v = if v = 0 then 0 else 1 := by decide +kernel

end Pkcs1
