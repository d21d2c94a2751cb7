import Verif.Model.Ecdh
import Verif.Lemmas.Ecdsa

/-! ECDH: scaling the point at infinity (the aliased decoder), secrets in memory. -/

namespace Ecc
open Vlong Ec Spec EcParam

theorem length_octetsOf (v : List W) : (octetsOf v).length = 4 * v.length := by
  induction v with
  | nil => rfl
  | cons w v ih =>
    rw [show octetsOf (w :: v) = [w.extractLsb' 0 8, w.extractLsb' 8 8, w.extractLsb' 16 8, w.extractLsb' 24 8] ++ octetsOf v from rfl,
      List.length_append, ih]
    simp; omega

theorem octets_words : ∀ (n : Nat) (l : List Byte), l.length = 4 * n → octetsOf (wordsOf l) = l ∧ (wordsOf l).length = n
  | 0, l, h => by
    have : l = [] := List.length_eq_zero_iff.mp (by omega)
    subst this; exact ⟨rfl, rfl⟩
  | n + 1, l, h => by
    match l, h with
    | b0 :: b1 :: b2 :: b3 :: l, h =>
      obtain ⟨h1, h2⟩ := octets_words n l (by simp at h; omega)
      refine ⟨?_, by rw [wordsOf, List.length_cons, h2]⟩
      rw [wordsOf, show octetsOf ((BitVec.ofNat 32 (b0.toNat + 256 * b1.toNat + 65536 * b2.toNat + 16777216 * b3.toNat)) :: wordsOf l) = [(BitVec.ofNat 32 (b0.toNat + 256 * b1.toNat + 65536 * b2.toNat + 16777216 * b3.toNat)).extractLsb' 0 8,
        (BitVec.ofNat 32 (b0.toNat + 256 * b1.toNat + 65536 * b2.toNat + 16777216 * b3.toNat)).extractLsb' 8 8, (BitVec.ofNat 32 (b0.toNat + 256 * b1.toNat + 65536 * b2.toNat + 16777216 * b3.toNat)).extractLsb' 16 8, (BitVec.ofNat 32 (b0.toNat + 256 * b1.toNat + 65536 * b2.toNat + 16777216 * b3.toNat)).extractLsb' 24 8] ++
          octetsOf (wordsOf l) from rfl, h1]
      have e0 : (BitVec.ofNat 32 (b0.toNat + 256 * b1.toNat + 65536 * b2.toNat + 16777216 * b3.toNat)).extractLsb' 0 8 = b0 := by
        have := b0.isLt; have := b1.isLt; have := b2.isLt; have := b3.isLt
        apply BitVec.eq_of_toNat_eq; simp only [BitVec.extractLsb'_toNat, BitVec.toNat_ofNat, Nat.shiftRight_eq_div_pow]; omega
      have e1 : (BitVec.ofNat 32 (b0.toNat + 256 * b1.toNat + 65536 * b2.toNat + 16777216 * b3.toNat)).extractLsb' 8 8 = b1 := by
        have := b0.isLt; have := b1.isLt; have := b2.isLt; have := b3.isLt
        apply BitVec.eq_of_toNat_eq; simp only [BitVec.extractLsb'_toNat, BitVec.toNat_ofNat, Nat.shiftRight_eq_div_pow]; omega
      have e2 : (BitVec.ofNat 32 (b0.toNat + 256 * b1.toNat + 65536 * b2.toNat + 16777216 * b3.toNat)).extractLsb' 16 8 = b2 := by
        have := b0.isLt; have := b1.isLt; have := b2.isLt; have := b3.isLt
        apply BitVec.eq_of_toNat_eq; simp only [BitVec.extractLsb'_toNat, BitVec.toNat_ofNat, Nat.shiftRight_eq_div_pow]; omega
      have e3 : (BitVec.ofNat 32 (b0.toNat + 256 * b1.toNat + 65536 * b2.toNat + 16777216 * b3.toNat)).extractLsb' 24 8 = b3 := by
        have := b0.isLt; have := b1.isLt; have := b2.isLt; have := b3.isLt
        apply BitVec.eq_of_toNat_eq; simp only [BitVec.extractLsb'_toNat, BitVec.toNat_ofNat, Nat.shiftRight_eq_div_pow]; omega
      rw [e0, e1, e2, e3]; rfl

theorem saved {v r : List W} {plen : Nat} (hv : plen ≤ 4 * v.length) :
    octetsOf (saveOctets v r plen) = i2osp r plen ++ (octetsOf v).drop plen ∧ (saveOctets v r plen).length = v.length := by
  apply octets_words
  rw [List.length_append, List.length_drop, length_octetsOf, (Props.C06_i2osp r plen).1]
  omega

/-- What the words of the code do to the point at infinity. -/
structure AliasOk (C : Curve) (c : Nat) : Prop where
  a1 : pointAdd C c (xyzInf c) (xyzInf c) = xyzInf c
  a2 : pointDbl C c (xyzInf c) = ⟨List.replicate c 0, List.replicate c 0, List.replicate c 0⟩
  a3 : pointDbl C c ⟨List.replicate c 0, List.replicate c 0, List.replicate c 0⟩ =
    ⟨List.replicate c 0, List.replicate c 0, List.replicate c 0⟩
  a4 : pointAdd C c ⟨List.replicate c 0, List.replicate c 0, List.replicate c 0⟩ (xyzInf c) =
    ⟨List.replicate c 0, List.replicate c 0, List.replicate c 0⟩
  a5 : pointAdd C c ⟨List.replicate c 0, List.replicate c 0, List.replicate c 0⟩
    ⟨List.replicate c 0, List.replicate c 0, List.replicate c 0⟩ = ⟨List.replicate c 0, List.replicate c 0, List.replicate c 0⟩
  a6 : addU C c ⟨List.replicate c 0, List.replicate c 0, List.replicate c 0⟩ (xyzInf c) = List.replicate c 0
  a7 : addU C c ⟨List.replicate c 0, List.replicate c 0, List.replicate c 0⟩
    ⟨List.replicate c 0, List.replicate c 0, List.replicate c 0⟩ = List.replicate c 0
  len : C.n.length ≠ 0

/-- Single operations on the numbers zero and one. -/
structure ZeroOne (C : Curve) (c : Nat) (Z O : List W) : Prop where
  zz : mulM C.aux c Z Z 1 = Z
  oo : mulM C.aux c O O 1 = O
  zo : mulM C.aux c Z O 1 = Z
  oz : mulM C.aux c O Z 1 = Z
  bz : mulM C.aux c C.b Z 1 = Z
  zb : mulM C.aux c Z C.b 1 = Z
  azz : addv c Z Z = Z
  azo : addv c Z O = O
  aoz : addv c O Z = O
  szz : subv c Z Z = Z
  soo : subv c O O = Z
  soz : subv c O Z = O
  fz : C.aux.modfunc Z = Z
  fo : C.aux.modfunc O = O
  iz : imod C.aux Z = Z
  io : imod C.aux O = O
  cz : cpy c Z = Z
  co : cpy c O = O
  ma : imuls Z Z C.a64 false = Z
  m3 : imuls Z Z 3 false = Z
  mo3 : imuls O Z 3 false = Z
  u2 : muls Z Z 2 false = Z
  u3 : muls Z Z 3 false = Z
  u4 : muls Z Z 4 false = Z
  u8 : muls Z Z 8 false = Z
  hZ : List.replicate c 0 = Z
  hO : (1 : W) :: List.replicate (c - 1) 0 = O

set_option maxHeartbeats 4000000 in
theorem alias_of {C : Curve} {c : Nat} {Z O : List W} (h : ZeroOne C c Z O) (hl : C.n.length ≠ 0) : AliasOk C c := by
  have hI : xyzInf c = ⟨Z, O, Z⟩ := by unfold xyzInf; rw [h.hZ, h.hO]
  obtain ⟨zz, oo, zo, oz, bz, zb, azz, azo, aoz, szz, soo, soz, fz, fo, iz, io, cz, co, ma, m3, mo3, u2, u3, u4, u8, hZ, hO⟩ := h
  constructor
  · rw [hI]; unfold pointAdd; simp only [zz, oo, zo, oz, bz, zb, azz, azo, aoz, szz, soo, soz, fz, fo, iz, io, cz, co, ma, m3, mo3, hZ]
  · rw [hI, hZ]; unfold pointDbl; simp only [zz, oo, zo, oz, azz, azo, aoz, szz, soo, soz, fz, fo, iz, io, cz, co, ma, m3, u2, u3, u4, u8, hZ]
  · rw [hZ]; unfold pointDbl; simp only [zz, azz, szz, fz, iz, ma, u2, u3, u4, u8, hZ]
  · rw [hI, hZ]; unfold pointAdd; simp only [zz, oo, zo, oz, bz, zb, azz, azo, aoz, szz, soo, soz, fz, fo, iz, io, cz, co, ma, m3, mo3, hZ]
  · rw [hZ]; unfold pointAdd; simp only [zz, bz, zb, azz, szz, fz, iz, cz, ma, m3, hZ]
  · rw [hI, hZ]; unfold addU; simp only [zz, oo, zo, oz, azz, azo, aoz, szz, soo, soz, fz, fo, iz, io, cz, co]
  · rw [hZ]; unfold addU; simp only [zz, azz, szz, fz, iz, cz]
  · exact hl

set_option maxHeartbeats 4000000 in
theorem zo256 : ZeroOne secp256r1 11 [0,0,0,0,0,0,0,0,0,0,0] [1,0,0,0,0,0,0,0,0,0,0] := by
  constructor <;> decide +kernel
set_option maxHeartbeats 4000000 in
theorem zo384 : ZeroOne secp384r1 15 [0,0,0,0,0,0,0,0,0,0,0,0,0,0,0] [1,0,0,0,0,0,0,0,0,0,0,0,0,0,0] := by
  constructor <;> decide +kernel
set_option maxHeartbeats 4000000 in
theorem zoSM2 : ZeroOne curveSM2 11 [0,0,0,0,0,0,0,0,0,0,0] [1,0,0,0,0,0,0,0,0,0,0] := by
  constructor <;> decide +kernel

theorem alias256 : AliasOk secp256r1 11 := alias_of zo256 (by decide)
theorem alias384 : AliasOk secp384r1 15 := alias_of zo384 (by decide)
theorem aliasSM2 : AliasOk curveSM2 11 := alias_of zoSM2 (by decide)

theorem xyzSubst_eq {c : Nat} {A B : Xyz} (hA : A.x.length = c ∧ A.y.length = c ∧ A.z.length = c)
    (hB : B.x.length = c ∧ B.y.length = c ∧ B.z.length = c) (s : List W) (i : Nat) :
    xyzSubst A B ((rd s (i / 32) >>> (i % 32)) &&& 1) = A ∨ xyzSubst A B ((rd s (i / 32) >>> (i % 32)) &&& 1) = B := by
  rw [scalar_bit]
  have hn : val s / 2 ^ i % 2 = 0 ∨ val s / 2 ^ i % 2 = 1 := by omega
  unfold xyzSubst
  rw [substWords_eq _ _ _ _ hn rfl (by omega), substWords_eq _ _ _ _ hn rfl (by omega), substWords_eq _ _ _ _ hn rfl (by omega)]
  rcases hn with h | h <;> rw [h]
  · left; rfl
  · right; rfl

section
variable {C : Curve} {c : Nat} (hA : AliasOk C c) (hc : 0 < c)
include hA hc

/-- The null triple. -/
def nul (c : Nat) : Xyz := ⟨List.replicate c 0, List.replicate c 0, List.replicate c 0⟩

theorem inf_len : (xyzInf c).x.length = c ∧ (xyzInf c).y.length = c ∧ (xyzInf c).z.length = c := by
  unfold xyzInf; simp; omega
omit hA hc in
theorem nul_len : (nul c).x.length = c ∧ (nul c).y.length = c ∧ (nul c).z.length = c := by simp [nul]

theorem alias_loop (s : List W) : ∀ (k i : Nat) (A : Xyz), (A = xyzInf c ∨ A = nul c) →
    (scaleLoop C c s k i A (nul c) = xyzInf c ∨ scaleLoop C c s k i A (nul c) = nul c) ∧
    (k ≠ 0 → scaleLoopU C c s k i A (nul c) = List.replicate c 0)
  | 0, i, A, h => ⟨h, fun h => absurd rfl h⟩
  | k + 1, i, A, h => by
    have hadd : pointAdd C c (nul c) A = nul c := by
      rcases h with rfl | rfl
      · exact hA.a4
      · exact hA.a5
    have hu : addU C c (nul c) A = List.replicate c 0 := by
      rcases h with rfl | rfl
      · exact hA.a6
      · exact hA.a7
    have hlen : A.x.length = c ∧ A.y.length = c ∧ A.z.length = c := by
      rcases h with rfl | rfl
      · exact inf_len hA hc
      · exact nul_len
    have hs := xyzSubst_eq hlen (B := nul c) nul_len s i
    have hs' : xyzSubst A (nul c) ((rd s (i / 32) >>> (i % 32)) &&& 1) = xyzInf c ∨
        xyzSubst A (nul c) ((rd s (i / 32) >>> (i % 32)) &&& 1) = nul c := by
      rcases hs with e | e <;> rw [e]
      · exact h
      · exact Or.inr rfl
    rw [scaleLoop, scaleLoopU]
    simp only [hadd]
    by_cases hk : k = 0
    · rw [if_pos hk, if_pos hk]; exact ⟨hs', fun _ => hu⟩
    · rw [if_neg hk, if_neg hk, show pointDbl C c (nul c) = nul c from hA.a3]
      obtain ⟨g1, g2⟩ := alias_loop s k (i + 1) _ hs'
      exact ⟨g1, fun _ => g2 hk⟩

/-- Scaling the point at infinity by the group order: nothing but zeros. -/
theorem alias_scale : val (scaleAccumulate C c (xyzInf c) (xyzInf c) C.n).z = 0 ∧
    scaleLoopU C c C.n (C.n.length * 32) 0 (xyzInf c) (xyzCopy c (xyzInf c)) = List.replicate c 0 := by
  obtain ⟨l1, l2, l3⟩ := inf_len hA hc
  have hcp : xyzCopy c (xyzInf c) = xyzInf c := by
    unfold xyzCopy; rw [cpy_self l1, cpy_self l2, cpy_self l3]
  unfold scaleAccumulate
  rw [hcp]
  obtain ⟨k, hk⟩ : ∃ k, C.n.length * 32 = k + 2 := ⟨C.n.length * 32 - 2, by have := hA.len; omega⟩
  rw [hk, scaleLoop, scaleLoopU, if_neg (by omega), if_neg (by omega)]
  simp only [hA.a1, hA.a2]
  have hs : xyzSubst (xyzInf c) (xyzInf c) ((rd C.n (0 / 32) >>> (0 % 32)) &&& 1) = xyzInf c := by
    rcases xyzSubst_eq (inf_len hA hc) (inf_len hA hc) C.n 0 with h | h <;> exact h
  rw [hs]
  obtain ⟨g1, g2⟩ := alias_loop hA hc C.n (k + 1) (0 + 1) (xyzInf c) (Or.inl rfl)
  refine ⟨?_, g2 (by omega)⟩
  rcases g1 with e | e
  · rw [show (⟨List.replicate c 0, List.replicate c 0, List.replicate c 0⟩ : Xyz) = nul c from rfl, e]; exact val_replicate_zero c
  · rw [show (⟨List.replicate c 0, List.replicate c 0, List.replicate c 0⟩ : Xyz) = nul c from rfl, e]; exact val_replicate_zero c

end

end Ecc
