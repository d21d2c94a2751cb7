import Verif.Lemmas.EdPoint
import Verif.Lemmas.EcExact
import Verif.Lemmas.EccPoint
import Verif.Lemmas.Ecc
import Verif.Model.EdDsa
import Verif.Spec.EdDsa

/-! Point decompression of EdDSA. -/

namespace Ec
open Vlong Spec

theorem remv448_zero (l : List W) : val (remv448 l) = 0 ↔ val l = 0 :=
  red_zero_of_fold tbl448_ok (by decide +kernel) rfl (by decide +kernel) l

theorem remv25519_zero (l : List W) : val (remv25519 l) = 0 ↔ val l = 0 := by
  unfold remv25519
  by_cases hl : l.length < 8
  · rw [if_pos hl]
  · rw [if_neg hl]
    have hV := val_lt l
    have e : l.length = 8 + (l.length - 8) := by omega
    obtain ⟨h1, h2, h3⟩ := foldLoop_val (p := val p25519) tbl25519_ok (by decide +kernel) (by decide +kernel)
      (l.length - 8) l (by omega) (by rw [← e]; exact hV)
    have z := foldLoop_zero tbl25519_ok (by norm_num) (by decide +kernel) (l.length - 8) l (by omega) (by rw [← e]; exact hV)
    set r0 := foldLoop tbl25519 8 (l.length - 8) l
    obtain ⟨a1, a2⟩ := foldTop_val r0 (by omega) h2
    have hd : val r0 / 2 ^ 255 < 2 := by
      rw [Nat.div_lt_iff_lt_mul (by positivity)]; norm_num at h2 ⊢; omega
    have hb1 := Nat.mod_lt (val r0) (show 0 < 2 ^ 255 by positivity)
    have hlt1 : val (foldTop25519 r0) < 2 ^ 255 + 19 := by
      rw [a2]; norm_num at hb1 hd ⊢; omega
    have z1 : val (foldTop25519 r0) = 0 ↔ val r0 = 0 := by rw [a2]; exact fold_zero (by norm_num)
    set r1 := foldTop25519 r0
    obtain ⟨c1, c2⟩ := foldTop_val r1 (by omega) (by norm_num at hlt1 ⊢; omega)
    have z2 : val (foldTop25519 r1) = 0 ↔ val r1 = 0 := by rw [c2]; exact fold_zero (by norm_num)
    set r2 := foldTop25519 r1
    obtain ⟨g1, g2⟩ := finSub_val r2 p25519 (by rw [show p25519.length = 8 from rfl]; omega)
    rw [g2, condSub_zero, z2, z1, z]

section
variable {aux : Aux} {c p : Nat} (hF : FieldOk aux c p) (hZ : RedZero aux.modfunc c (p * 2 ^ 40))
include hF hZ

theorem imod_zero {l : List W} (hl : l.length = c) (h0 : val l = 0) : val (imod aux l) = 0 := by
  have e : l = subv c l (List.replicate c 0) := by
    apply val_inj
    · rw [hl]; exact (length_addKernel _ _ _ _ _).symm
    · have hlen : (subv c l (List.replicate c 0)).length = c := length_addKernel _ _ _ _ _
      rw [h0]
      exact (nat_of_modEq hlen ((subv_modEq c _ _).trans (modEq_of_eq (by rw [h0, val_replicate_zero]; simp)))
        (by positivity)).symm
  rw [e]
  exact imod_sub_self hF hZ (by rw [h0, val_replicate_zero])

end
end Ec

namespace EdDsa
open Vlong Ec Spec

/-- What the signature functions need of a curve. -/
structure SigOk (C : EdCurve) (c p : Nat) (a d : ZMod p) : Prop where
  ok : EdOk C c p a d
  zero : RedZero C.aux.modfunc c (p * 2 ^ 40)
  pw : val C.p = p
  plt : p < 2 ^ C.pbits
  pgt : 2 ^ C.pbits ≤ 2 * p
  plow : 5 ≤ (rd C.aux.modCtx 0).toNat
  room : 8 * plen C ≤ 32 * c
  Lprime : (val C.L).Prime
  L2 : 2 < val C.L
  Llen : C.L.length ≤ c
  Lw : C.L.length ≤ 32
  Lroom : val C.L * 2 ^ 42 ≤ 2 ^ (32 * c)
  Lp : val C.L < p
  half : 2 ^ C.pbits ≤ 8 * val C.L
  kind : (cond25519 C = true ∧ C.pbits = 255 ∧ p % 8 = 5 ∧ a = -1 ∧ ((val po2_25519 : Nat) : ZMod p) ^ 2 = -1) ∨
    (cond25519 C = false ∧ cond448 C = true ∧ C.pbits = 448 ∧ p % 4 = 3 ∧ a = 1)

section
variable {C : EdCurve} {c p : Nat} [hp : Fact p.Prime] {a d : ZMod p} (hC : SigOk C c p a d)
include hC

theorem three : 2 < p := by
  have := hC.Lp; have := hC.L2; omega

theorem du_int : (C.dUnder.signExtend 64).toInt = C.dUnder.toNat := by
  rw [sx32, BitVec.toInt_eq_toNat_of_lt]
  have := hC.ok.dul; omega

theorem one_rep : Rep c p 1 (cpy c Ecc.one) 1 ∧ val (cpy c Ecc.one) = 1 := by
  have hc := hC.ok.fld.cpos
  have h2 := three hC
  have hv : val (cpy c Ecc.one) = 1 := by
    rw [val_cpy, Ecc.val_one, Nat.mod_eq_of_lt (Nat.one_lt_two_pow (by omega))]
  exact ⟨⟨length_cpy _ _, by omega, by rw [hv]; simp⟩, hv⟩

theorem ctx_ne : C.aux.modCtx ≠ [] := by
  intro h
  have := hC.ok.fld.ctx
  rw [h] at this
  have := three hC
  simp [val] at *
  omega

theorem pow_rep (k : Nat) (hk : k ≤ 5) (addend : BitVec 32) (ha : addend.toInt = -k) (shift : Nat) (hs : shift < 32)
    (hpk : k ≤ p) {j : Nat} (hj : j ≤ 2 ^ 7) {l : List W} {x : ZMod p} (h : Rep c p j l x) :
    Rep c p 1 (modexpShiftAdded C.aux c l addend shift) (x ^ ((p - k) / 2 ^ shift)) := by
  have h5 := hC.plow
  have hctx := hC.ok.fld.ctx
  have hlt := val_lt C.aux.modCtx
  refine modexp_repK hC.ok.fld hj addend shift (p - k) (by rw [ha]; omega) (by rw [ha]; omega) (by omega) hs (ctx_ne hC) h

theorem inv_rep {j : Nat} (hj : j ≤ 2 ^ 7) {l : List W} {x : ZMod p} (h : Rep c p j l x) : Rep c p 1 (invModP C c l) x⁻¹ := by
  have := pow_rep hC 2 (by norm_num) (-2) (by decide) 0 (by norm_num) (by have := three hC; omega) hj h
  rw [pow_zero, Nat.div_one, fermat_inv (three hC)] at this
  exact this

/-- `u = (y² - 1) d_under`, exactly zero for `y² = 1`. -/
theorem u_rep {l : List W} {z : ZMod p} (h : Rep c p 1 l z) :
    Rep c p 1 (imod C.aux (imuls (adds c l (-1) 0) (adds c l (-1) 0) (C.dUnder.signExtend 64) false))
      (C.dUnder.toNat * (z - 1)) ∧
    (z = 1 → val (imod C.aux (imuls (adds c l (-1) 0) (adds c l (-1) 0) (C.dUnder.signExtend 64) false)) = 0) := by
  have hF := hC.ok.fld
  have hdu := hC.ok.dul
  have h3 := three hC
  have hb := du_int hC
  have hle := h.le
  have hl1 : (adds c l (-1) 0).length = c := length_addKernel _ _ _ _ _
  have m1 := adds_modEq c l (-1) 0 (by decide) (by decide)
  rw [show (-1 : BitVec 64).toInt = -1 from by decide] at m1
  have m2 := imuls_modEq (adds c l (-1) 0) (adds c l (-1) 0) (C.dUnder.signExtend 64) false (by rw [hb]; omega) (by rw [hb]; omega)
  rw [hl1, hb] at m2
  generalize adds c l (-1) 0 = u1 at *
  have hl2 : (imuls u1 u1 (C.dUnder.signExtend 64) false).length = c := by
    unfold imuls; rw [length_imulsLoop, hl1]
  generalize imuls u1 u1 (C.dUnder.signExtend 64) false = u2 at *
  simp only [Bool.false_eq_true, if_false, Nat.cast_zero, add_zero, Nat.mul_zero, pow_zero, mul_one] at m1 m2
  have hfit := hF.fit (show (2 ^ 31 : Nat) ≤ 2 ^ 40 by norm_num)
  have hfit' : (4 * (2 ^ 31 * p) : Int) ≤ 2 ^ (32 * c) := by exact_mod_cast hfit
  have hle' : (val l : Int) ≤ p := by exact_mod_cast (show val l ≤ p by omega)
  have n0 : (0 : Int) ≤ val l := by positivity
  have hdu' : (C.dUnder.toNat : Int) < 2 ^ 31 := by exact_mod_cast hdu
  have n1 : (0 : Int) ≤ (C.dUnder.toNat : Int) := by positivity
  have h3' : (2 : Int) < p := by exact_mod_cast h3
  have lo : -(2 ^ 31 * p : Int) ≤ ((val l : Int) + -1) * C.dUnder.toNat := by nlinarith
  have hi : ((val l : Int) + -1) * C.dUnder.toNat ≤ 2 ^ 31 * p := by nlinarith
  have hv : sval u2 = ((val l : Int) + -1) * C.dUnder.toNat :=
    sval_of_modEq hF hl2 (m2.trans (Int.ModEq.mul_right _ m1)) (by linarith) (by linarith)
  have hs : SRep c p (2 ^ 31) u2 (C.dUnder.toNat * (z - 1)) := by
    refine ⟨hl2, by rw [hv]; push_cast; exact lo, by rw [hv]; push_cast; exact hi, ?_⟩
    rw [hv]; push_cast; rw [h.res]; ring
  refine ⟨imod_rep hF hs (by norm_num), fun hz => ?_⟩
  have hv1 : val l = 1 := by
    have := Ecc.val_of_rep h (by rw [hz]; exact one_ne_zero)
    rw [this, hz, ZMod.val_one_eq_one_mod, Nat.mod_eq_of_lt (by omega)]
  rw [hv1] at hv
  apply imod_zero hF hC.zero hl2
  unfold sval at hv
  have := val_lt u2
  split at hv <;> simp at hv
  · exact hv
  · rw [hl2] at this hv
    have h9 : ((val u2 : Nat) : Int) < 2 ^ (32 * c) := by exact_mod_cast this
    omega

/-- `v = d_over y² ± d_under`. -/
theorem v_rep {l : List W} {z : ZMod p} (h : Rep c p 1 l z) (b : BitVec 64) (e : Int) (hb : b.toInt = e)
    (he : e = C.dUnder.toNat ∨ e = -C.dUnder.toNat) :
    Rep c p 1 (imod C.aux (adds c (imuls (cpy c l) (cpy c l) C.dOver64 false) b 0)) (C.dUnder.toNat * (d * z) + e) := by
  have hF := hC.ok.fld
  have hdu := hC.ok.dul
  have h3 := three hC
  rw [cpy_self h.len]
  have h1 := hC.ok.dol
  have h2 := BitVec.toInt_lt (x := C.dOver)
  have hs := imuls_rep hF C.dOver64 h h.len (by unfold EdCurve.dOver64; rw [sx32]; norm_num at *; omega)
    (by unfold EdCurve.dOver64; rw [sx32]; norm_num at *; omega) (by norm_num)
  have hr : (((C.dOver64).toInt : Int) : ZMod p) = d * C.dUnder.toNat := by
    unfold EdCurve.dOver64; rw [sx32]; exact hC.ok.dov
  rw [hr] at hs
  generalize imuls l l C.dOver64 false = v1 at *
  have hl : (adds c v1 b 0).length = c := length_addKernel _ _ _ _ _
  have m := adds_modEq c v1 b 0 (by rw [hb]; rcases he with h | h <;> rw [h] <;> omega)
    (by rw [hb]; rcases he with h | h <;> rw [h] <;> omega)
  rw [hb, Nat.mul_zero, pow_zero, mul_one] at m
  generalize adds c v1 b 0 = v2 at *
  have hsv : (val v1 : Int) ≡ sval v1 [ZMOD 2 ^ (32 * c)] := by
    unfold sval
    rw [hs.len]
    split
    · exact Int.ModEq.refl _
    · simp [Int.ModEq]
  have hfit := hF.fit (show (2 ^ 39 : Nat) ≤ 2 ^ 40 by norm_num)
  have hfit' : (4 * (2 ^ 39 * p) : Int) ≤ 2 ^ (32 * c) := by exact_mod_cast hfit
  have h3' : (2 : Int) < p := by exact_mod_cast h3
  have hdu' : (C.dUnder.toNat : Int) < 2 ^ 31 := by exact_mod_cast hdu
  have n1 : (0 : Int) ≤ (C.dUnder.toNat : Int) := by positivity
  have he1 : -2 ^ 31 ≤ e ∧ e ≤ 2 ^ 31 := by rcases he with h | h <;> rw [h] <;> constructor <;> omega
  have lo := hs.lo
  have hi := hs.hi
  push_cast at lo hi
  have hv : sval v2 = sval v1 + e :=
    sval_of_modEq hF hl (m.trans (Int.ModEq.add_right _ hsv)) (by linarith [he1.1, he1.2]) (by linarith [he1.1, he1.2])
  have hS : SRep c p (2 ^ 39) v2 (C.dUnder.toNat * (d * z) + e) := by
    refine ⟨hl, ?_, ?_, ?_⟩
    · rw [hv]; push_cast; linarith [he1.1, he1.2]
    · rw [hv]; push_cast; linarith [he1.1, he1.2]
    · rw [hv]; push_cast; rw [hs.res]; ring
  exact imod_rep hF hS (by norm_num)

end
end EdDsa
