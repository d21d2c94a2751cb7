import Verif.Lemmas.EdDsaEnc
import Verif.Lemmas.Pkcs1
import Mathlib.GroupTheory.OrderOfElement

/-! EdDSA keys, signatures and verification. -/

namespace EdDsa
open Vlong Ec Spec

section
variable {C : EdCurve} {c p : Nat} [hp : Fact p.Prime] {a d : ZMod p}

/-- Affine coordinates up to the two words of zero. -/
structure Norm (c : Nat) (P : Xytz) (Q : EdPoint a d) : Prop where
  x : Rep c p 1 P.x Q.x
  y : Rep c p 1 P.y Q.y
  t : Rep c p 1 P.t (Q.x * Q.y)
  z : Rep c p 1 P.z 1

theorem Norm.toE {P : Xytz} {Q : EdPoint a d} (h : Norm c P Q) : EPt c P Q :=
  ⟨_, _, _, _, ⟨h.x, h.y, h.t, h.z⟩, one_ne_zero, by ring, by ring, by ring⟩

theorem Aff.norm {P : Xytz} {Q : EdPoint a d} (h : Aff c 1 P Q) : Norm c P Q := ⟨h.x.1, h.y, h.t, h.z⟩

variable (hC : SigOk C c p a d)
include hC

theorem canon_spec {k : Nat} (hk : k ≤ 2 ^ 7) {P : Xytz} {Q : EdPoint a d} (h : EPtK k c P Q) : Norm c (canon C c P) Q := by
  have hF := hC.ok.fld
  obtain ⟨x, y, t, z, ⟨rx, ry, rt, rz⟩, hz, ex, ey, et⟩ := h
  have hi := inv_rep hC hk rz
  unfold canon
  refine ⟨?_, ?_, ?_, (one_rep hC).1⟩
  · exact (cpy_rep hF (mul_rr hF rx hi hk)).of_eq (by rw [ex]; field_simp)
  · exact (cpy_rep hF (mul_rr hF ry hi hk)).of_eq (by rw [ey]; field_simp)
  · exact (cpy_rep hF (mul_rr hF rt hi hk)).of_eq (by rw [et]; field_simp)

theorem pointEnc_exact {P : Xytz} {Q : EdPoint a d} (hx : val P.x = Q.x.val) (hy : val P.y = Q.y.val) :
    pointEnc C P = edEncode (plen C) Q := by
  obtain ⟨h1, h2⟩ := pointEnc_val C P
  unfold edEncode
  apply leNat_inj
  · rw [h1, show (leN (plen C) _).length = plen C by simp [leN]]
  · have hylt : Q.y.val < 2 ^ C.pbits := (ZMod.val_lt _).trans hC.plt
    have hpl := plen_eq C
    rw [h2, leNat_leN, hx, hy, Nat.mod_eq_of_lt hylt]
    symm
    apply Nat.mod_eq_of_lt
    have e1 : 2 ^ C.pbits ≤ 2 ^ (8 * plen C - 1) := Nat.pow_le_pow_right (by norm_num) (by omega)
    have e2 : 256 ^ plen C = 2 * 2 ^ (8 * plen C - 1) := by
      rw [show (256 : Nat) = 2 ^ 8 by norm_num, ← Nat.pow_mul, ← pow_succ']; congr 1; omega
    rw [e2]
    have : Q.x.val % 2 < 2 := Nat.mod_lt _ (by norm_num)
    generalize Q.x.val % 2 = m at *
    interval_cases m <;> omega

theorem pointEnc_norm {P : Xytz} {Q : EdPoint a d} (h : Norm c P Q) (hx : Q.x ≠ 0) (hy : Q.y ≠ 0) :
    pointEnc C P = edEncode (plen C) Q :=
  pointEnc_exact hC (Ecc.val_of_rep h.x hx) (Ecc.val_of_rep h.y hy)

variable [hE : EdComplete a d]

theorem pointEnc_inj {P P' : Xytz} {Q Q' : EdPoint a d} (h : Norm c P Q) (h' : Norm c P' Q')
    (he : pointEnc C P = pointEnc C P') : Q = Q' := by
  have hpl := plen_eq C
  have e := congrArg leNat he
  rw [(pointEnc_val C P).2, (pointEnc_val C P').2] at e
  have e1 : 2 ^ C.pbits ≤ 2 ^ (8 * plen C - 1) := Nat.pow_le_pow_right (by norm_num) (by omega)
  have l1 := h.y.le
  have l2 := h'.y.le
  have hplt := hC.plt
  rw [Nat.mod_eq_of_lt (a := val P.y) (by omega), Nat.mod_eq_of_lt (a := val P'.y) (by omega)] at e
  have p1 : val P.x % 2 < 2 := Nat.mod_lt _ (by norm_num)
  have p2 : val P'.x % 2 < 2 := Nat.mod_lt _ (by norm_num)
  have hpar : val P.x % 2 = val P'.x % 2 ∧ val P.y = val P'.y := by
    generalize val P.x % 2 = m at *
    generalize val P'.x % 2 = m' at *
    interval_cases m <;> interval_cases m' <;> omega
  have hY : Q.y = Q'.y := by rw [← h.y.res, ← h'.y.res, hpar.2]
  have hX : Q.x = Q'.x := by
    have hu := x_unique Q.on (hY ▸ Q'.on)
    by_cases h0 : Q'.x = 0
    · rcases hu with hu | hu <;> rw [hu, h0]; simp
    · have h0' : Q.x ≠ 0 := by
        rcases hu with hu | hu <;> rw [hu]
        · exact h0
        · exact neg_ne_zero.mpr h0
      refine same_parity (odd hC) hu ?_
      rw [← Ecc.val_of_rep h.x h0', ← Ecc.val_of_rep h'.x h0]
      exact hpar.1
  exact EdPoint.ext hX hY

omit hp hC in
theorem two_of_x {F : Type*} [Field F] {a d : F} [EdComplete a d] {Q : EdPoint a d} (h : Q.x = 0) : 2 • Q = 0 := by
  have hon := Q.on
  unfold OnEd at hon
  rw [h] at hon
  rw [two_smul]
  apply EdPoint.ext
  · rw [EdPoint.add_x, h, EdPoint.zero_x]; simp
  · rw [EdPoint.add_y, h, EdPoint.zero_y]; simp; linear_combination hon

omit hp hC in
theorem four_of_y {F : Type*} [Field F] {a d : F} [EdComplete a d] {Q : EdPoint a d} (h : Q.y = 0) : 4 • Q = 0 := by
  rw [show (4 : Nat) = 2 * 2 by norm_num, mul_smul]
  apply two_of_x
  rw [two_smul, EdPoint.add_x, h]; simp

/-- The base point and its order. -/
structure BaseOk (C : EdCurve) (c : Nat) (B : EdPoint a d) : Prop where
  words : EPt c C.B B
  ord : addOrderOf B = val C.L

variable {B : EdPoint a d} (hB : BaseOk C c B)
include hB

theorem coords_ne {n : Nat} (hn : n % val C.L ≠ 0) : (n • B).x ≠ 0 ∧ (n • B).y ≠ 0 := by
  have hL := hC.Lprime
  have h2 := hC.L2
  have key : ∀ j : Nat, (j = 2 ∨ j = 4) → j • (n • B) = 0 → False := by
    intro j hj h
    rw [← mul_smul] at h
    have := addOrderOf_dvd_of_nsmul_eq_zero h
    rw [hB.ord] at this
    rcases (Nat.Prime.dvd_mul hL).mp this with h | h
    · have hd : val C.L ∣ 2 := by
        rcases hj with rfl | rfl
        · exact h
        · rw [show (4 : Nat) = 2 * 2 by norm_num] at h
          exact ((Nat.Prime.dvd_mul hL).mp h).elim id id
      have := Nat.le_of_dvd (by norm_num) hd
      omega
    · exact hn (Nat.mod_eq_zero_of_dvd h)
  exact ⟨fun h => key 2 (Or.inl rfl) (two_of_x h), fun h => key 4 (Or.inr rfl) (four_of_y h)⟩

theorem smul_mod (n : Nat) : (n % val C.L) • B = n • B := by
  rw [← hB.ord, mod_addOrderOf_nsmul]

/-- `[s] B` as the code computes it. -/
theorem scaleB (s : List W) : Norm c (canon C c (edScaleAccumulate C c (xytzInf c) C.B s)) (val s • B) := by
  have := edScaleAccumulate_pt hC.ok s (edInf_pt hC.ok) hB.words
  rw [zero_add] at this
  exact canon_spec hC (by norm_num) this

omit hB in
theorem scale_zero (s : List W) (h0 : val s = 0) (P : Xytz) (k i : Nat) (Q : EdPoint a d) (hP : EPt c P Q) :
    edScaleLoop C c s k i (xytzInf c) P = xytzInf c := by
  have hinf := edInf_pt hC.ok
  induction k generalizing i P Q with
  | zero => rfl
  | succ k ih =>
    unfold edScaleLoop
    simp only
    have hm := scalar_bit s i
    rw [h0, Nat.zero_div, Nat.zero_mod] at hm
    have hs : xytzSubst (xytzInf c) (edAdd C c P (xytzInf c)) ((rd s (i / 32) >>> (i % 32)) &&& 1) = xytzInf c := by
      obtain ⟨_, _, _, _, r2, -⟩ := edAdd_pt hC.ok hP hinf
      obtain ⟨_, _, _, _, r1, -⟩ := hinf
      unfold xytzSubst
      rw [substWords_eq _ _ _ 0 (Or.inl rfl) hm (by rw [r1.x.len, r2.x.len]),
        substWords_eq _ _ _ 0 (Or.inl rfl) hm (by rw [r1.y.len, r2.y.len]),
        substWords_eq _ _ _ 0 (Or.inl rfl) hm (by rw [r1.t.len, r2.t.len]),
        substWords_eq _ _ _ 0 (Or.inl rfl) hm (by rw [r1.z.len, r2.z.len])]
      simp
    rw [hs]
    split
    · rfl
    · exact ih _ _ _ (edDbl_pt hC.ok hP)

/-- The encoding of `[s] B`. -/
theorem encB (s : List W) (h : val s % val C.L ≠ 0 ∨ val s = 0) :
    pointEnc C (canon C c (edScaleAccumulate C c (xytzInf c) C.B s)) = edEncode (plen C) (val s • B) := by
  have hn := scaleB hC hB s
  rcases h with h | h
  · obtain ⟨hx, hy⟩ := coords_ne hC hB h
    exact pointEnc_norm hC hn hx hy
  · have hF := hC.ok.fld
    have he : edScaleAccumulate C c (xytzInf c) C.B s = xytzInf c := by
      unfold edScaleAccumulate
      rw [edCopy_pt hB.words]
      exact scale_zero hC s h _ _ _ _ hB.words
    have h0 : val s • B = 0 := by rw [h, zero_smul]
    rw [h0] at hn ⊢
    apply pointEnc_exact hC
    · rw [EdPoint.zero_x, ZMod.val_zero, he]
      have hinf := edInf_pt (a := a) (d := d) hC.ok
      obtain ⟨x, y, t, z, ⟨rx, ry, rt, rz⟩, hz⟩ := hinf
      have hi := inv_rep hC (by norm_num) rz
      have hm := mul_rr hF rx hi (by norm_num)
      unfold canon
      simp only
      rw [cpy_self hm.len, mulM_zero hF hC.zero (Rep.ne_nil hF hi) (rx.le.trans (Nat.mul_le_mul_right _ (by norm_num)))]
      left
      unfold xytzInf
      rw [val_replicate_zero]
    · exact Ecc.val_of_rep hn.y (by rw [EdPoint.zero_y]; exact one_ne_zero)

end

section
variable {C : EdCurve} {c p : Nat} [hp : Fact p.Prime] {a d : ZMod p} (hC : SigOk C c p a d)
include hC

theorem plen_le : plen C * 2 ≤ 128 := by
  unfold plen
  rcases hC.kind with h | h <;> omega

omit hp in
theorem scalarOf_val (buf : List Byte) (hl : buf.length ≤ 128) :
    (scalarOf C c buf).length = c ∧ val (scalarOf C c buf) = leNat buf % val C.L := by
  obtain ⟨h1, h2⟩ := Props.C06_declsb 32 buf
  have hlt : leNat buf < 2 ^ (32 * 32) := by
    refine (leNat_lt _).trans_le ?_
    rw [show (256 : Nat) = 2 ^ 8 by norm_num, ← Nat.pow_mul]
    exact Nat.pow_le_pow_right (by norm_num) (by omega)
  rw [Nat.mod_eq_of_lt hlt] at h2
  have hLl := hC.Lw
  obtain ⟨r, e1, e2, e3⟩ := remvInplace_val (decLSB 32 buf) C.L (by rw [h1]; exact hLl)
  unfold scalarOf
  simp only
  rw [e1]
  refine ⟨length_cpy _ _, ?_⟩
  rw [Option.getD_some, val_cpy, e3, h2]
  apply Nat.mod_eq_of_lt
  have h3 := hC.Lroom
  have h4 := hC.L2
  have : leNat buf % val C.L < val C.L := Nat.mod_lt _ (by omega)
  have : val C.L * 1 ≤ val C.L * 2 ^ 42 := Nat.mul_le_mul_left _ (by norm_num)
  omega

omit hp in
/-- `S = (r + k s) mod L`. -/
theorem sigS_val {r k s : List W} (hr : val r < val C.L) (hk : val k < val C.L) (hs : s ≠ []) :
    ((remvInplace (addv c r (mulM ⟨fun l => (remvInplace l C.L).getD l, C.L⟩ c k s 1)) C.L).getD
      (addv c r (mulM ⟨fun l => (remvInplace l C.L).getD l, C.L⟩ c k s 1))).length = c ∧
    val ((remvInplace (addv c r (mulM ⟨fun l => (remvInplace l C.L).getD l, C.L⟩ c k s 1)) C.L).getD
      (addv c r (mulM ⟨fun l => (remvInplace l C.L).getD l, C.L⟩ c k s 1))) = (val r + val k * val s) % val C.L := by
  have h2 := hC.L2
  let D : Curve := { secp256r1 with n := C.L }
  have hF : FieldOk (Ecc.auxN D) c (val D.n) := Ecc.fieldOkN (C := D) hC.Llen hC.Lroom (by show 2 ≤ val C.L; omega)
  have hw := Ecc.mulN_val (C := D) hF hs (show val k ≤ 2 ^ 7 * val C.L by omega)
  have e : mulM (Ecc.auxN D) c k s 1 = mulM ⟨fun l => (remvInplace l C.L).getD l, C.L⟩ c k s 1 := rfl
  rw [e] at hw
  obtain ⟨w1, w2⟩ := hw
  have w2' : val (mulM ⟨fun l => (remvInplace l C.L).getD l, C.L⟩ c k s 1) = val k * val s % val C.L := w2
  generalize mulM ⟨fun l => (remvInplace l C.L).getD l, C.L⟩ c k s 1 = w at *
  have hwl : val w < val C.L := by rw [w2']; exact Nat.mod_lt _ (by omega)
  have hal : (addv c r w).length = c := length_addKernel _ _ _ _ _
  have hav : val (addv c r w) = val r + val w := by
    apply nat_of_modEq hal ((addv_modEq c r w).trans (modEq_of_eq (by push_cast; ring)))
    have h3 := hC.Lroom
    have : val C.L * 2 ≤ val C.L * 2 ^ 42 := Nat.mul_le_mul_left _ (by norm_num)
    omega
  obtain ⟨q, q1, q2, q3⟩ := remvInplace_val (addv c r w) C.L (by rw [hal]; exact hC.Llen)
  rw [q1]
  refine ⟨by rw [Option.getD_some, q2, hal], ?_⟩
  rw [Option.getD_some, q3, hav, w2', Nat.add_mod_mod]

end
end EdDsa
