import Verif.Lemmas.EdDsaX
import Verif.Lemmas.Xecdh
import Verif.Lemmas.Chacha

/-! Octets of EdDSA points. -/

namespace EdDsa
open Vlong Ec Spec

theorem leNat_leN (n x : Nat) : leNat (leN n x) = x % 256 ^ n := by
  apply Nat.eq_of_testBit_eq
  intro k
  rw [leNat_testBit, show 256 ^ n = 2 ^ (8 * n) by rw [Nat.pow_mul], Nat.testBit_mod_two_pow]
  unfold leN
  by_cases h : k / 8 < n
  · rw [List.getD_eq_getElem _ _ (by simpa using h)]
    simp only [List.getElem_map, List.getElem_range]
    have h2 : k < 8 * n := by omega
    have h3 : k % 8 < 8 := Nat.mod_lt _ (by norm_num)
    simp only [BitVec.getLsbD_ofNat, h2, h3, decide_true, Bool.true_and]
    rw [show 256 ^ (k / 8) = 2 ^ (8 * (k / 8)) by rw [Nat.pow_mul], Nat.testBit_div_two_pow]
    congr 1; omega
  · have h2 : ¬ k < 8 * n := by omega
    rw [List.getD_eq_default _ _ (by simp; omega)]
    simp [h2]

theorem and_mask (b : Byte) {r : Nat} (hr : r < 8) : (b &&& (BitVec.ofNat 8 (2 ^ r) - 1)).toNat = b.toNat % 2 ^ r := by
  interval_cases r <;> (revert b; decide)

theorem or_top (b : Byte) (hb : b.toNat < 128) (n : Nat) (hn : n < 2) :
    (b ||| (BitVec.ofNat 8 n <<< 7)).toNat = b.toNat + 128 * n := by
  have : ∀ b : Byte, b.toNat < 128 → (b ||| (BitVec.ofNat 8 0 <<< 7)).toNat = b.toNat + 128 * 0 ∧
    (b ||| (BitVec.ofNat 8 1 <<< 7)).toNat = b.toNat + 128 * 1 := by decide
  interval_cases n
  · exact (this b hb).1
  · exact (this b hb).2

theorem leNat_modify_and : ∀ (i : Nat) (l : List Byte) {r : Nat}, r < 8 → l.length = i + 1 →
    leNat (l.modify i (· &&& (BitVec.ofNat 8 (2 ^ r) - 1))) = leNat l % 2 ^ (8 * i + r)
  | 0, [b], r, hr, _ => by
    have := and_mask b hr
    simp only [List.modify_cons, leNat]
    simp only [if_true, leNat, mul_zero, add_zero, zero_add]
    exact this
  | i + 1, b :: l, r, hr, hl => by
    have ih := leNat_modify_and i l hr (by simpa using hl)
    have := b.isLt
    simp only [List.modify_succ_cons, leNat, ih]
    rw [show 2 ^ (8 * (i + 1) + r) = 256 * 2 ^ (8 * i + r) by
      rw [show (256 : Nat) = 2 ^ 8 by norm_num, ← pow_add]; congr 1; omega]
    rw [Nat.mod_mul, show (b.toNat + 256 * leNat l) % 256 = b.toNat by omega,
      show (b.toNat + 256 * leNat l) / 256 = leNat l by omega]

theorem leNat_modify_or (n : Nat) (hn : n < 2) : ∀ (i : Nat) (l : List Byte), l.length = i + 1 → leNat l < 2 ^ (8 * i + 7) →
    leNat (l.modify i (· ||| (BitVec.ofNat 8 n <<< 7))) = leNat l + 2 ^ (8 * i + 7) * n
  | 0, [b], _, h => by
    simp only [leNat, mul_zero, add_zero, zero_add] at h
    have := or_top b (by omega) n hn
    simp only [List.modify_cons, leNat]
    simp only [if_true, leNat, mul_zero, add_zero, zero_add]
    rw [this]; norm_num
  | i + 1, b :: l, hl, h => by
    have e : 2 ^ (8 * (i + 1) + 7) = 256 * 2 ^ (8 * i + 7) := by
      rw [show (256 : Nat) = 2 ^ 8 by norm_num, ← pow_add]; congr 1; omega
    simp only [leNat] at h
    have ih := leNat_modify_or n hn i l (by simpa using hl) (by omega)
    simp only [List.modify_succ_cons, leNat, ih]
    rw [e]; ring

theorem leNat_zeros (n : Nat) : leNat (List.replicate n (0 : Byte)) = 0 := by
  induction n with
  | zero => rfl
  | succ n ih => rw [List.replicate_succ, leNat, ih]; rfl

theorem plen_eq (C : EdCurve) : plen C = C.pbits / 8 + 1 := by unfold plen; omega

/-- The octets of `eddsa_point_enc`. -/
theorem pointEnc_val (C : EdCurve) (Q : Xytz) :
    (pointEnc C Q).length = plen C ∧
    leNat (pointEnc C Q) = val Q.y % 2 ^ C.pbits + 2 ^ (8 * plen C - 1) * (val Q.x % 2) := by
  have hp := plen_eq C
  have hpb : pbytes C ≤ plen C := by unfold pbytes plen; omega
  have hlen : (encLSB Q.y (pbytes C) ++ List.replicate (plen C - pbytes C) 0).length = C.pbits / 8 + 1 := by
    rw [List.length_append, List.length_replicate, (Props.C06_enclsb Q.y (pbytes C)).1]; omega
  have hr : C.pbits % 8 < 8 := Nat.mod_lt _ (by norm_num)
  have h1 := leNat_modify_and (C.pbits / 8) _ hr hlen
  have hd := Nat.div_add_mod C.pbits 8
  rw [hd, leNat_append, leNat_zeros, Nat.mul_zero, Nat.add_zero, (Props.C06_enclsb Q.y (pbytes C)).2,
    show 256 ^ pbytes C = 2 ^ (8 * pbytes C) by rw [Nat.pow_mul],
    Nat.mod_mod_of_dvd _ (pow_dvd_pow 2 (by unfold pbytes; omega))] at h1
  have hpar : (rd Q.x 0 &&& 1).setWidth 8 = BitVec.ofNat 8 (val Q.x % 2) := by
    apply BitVec.eq_of_toNat_eq
    rw [BitVec.toNat_setWidth, BitVec.toNat_and, rd_toNat, show (1 : W).toNat = 1 from rfl, Nat.and_one_is_mod,
      BitVec.toNat_ofNat]
    simp only [Nat.mul_zero, pow_zero, Nat.div_one]
    omega
  unfold pointEnc
  simp only
  rw [hpar]
  refine ⟨by rw [List.length_modify, List.length_modify]; omega, ?_⟩
  rw [leNat_modify_or _ (by omega) _ _ (by rw [List.length_modify]; exact hlen), h1]
  · rw [hp, show 8 * (C.pbits / 8 + 1) - 1 = 8 * (C.pbits / 8) + 7 by omega]
  · rw [h1]
    exact (Nat.mod_lt _ (by positivity)).trans_le (Nat.pow_le_pow_right (by norm_num) (by omega))

theorem val_modify_and : ∀ (i : Nat) (l : List W) {r : Nat}, r < 32 → val l < 2 ^ (32 * (i + 1)) →
    val (l.modify i (· &&& (BitVec.ofNat 32 (2 ^ r) - 1))) = val l % 2 ^ (32 * i + r)
  | i, [], r, hr, _ => by cases i <;> simp [val]
  | 0, w :: l, r, hr, h => by
    simp only [val] at h
    have hm : (w &&& (BitVec.ofNat 32 (2 ^ r) - 1)).toNat = w.toNat % 2 ^ r := by
      have e : (BitVec.ofNat 32 (2 ^ r) - 1).toNat = 2 ^ r - 1 := by
        interval_cases r <;> decide
      rw [BitVec.toNat_and, e, Nat.and_two_pow_sub_one_eq_mod]
    simp only [List.modify_cons, if_true, val]
    rw [hm]
    have : val l = 0 := by simp at h; omega
    rw [this]; simp
  | i + 1, w :: l, r, hr, h => by
    have e : ∀ k, 2 ^ (32 * (i + 1) + k) = 2 ^ 32 * 2 ^ (32 * i + k) := by
      intro k; rw [← pow_add]; congr 1; omega
    have hw := w.isLt
    simp only [val] at h
    have e2 : 2 ^ (32 * (i + 1 + 1)) = 2 ^ 32 * 2 ^ (32 * (i + 1)) := by rw [← pow_add]; congr 1; omega
    have ih := val_modify_and i l hr (by omega)
    simp only [List.modify_succ_cons, val, ih]
    rw [e, Nat.mod_mul, show (w.toNat + 2 ^ 32 * val l) % 2 ^ 32 = w.toNat by omega,
      show (w.toNat + 2 ^ 32 * val l) / 2 ^ 32 = val l by omega]

theorem leNat_take (l : List Byte) (n m : Nat) (h : m ≤ 8 * n) : leNat (l.take n) % 2 ^ m = leNat l % 2 ^ m := by
  conv_rhs => rw [← List.take_append_drop n l, leNat_append]
  by_cases hl : n ≤ l.length
  · rw [List.length_take, Nat.min_eq_left hl]
    have : 2 ^ m ∣ 256 ^ n := by
      rw [show (256 : Nat) ^ n = 2 ^ (8 * n) by rw [Nat.pow_mul]]
      exact pow_dvd_pow 2 h
    obtain ⟨k, hk⟩ := this
    rw [hk, mul_assoc, Nat.add_mul_mod_self_left]
  · rw [List.drop_eq_nil_of_le (by omega)]; simp [leNat]

/-- `y` of `eddsa_point_dec`. -/
theorem decY_val (C : EdCurve) (c : Nat) (hc : 8 * pbytes C ≤ 32 * c) (buf : List Byte) :
    (decY C c buf).length = c ∧ val (decY C c buf) = leNat buf % 2 ^ C.pbits := by
  obtain ⟨h1, h2⟩ := Props.C06_declsb c (buf.take (pbytes C))
  have hlt : leNat (buf.take (pbytes C)) < 2 ^ (8 * pbytes C) := by
    refine (leNat_lt _).trans_le ?_
    rw [show (256 : Nat) = 2 ^ 8 by norm_num, ← Nat.pow_mul]
    exact Nat.pow_le_pow_right (by norm_num) (Nat.mul_le_mul_left _ (List.length_take_le _ _))
  rw [Nat.mod_eq_of_lt (hlt.trans_le (Nat.pow_le_pow_right (by norm_num) hc))] at h2
  unfold decY
  refine ⟨by rw [List.length_modify, h1], ?_⟩
  rw [val_modify_and _ _ (Nat.mod_lt _ (by norm_num)), Nat.div_add_mod, h2, leNat_take _ _ _ (by unfold pbytes; omega)]
  rw [h2]
  exact hlt.trans_le (Nat.pow_le_pow_right (by norm_num) (by unfold pbytes; omega))

/-- The sign bit of `eddsa_point_dec`. -/
theorem par_val (C : EdCurve) (buf : List Byte) (h : buf.length = plen C) :
    (((buf.getD (C.pbits / 8) 0 >>> 7) &&& 1).setWidth 32 : W) = BitVec.ofNat 32 (leNat buf / 2 ^ (8 * plen C - 1)) ∧
    leNat buf / 2 ^ (8 * plen C - 1) < 2 := by
  have hp := plen_eq C
  have hlt := leNat_lt buf
  rw [h, show (256 : Nat) = 2 ^ 8 by norm_num, ← Nat.pow_mul] at hlt
  have h2 : leNat buf / 2 ^ (8 * plen C - 1) < 2 := by
    rw [Nat.div_lt_iff_lt_mul (by positivity), ← pow_succ', show 8 * plen C - 1 + 1 = 8 * plen C by omega]
    exact hlt
  refine ⟨?_, h2⟩
  apply BitVec.eq_of_toNat_eq
  rw [BitVec.toNat_setWidth, BitVec.toNat_and, BitVec.toNat_ushiftRight, Xecdh.leNat_getD, show (1 : Byte).toNat = 1 from rfl,
    Nat.and_one_is_mod, BitVec.toNat_ofNat, Nat.shiftRight_eq_div_pow]
  have e : leNat buf / 256 ^ (C.pbits / 8) % 256 = leNat buf / 256 ^ (C.pbits / 8) := by
    apply Nat.mod_eq_of_lt
    rw [Nat.div_lt_iff_lt_mul (by positivity)]
    refine hlt.trans_le (le_of_eq ?_)
    rw [show (256 : Nat) = 2 ^ 8 by norm_num, ← Nat.pow_mul, ← pow_add]
    congr 1; omega
  rw [e, Nat.div_div_eq_div_mul, show (256 : Nat) ^ (C.pbits / 8) * 2 ^ 7 = 2 ^ (8 * plen C - 1) by
    rw [show (256 : Nat) = 2 ^ 8 by norm_num, ← Nat.pow_mul, ← pow_add]; congr 1; omega]
  generalize leNat buf / 2 ^ (8 * plen C - 1) = q at h2 ⊢
  interval_cases q <;> rfl

section
variable {C : EdCurve} {c p : Nat} [hp : Fact p.Prime] {a d : ZMod p}

/-- The words are affine coordinates of the point: `x` exactly, `y` up to a multiple of the modulus. -/
structure Aff (c k : Nat) (P : Xytz) (Q : EdPoint a d) : Prop where
  x : Exact c p P.x Q.x
  y : Rep c p k P.y Q.y
  t : Rep c p 1 P.t (Q.x * Q.y)
  z : Rep c p 1 P.z 1

theorem Aff.toE {k : Nat} {P : Xytz} {Q : EdPoint a d} (h : Aff c k P Q) (hk : 1 ≤ k) : EPtK k c P Q :=
  ⟨_, _, _, _, ⟨h.x.1.mono hk, h.y, h.t.mono hk, h.z.mono hk⟩, one_ne_zero, by ring, by ring, by ring⟩

theorem x_unique [hE : EdComplete a d] {X X' Y : ZMod p} (h : OnEd a d X Y) (h' : OnEd a d X' Y) : X = X' ∨ X = -X' := by
  have h1 : (d * Y ^ 2 - a) * X ^ 2 = Y ^ 2 - 1 := by unfold OnEd at h; linear_combination -h
  have h2 : (d * Y ^ 2 - a) * X' ^ 2 = Y ^ 2 - 1 := by unfold OnEd at h'; linear_combination -h'
  have hV : d * Y ^ 2 - a ≠ 0 := fun h => ed_g (a := a) (d := d) Y (by linear_combination -h)
  exact sq_eq_sq_iff_eq_or_eq_neg.mp (mul_left_cancel₀ hV (h1.trans h2.symm))

theorem neg_val_parity (hodd : p % 2 = 1) {x : ZMod p} (hx : x ≠ 0) : (-x).val % 2 ≠ x.val % 2 := by
  haveI : NeZero x := ⟨hx⟩
  rw [ZMod.val_neg_of_ne_zero]
  have := ZMod.val_lt x
  omega

theorem same_parity (hodd : p % 2 = 1) {X X' : ZMod p} (h : X = X' ∨ X = -X') (hpar : X.val % 2 = X'.val % 2) : X = X' := by
  rcases h with h | h
  · exact h
  · by_cases h0 : X' = 0
    · rw [h, h0, neg_zero]
    · rw [h] at hpar
      exact absurd hpar (neg_val_parity hodd h0)

variable (hC : SigOk C c p a d)
include hC

theorem odd : p % 2 = 1 := by
  rcases hC.kind with h | h <;> omega

theorem room_pb : 8 * pbytes C ≤ 32 * c := by
  have := hC.room
  unfold pbytes plen at *; omega

/-- `eddsa_point_dec`. -/
theorem pointDec_spec [hE : EdComplete a d] {buf : List Byte} (hl : buf.length = plen C) :
    (∀ P, pointDec C c buf = some P → ∃ Q : EdPoint a d, Aff c 2 P Q ∧ val P.y = leNat buf % 2 ^ C.pbits ∧
      Q.y = ((leNat buf % 2 ^ C.pbits : Nat) : ZMod p) ∧ Q.x.val % 2 = leNat buf / 2 ^ (8 * plen C - 1)) ∧
    (pointDec C c buf = none → ∀ Q : EdPoint a d, Q.y = ((leNat buf % 2 ^ C.pbits : Nat) : ZMod p) →
      Q.x.val % 2 ≠ leNat buf / 2 ^ (8 * plen C - 1)) := by
  have hF := hC.ok.fld
  obtain ⟨hy1, hy2⟩ := decY_val C c (room_pb hC) buf
  obtain ⟨hpar, hpar2⟩ := par_val C buf hl
  have hylt : leNat buf % 2 ^ C.pbits < 2 ^ C.pbits := Nat.mod_lt _ (by positivity)
  have hy : Rep c p 2 (decY C c buf) ((leNat buf % 2 ^ C.pbits : Nat) : ZMod p) :=
    ⟨hy1, by rw [hy2]; exact hylt.le.trans hC.pgt, by rw [hy2]⟩
  have hgx : (∀ x, (if cond25519 C then getx25519 C c (decY C c buf) else if cond448 C then getx448 C c (decY C c buf)
        else none) = some x → ∃ X, Exact c p x X ∧ OnEd a d X ((leNat buf % 2 ^ C.pbits : Nat) : ZMod p)) ∧
      ((if cond25519 C then getx25519 C c (decY C c buf) else if cond448 C then getx448 C c (decY C c buf)
        else none) = none → ∀ X, ¬ OnEd a d X ((leNat buf % 2 ^ C.pbits : Nat) : ZMod p)) := by
    rcases hC.kind with ⟨h1, h2, h3, h4, h5⟩ | ⟨h1, h2, h3, h4, h5⟩
    · rw [if_pos h1]; exact getx25519_spec hC h4 h3 h5 (by norm_num) hy
    · rw [if_neg (by rw [h1]; decide), if_pos h2]; exact getx448_spec hC h5 h4 (by norm_num) hy
  unfold pointDec
  simp only
  rw [hpar]
  generalize (if cond25519 C then getx25519 C c (decY C c buf) else if cond448 C then getx448 C c (decY C c buf)
    else none) = gx at hgx ⊢
  generalize ((leNat buf % 2 ^ C.pbits : Nat) : ZMod p) = Y at *
  generalize leNat buf / 2 ^ (8 * plen C - 1) = par at *
  have hodd := odd hC
  cases gx with
  | none =>
    exact ⟨fun P h => by simp at h, fun _ Q hQ => absurd (hQ ▸ Q.on) (hgx.2 rfl Q.x)⟩
  | some x =>
    obtain ⟨X, hX, hon⟩ := hgx.1 x rfl
    have hz : x.foldl (· ||| ·) 0 = 0 ↔ X = 0 := by
      rw [Vlong.foldl_or_zero, hX.2]; simp [ZMod.val_eq_zero]
    have h1 : (BitVec.ofNat 32 par = 1#32) ↔ par = 1 := by
      interval_cases par <;> decide
    simp only
    by_cases hc : X = 0 ∧ par = 1
    · rw [if_pos ⟨hz.mpr hc.1, h1.mpr hc.2⟩]
      refine ⟨fun P h => by simp at h, fun _ Q hQ => ?_⟩
      have : Q.x = 0 := by
        rcases x_unique (hQ ▸ Q.on) hon with h | h <;> rw [h, hc.1]
        simp
      rw [this, hc.2]; simp
    · rw [if_neg (fun h => hc ⟨hz.mp h.1, h1.mp h.2⟩)]
      refine ⟨fun P h => ?_, fun h => by simp at h⟩
      obtain rfl := Option.some.inj h
      have hsel : ∃ X', Exact c p (if (1 &&& rd x 0) ^^^ BitVec.ofNat 32 par ≠ 0 then subv c C.p x else x) X' ∧
          OnEd a d X' Y ∧ X'.val % 2 = par := by
        have hb : (1 &&& rd x 0) = BitVec.ofNat 32 (X.val % 2) := by
          apply BitVec.eq_of_toNat_eq
          rw [BitVec.and_comm, BitVec.toNat_and, rd_toNat, show (1 : W).toNat = 1 from rfl, Nat.and_one_is_mod,
            BitVec.toNat_ofNat, hX.2]
          simp only [Nat.mul_zero, pow_zero, Nat.div_one]
          omega
        have hq : ((1 &&& rd x 0) ^^^ BitVec.ofNat 32 par ≠ 0) ↔ X.val % 2 ≠ par := by
          rw [hb]
          have : X.val % 2 < 2 := Nat.mod_lt _ (by norm_num)
          generalize X.val % 2 = m at this
          interval_cases m <;> interval_cases par <;> decide
        by_cases g : X.val % 2 = par
        · rw [if_neg (by rw [hq]; simpa using g)]
          exact ⟨X, hX, hon, g⟩
        · rw [if_pos (hq.mpr g)]
          have hX0 : X ≠ 0 := by
            rintro rfl
            rw [ZMod.val_zero] at g
            exact hc ⟨rfl, by omega⟩
          refine ⟨-X, Exact.of_rep (negp_rep hC hX.1).1 (fun h => absurd (neg_eq_zero.mp h) hX0), on_neg hon, ?_⟩
          have := neg_val_parity hodd hX0
          omega
      obtain ⟨X', e1, e2, e3⟩ := hsel
      refine ⟨⟨X', Y, e2⟩, ⟨e1, hy, mul_rr hF e1.1 hy (by norm_num), (one_rep hC).1⟩, hy2, rfl, e3⟩

end
end EdDsa
