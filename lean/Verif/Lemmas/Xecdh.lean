import Verif.Lemmas.EcMt
import Verif.Lemmas.EcInst
import Verif.Lemmas.EdInst
import Verif.Model.Xecdh
import Verif.Spec.Xecdh

/-! Clamping, masking and encoding of `rfc-7748.c`, and the order of the base point of Curve25519. -/

namespace Xecdh
open Vlong Spec Ec

theorem leNat_modify (l : List Byte) (t : Nat) (f : Byte → Byte) (ht : t < l.length) :
    leNat (l.modify t f) + (l.getD t 0).toNat * 256 ^ t = leNat l + (f (l.getD t 0)).toNat * 256 ^ t := by
  induction l generalizing t with
  | nil => simp at ht
  | cons w l ih =>
    cases t with
    | zero => simp [leNat]; omega
    | succ t =>
      have := ih t (by simpa using ht)
      simp only [List.modify_succ_cons, leNat, List.getD_cons_succ, Nat.pow_succ] at *
      have e1 : ∀ x : Nat, x * (256 ^ t * 256) = 256 * (x * 256 ^ t) := by intro x; ring
      rw [e1, e1]; omega

theorem leNat_getD (l : List Byte) (t : Nat) : (l.getD t 0).toNat = leNat l / 256 ^ t % 256 := by
  induction l generalizing t with
  | nil => simp [leNat]
  | cons w l ih =>
    cases t with
    | zero => simp only [List.getD_cons_zero, leNat]; have := w.isLt; omega
    | succ t =>
      rw [List.getD_cons_succ, ih]
      simp only [leNat]
      rw [Nat.pow_succ, Nat.mul_comm (256 ^ t), ← Nat.div_div_eq_div_mul]
      have := w.isLt
      congr 2; omega

theorem and248 (b : Byte) : (b &&& 248).toNat = b.toNat - b.toNat % 8 := by
  revert b; decide +kernel
theorem and252 (b : Byte) : (b &&& 252).toNat = b.toNat - b.toNat % 4 := by
  revert b; decide +kernel
theorem and127 (b : Byte) : (b &&& 127).toNat = b.toNat % 128 := by
  revert b; decide +kernel
theorem or64 (b : Byte) (h : b.toNat < 128) : (b ||| 64).toNat = 64 + b.toNat % 64 := by
  revert h; revert b; decide +kernel
theorem or128 (b : Byte) : (b ||| 128).toNat = 128 + b.toNat % 128 := by
  revert b; decide +kernel

theorem clamp25519_val (sk : List Byte) (h : sk.length = 32) :
    (clamp25519 sk).length = 32 ∧ leNat (clamp25519 sk) = decodeScalar25519 sk := by
  refine ⟨by simp [clamp25519, h], ?_⟩
  unfold clamp25519 decodeScalar25519
  have hlt := leNat_lt sk
  rw [h] at hlt
  have h1 := leNat_modify sk 0 (· &&& 248) (by omega)
  have k1 : (sk.modify 0 (· &&& 248)).length = 32 := by simp [h]
  generalize sk.modify 0 (· &&& 248) = l1 at *
  have h2 := leNat_modify l1 31 (· &&& 127) (by omega)
  have k2 : (l1.modify 31 (· &&& 127)).length = 32 := by simp [k1]
  generalize l1.modify 31 (· &&& 127) = l2 at *
  have h3 := leNat_modify l2 31 (· ||| 64) (by omega)
  simp only [and248] at h1
  simp only [and127] at h2
  have hlt1 := leNat_lt l1
  rw [k1] at hlt1
  rw [leNat_getD] at h1 h2
  have e254 : (2:Nat) ^ 254 = 64 * 256 ^ 31 := by decide +kernel
  have e251 : 8 * (2:Nat) ^ 251 = 64 * 256 ^ 31 := by decide +kernel
  have e32 : (256:Nat) ^ 32 = 256 * 256 ^ 31 := by decide +kernel
  rw [e32] at hlt hlt1
  have hm : 8 * (leNat sk / 8 % 2 ^ 251) = (leNat sk - leNat sk % 8) % (64 * 256 ^ 31) := by
    rw [← e251, ← Nat.mul_mod_mul_left]; congr 1; omega
  rw [hm, e254]
  simp only [pow_zero, Nat.div_one, Nat.mul_one] at h1
  have h1' : leNat l1 = leNat sk - leNat sk % 8 := by omega
  rw [← h1']
  generalize leNat l1 = x at *
  have hb2 : (l2.getD 31 0).toNat = leNat l2 / 256 ^ 31 % 256 := leNat_getD _ _
  generalize hM : (256:Nat) ^ 31 = M at *
  have hMpos : 0 < M := by rw [← hM]; positivity
  have hx : x / M < 256 := Nat.div_lt_of_lt_mul (by rw [Nat.mul_comm]; exact hlt1)
  rw [Nat.mod_eq_of_lt hx] at h2
  have hdm := Nat.div_add_mod x M
  have e1 : x / M * M = M * (x / M) := by ring
  rw [e1] at h2
  have h2' : leNat l2 = x % M + M * (x / M % 128) := by rw [Nat.mul_comm M (x / M % 128)]; omega
  have hd : leNat l2 / M = x / M % 128 := by
    rw [h2', Nat.add_mul_div_left _ _ hMpos, Nat.div_eq_of_lt (Nat.mod_lt _ hMpos), Nat.zero_add]
  have hb : (l2.getD 31 0).toNat = x / M % 128 := by rw [hb2, hd]; omega
  simp only [or64 _ (by rw [hb]; omega : (l2.getD 31 0).toNat < 128)] at h3
  rw [hb] at h3
  have hx2 : x % (64 * M) = x % M + M * (x / M % 64) := by rw [Nat.mul_comm 64, Nat.mod_mul]
  rw [hx2]
  have e3 : (64 + x / M % 128 % 64) * M = 64 * M + M * (x / M % 64) := by
    rw [show x / M % 128 % 64 = x / M % 64 by omega]; ring
  have e4 : x / M % 128 * M = M * (x / M % 128) := by ring
  rw [e3, e4] at h3
  omega

theorem clamp448_val (sk : List Byte) (h : sk.length = 56) :
    (clamp448 sk).length = 56 ∧ leNat (clamp448 sk) = decodeScalar448 sk := by
  refine ⟨by simp [clamp448, h], ?_⟩
  unfold clamp448 decodeScalar448
  have hlt := leNat_lt sk
  rw [h] at hlt
  have h1 := leNat_modify sk 0 (· &&& 252) (by omega)
  set l1 := sk.modify 0 (· &&& 252) with hl1
  have k1 : l1.length = 56 := by simp [hl1, h]
  have h2 := leNat_modify l1 55 (· ||| 128) (by omega)
  set l2 := l1.modify 55 (· ||| 128) with hl2
  simp only [and252] at h1
  simp only [or128] at h2
  have hlt1 := leNat_lt l1
  rw [k1] at hlt1
  rw [leNat_getD] at h1 h2
  have e447 : (2:Nat) ^ 447 = 128 * 256 ^ 55 := by decide +kernel
  have e445 : 4 * (2:Nat) ^ 445 = 128 * 256 ^ 55 := by decide +kernel
  have e56 : (256:Nat) ^ 56 = 256 * 256 ^ 55 := by decide +kernel
  have e4 : (256:Nat) ^ 55 = 4 * (2 ^ 438) := by decide +kernel
  rw [e56] at hlt hlt1
  have hm : 4 * (leNat sk / 4 % 2 ^ 445) = (leNat sk - leNat sk % 4) % (128 * 256 ^ 55) := by
    rw [← e445, ← Nat.mul_mod_mul_left]; congr 1; omega
  rw [hm, e447]
  simp only [pow_zero, Nat.div_one, Nat.mul_one] at h1
  have h1' : leNat l1 = leNat sk - leNat sk % 4 := by omega
  rw [← h1']
  generalize leNat l1 = x at *
  generalize hM : (256:Nat) ^ 55 = M at *
  have hMpos : 0 < M := by rw [← hM]; positivity
  have hx : x / M < 256 := Nat.div_lt_of_lt_mul (by rw [Nat.mul_comm]; exact hlt1)
  rw [Nat.mod_eq_of_lt hx] at h2
  have hx2 : x % (128 * M) = x % M + M * (x / M % 128) := by
    rw [Nat.mul_comm 128, Nat.mod_mul]
  rw [hx2]
  have hdm := Nat.div_add_mod x M
  have e1 : (128 + x / M % 128) * M = 128 * M + M * (x / M % 128) := by ring
  have e2 : x / M * M = M * (x / M) := by ring
  rw [e1, e2] at h2
  omega

theorem maskU25519 (enc : List Byte) (h : enc.length ≤ 32) :
    (maskU crv25519 (decLSB crv25519.c enc)).length = 11 ∧
      val (maskU crv25519 (decLSB crv25519.c enc)) = decodeU25519 enc := by
  have hlen : (decLSB 11 enc).length = 11 := by simp [decLSB, length_decLoop]
  have hlt := leNat_lt enc
  have hp : 256 ^ enc.length ≤ 256 ^ 32 := Nat.pow_le_pow_right (by norm_num) h
  have hv : val (decLSB 11 enc) = leNat enc := by
    rw [val_decLSB]; apply Nat.mod_eq_of_lt; norm_num at *; omega
  unfold maskU
  rw [if_pos (by decide)]
  show (List.modify (decLSB 11 enc) 7 _).length = 11 ∧ val (List.modify (decLSB 11 enc) 7 _) = _
  refine ⟨by simp [hlen], ?_⟩
  have hm := val_modify (decLSB 11 enc) 7 (· &&& 0x7fffffff#32) (by omega)
  have hr := rd_toNat (decLSB 11 enc) 7
  have ha : ∀ w : W, (w &&& 0x7fffffff#32).toNat = w.toNat % 2 ^ 31 := by
    intro w
    rw [BitVec.toNat_and, show (0x7fffffff#32).toNat = 2 ^ 31 - 1 from rfl, Nat.and_two_pow_sub_one_eq_mod]
  simp only [ha] at hm
  rw [hr, hv] at hm
  have key : ∀ v x : Nat, x < 2 ^ 256 → v + x / 2 ^ (32 * 7) % 2 ^ 32 * 2 ^ (32 * 7) = x + x / 2 ^ (32 * 7) % 2 ^ 32 % 2 ^ 31 * 2 ^ (32 * 7) →
      v = x % 2 ^ 255 := by
    intro v x h1 h2
    norm_num at *
    omega
  exact key _ _ (by norm_num at *; omega) hm

theorem maskU448 (enc : List Byte) (h : enc.length ≤ 56) :
    (maskU crv448 (decLSB crv448.c enc)).length = 17 ∧ val (maskU crv448 (decLSB crv448.c enc)) = decodeU448 enc := by
  have hlen : (decLSB 17 enc).length = 17 := by simp [decLSB, length_decLoop]
  have hlt := leNat_lt enc
  have hp : 256 ^ enc.length ≤ 256 ^ 56 := Nat.pow_le_pow_right (by norm_num) h
  have hle : (256:Nat) ^ 56 ≤ 2 ^ (32 * 17) := by decide +kernel
  unfold maskU
  rw [if_neg (by decide)]
  exact ⟨hlen, by rw [val_decLSB]; exact Nat.mod_eq_of_lt (by show leNat enc < 2 ^ (32 * 17); omega)⟩

/-! ### Existence of points, and the order of the base point of Curve25519 -/

section
variable {q : Nat} [Fact q.Prime] {A : ZMod q}

theorem mont_nonsing (h2 : (2 : ZMod q) ≠ 0) {B : ZMod q} (hB : B ≠ 0) (hA : A ^ 2 ≠ 4) {x y : ZMod q}
    (h : (montW A B).Equation x y) : (montW A B).Nonsingular x y := by
  rw [WeierstrassCurve.Affine.nonsingular_iff]
  refine ⟨h, ?_⟩
  by_contra hc
  push Not at hc
  obtain ⟨h1, h3⟩ := hc
  simp only [montW, zero_mul, sub_zero, add_zero] at h1 h3
  have e := (mont_eqn x y).mp h
  have hy : y = 0 := by
    have : 2 * y = 0 := by linear_combination h3
    exact (mul_eq_zero.mp this).resolve_left h2
  rw [hy] at e
  have hd : 3 * x ^ 2 + 2 * (A * B) * x + B ^ 2 = 0 := by linear_combination -h1
  -- x ≠ 0 and x² + ABx + B² = 0
  have hx : x ≠ 0 := by
    rintro rfl
    apply hB
    have : B ^ 2 = 0 := by linear_combination hd
    exact pow_eq_zero_iff two_ne_zero |>.mp this
  have e2 : x ^ 2 + A * B * x + B ^ 2 = 0 := by
    have : x * (x ^ 2 + A * B * x + B ^ 2) = 0 := by linear_combination -e
    exact (mul_eq_zero.mp this).resolve_left hx
  have e3 : x ^ 2 = B ^ 2 := by linear_combination hd - 2 * e2
  have e4 : 2 * x + A * B = 0 := by
    have : x * (2 * x + A * B) = 0 := by linear_combination e2 + e3
    exact (mul_eq_zero.mp this).resolve_left hx
  apply hA
  apply mul_right_cancel₀ (pow_ne_zero 2 hB)
  linear_combination (A * B - 2 * x) * e4 + 4 * e3

/-- Every residue is the `u`-coordinate of a point of the curve or of the twist by any non-square. -/
theorem mont_exists (h2 : (2 : ZMod q) ≠ 0) (hA : A ^ 2 ≠ 4) {d : ZMod q} (hd : ¬ IsSquare d) (u : ZMod q) :
    (∃ P : (montW A 1).Point, uCoord P = u) ∨ ∃ P : (montW A d).Point, uCoord P = u := by
  have hd0 : d ≠ 0 := by rintro rfl; exact hd ⟨0, by simp⟩
  have hchar : ringChar (ZMod q) ≠ 2 := by
    intro e
    have : ((2 : Nat) : ZMod q) = 0 := by rw [ringChar.spec]; exact e ▸ dvd_rfl
    exact h2 (by exact_mod_cast this)
  by_cases hs : IsSquare (u ^ 3 + A * u ^ 2 + u)
  · left
    obtain ⟨y, hy⟩ := hs
    have he : (montW A 1).Equation u y := (mont_eqn u y).mpr (by linear_combination -hy)
    exact ⟨.some u y (mont_nonsing h2 one_ne_zero hA he), by simp [uCoord]⟩
  · right
    obtain ⟨y, hy⟩ : IsSquare (d * (u ^ 3 + A * u ^ 2 + u)) := by
      have hf0 : u ^ 3 + A * u ^ 2 + u ≠ 0 := by intro e; apply hs; rw [e]; exact ⟨0, by simp⟩
      rw [← quadraticChar_one_iff_isSquare (mul_ne_zero hd0 hf0), map_mul,
        quadraticChar_neg_one_iff_not_isSquare.mpr hd, quadraticChar_neg_one_iff_not_isSquare.mpr hs]
      norm_num
    have he : (montW A d).Equation (d * u) (d * y) := (mont_eqn _ _).mpr (by linear_combination (-d ^ 2) * hy)
    refine ⟨.some _ _ (mont_nonsing h2 hd0 hA he), ?_⟩
    simp only [uCoord]
    field_simp

/-- The ladder on residues. -/
def ladN (q A u k : Nat) : Nat → Nat × Nat × Nat × Nat → Nat × Nat × Nat × Nat
  | 0, s => s
  | t + 1, (x2, z2, x3, z3) =>
    let dbl (x z : Nat) : Nat × Nat := (((x * x + (q - z * z % q)) ^ 2) % q, 4 * x * z * (x * x + A * x * z + z * z) % q)
    let dadd : Nat × Nat := (4 * ((x3 * x2 + (q - z3 * z2 % q)) ^ 2) % q, u * (4 * ((x3 * z2 + (q - z3 * x2 % q)) ^ 2)) % q)
    let b := k / 2 ^ t % 2
    if b = 0 then ladN q A u k t ((dbl x2 z2).1, (dbl x2 z2).2, dadd.1, dadd.2)
    else ladN q A u k t (dadd.1, dadd.2, (dbl x3 z3).1, (dbl x3 z3).2)

theorem cast_subq (hq : 0 < q) (z : Nat) : ((q - z % q : Nat) : ZMod q) = -(z : ZMod q) := by
  rw [Nat.cast_sub (Nat.mod_lt _ hq).le, ZMod.natCast_self, ZMod.natCast_mod, zero_sub]

theorem ladN_coords (h2 : (2 : ZMod q) ≠ 0) {A B : ZMod q} (hB : B ≠ 0) (hA : A ^ 2 ≠ 4) {AN uN : Nat} (hAN : (AN : ZMod q) = A)
    (hu : (uN : ZMod q) ≠ 0) {w : ZMod q} (hP : (montW A B).Nonsingular (B * (uN : ZMod q)) w) (k : Nat) (t : Nat) :
    ∀ (n : Nat) (s : Nat × Nat × Nat × Nat),
      UCoords (s.1 : ZMod q) s.2.1 (n • (.some _ _ hP : (montW A B).Point)) →
      UCoords (s.2.2.1 : ZMod q) s.2.2.2 ((n + 1) • (.some _ _ hP : (montW A B).Point)) →
      UCoords ((ladN q AN uN k t s).1 : ZMod q) (ladN q AN uN k t s).2.1
        ((n * 2 ^ t + k % 2 ^ t) • (.some _ _ hP : (montW A B).Point)) := by
  have hq : 0 < q := (Fact.out : q.Prime).pos
  generalize hPe : (WeierstrassCurve.Affine.Point.some _ _ hP : (montW A B).Point) = P
  induction t with
  | zero => intro n s h1 _; simpa [ladN, Nat.mod_one] using h1
  | succ t ih =>
    rintro n ⟨x2, z2, x3, z3⟩ hQ hR
    simp only at hQ hR
    have hsum : ∀ r, (2 * n + r) * 2 ^ t + k % 2 ^ t = n * 2 ^ (t + 1) + (r * 2 ^ t + k % 2 ^ t) := by
      intro r; rw [Nat.pow_succ]; ring
    have hmod : k % 2 ^ (t + 1) = k / 2 ^ t % 2 * 2 ^ t + k % 2 ^ t := by
      rw [Nat.pow_succ, Nat.mod_mul]; ring
    have hdd := mont_dadd h2 hB hA hu hP (Q := n • P) (R := (n + 1) • P) (by rw [hPe, succ_nsmul]; abel) hQ hR
    rw [← add_nsmul, show n + (n + 1) = 2 * n + 1 by ring] at hdd
    rw [hmod]
    simp only [ladN]
    rcases Nat.mod_two_eq_zero_or_one (k / 2 ^ t) with e | e <;> rw [e]
    · rw [if_pos rfl, ← hsum]
      have hdb := mont_dbl h2 hB hA hQ
      rw [← two_nsmul, ← mul_nsmul'] at hdb
      refine ih (2 * n + 0) _ ?_ ?_
      · rw [Nat.add_zero]
        convert hdb using 1
        · push_cast [ZMod.natCast_mod, cast_subq hq]; ring
        · push_cast [ZMod.natCast_mod, cast_subq hq, hAN]; ring
      · convert hdd using 1
        · push_cast [ZMod.natCast_mod, cast_subq hq]; ring
        · push_cast [ZMod.natCast_mod, cast_subq hq]; ring
    · rw [if_neg (by norm_num), ← hsum]
      have hdb := mont_dbl h2 hB hA hR
      rw [← two_nsmul, ← mul_nsmul'] at hdb
      refine ih (2 * n + 1) _ ?_ ?_
      · convert hdd using 1
        · push_cast [ZMod.natCast_mod, cast_subq hq]; ring
        · push_cast [ZMod.natCast_mod, cast_subq hq]; ring
      · rw [show 2 * n + 1 + 1 = 2 * (n + 1) by ring]
        convert hdb using 1
        · push_cast [ZMod.natCast_mod, cast_subq hq]; ring
        · push_cast [ZMod.natCast_mod, cast_subq hq, hAN]; ring

/-- A multiple is the neutral element when the ladder on residues ends with a zero denominator. -/
theorem ladN_zero (h2 : (2 : ZMod q) ≠ 0) {A B : ZMod q} (hB : B ≠ 0) (hA : A ^ 2 ≠ 4) {AN uN : Nat} (hAN : (AN : ZMod q) = A)
    (hu : (uN : ZMod q) ≠ 0) (P : (montW A B).Point) (hP : uCoord P = (uN : ZMod q)) (k t : Nat) (hk : k < 2 ^ t)
    (hz : (ladN q AN uN k t (1, 0, uN, 1)).2.1 = 0) : k • P = 0 := by
  rcases P with _ | ⟨x, y, hq⟩
  · exact absurd hP.symm hu
  · simp only [uCoord] at hP
    have hx : B * (uN : ZMod q) = x := by rw [← hP]; field_simp
    subst hx
    have := ladN_coords h2 hB hA hAN hu hq k t 0 (1, 0, uN, 1)
      (by rw [zero_nsmul]; exact ⟨by simp, by simp⟩)
      (by rw [zero_add, one_nsmul]; exact ⟨by simp, by simp⟩)
    rw [Nat.zero_mul, Nat.zero_add, Nat.mod_eq_of_lt hk, hz] at this
    generalize k • (WeierstrassCurve.Affine.Point.some _ _ hq : (montW A B).Point) = Q at this ⊢
    rcases Q with _ | ⟨x', y', hq'⟩
    · rfl
    · exact absurd (by simp) this.1

end

/-! ### The functions -/

/-- What the code relies on: a curve context, its field and the RFC's two decoders. -/
structure MtOk (crv : MtCurve) (q : Nat) (A : ZMod q) (decS decU : List Byte → Nat) : Prop where
  fld : FieldOk crv.aux crv.c q
  q2 : 2 < q
  lo : 2 ≤ (rd crv.aux.modCtx 0).toNat
  A2 : A ^ 2 ≠ 4
  a24l : crv.a24.toNat < 2 ^ 31
  a24 : 4 * (crv.a24.toNat : ZMod q) = A - 2
  a24e : a24Of crv = crv.a24
  up : crv.up ≤ q
  upw : crv.up < 2 ^ 32
  enc : q < 256 ^ crv.sslen
  encq : 256 ^ crv.sslen ≤ 4 * q
  cs : crv.sslen ≤ 4 * crv.c
  clamp : ∀ sk : List Byte, sk.length = crv.sslen →
    (crv.clamp sk).length = crv.sslen ∧ leNat (crv.clamp sk) = decS sk ∧ decS sk < 2 ^ crv.pbits
  mask : ∀ b : List Byte, b.length ≤ crv.sslen →
    (maskU crv (decLSB crv.c b)).length = crv.c ∧ val (maskU crv (decLSB crv.c b)) = decU b
  decUle : ∀ b : List Byte, b.length ≤ crv.sslen → decU b < 256 ^ crv.sslen
  decUq : ∀ b : List Byte, leNat b ≤ q → decU b = leNat b

section
variable {crv : MtCurve} {q : Nat} [Fact q.Prime] {A : ZMod q} {decS decU : List Byte → Nat}

/-- A word object of the context's length that holds an integer at most `4q`. -/
theorem rep_of_le (h : MtOk crv q A decS decU) {l : List W} (hl : l.length = crv.c) (hv : val l < 256 ^ crv.sslen) :
    Rep crv.c q 4 l (val l : ZMod q) := ⟨hl, by have := h.encq; omega, rfl⟩

theorem scale_result (h : MtOk crv q A decS decU) {sk : List Byte} (hs : sk.length = crv.sslen) {l : List W}
    (hl : l.length = crv.c) (hv : val l < 256 ^ crv.sslen) :
    (mtPointScale crv.aux crv.a24 crv.c (decLSB crv.c (crv.clamp sk)) l crv.pbits).length = crv.c ∧
    val (mtPointScale crv.aux crv.a24 crv.c (decLSB crv.c (crv.clamp sk)) l crv.pbits) ≤ q ∧
    IsScaled A (decS sk) (val l : ZMod q)
      (val (mtPointScale crv.aux crv.a24 crv.c (decLSB crv.c (crv.clamp sk)) l crv.pbits) : ZMod q) := by
  obtain ⟨hc1, hc2, hc3⟩ := h.clamp sk hs
  have hk : val (decLSB crv.c (crv.clamp sk)) = decS sk := by
    rw [val_decLSB, hc2]
    apply Nat.mod_eq_of_lt
    rw [← hc2]
    have h1 := leNat_lt (crv.clamp sk)
    rw [hc1] at h1
    refine h1.trans_le ?_
    rw [show 256 = 2 ^ 8 from rfl, ← Nat.pow_mul]
    exact Nat.pow_le_pow_right (by norm_num) (by have := h.cs; omega)
  have key : ∀ B : ZMod q, B ≠ 0 → ∀ P : (montW A B).Point, uCoord P = (val l : ZMod q) →
      Rep crv.c q 1 (mtPointScale crv.aux crv.a24 crv.c (decLSB crv.c (crv.clamp sk)) l crv.pbits)
        (uCoord (decS sk • P)) := by
    intro B hB P hP
    have := mtPointScale_rep h.fld h.q2 h.lo hB h.A2 h.a24l h.a24 (decLSB crv.c (crv.clamp sk)) l crv.pbits 4 P
      (by rw [hP]; exact rep_of_le h hl hv) (by norm_num)
    rwa [hk, Nat.mod_eq_of_lt hc3] at this
  have two : (2 : ZMod q) ≠ 0 := by
    intro e
    have h' := (ZMod.natCast_eq_zero_iff 2 q).mp (by exact_mod_cast e)
    have := Nat.le_of_dvd (by norm_num) h'
    have := h.q2; omega
  have hchar : ringChar (ZMod q) ≠ 2 := by
    rw [ZMod.ringChar_zmod_n]; have := h.q2; omega
  obtain ⟨d, hd⟩ := FiniteField.exists_nonsquare (F := ZMod q) hchar
  have hd0 : d ≠ 0 := by rintro rfl; exact hd ⟨0, by simp⟩
  have ex : ∃ x, Rep crv.c q 1 (mtPointScale crv.aux crv.a24 crv.c (decLSB crv.c (crv.clamp sk)) l crv.pbits) x := by
    rcases mont_exists two h.A2 hd (val l : ZMod q) with ⟨P, hP⟩ | ⟨P, hP⟩
    · exact ⟨_, key 1 one_ne_zero P hP⟩
    · exact ⟨_, key d hd0 P hP⟩
  obtain ⟨x, hx⟩ := ex
  refine ⟨hx.len, by have := hx.le; omega, ?_⟩
  intro B hB P hP
  exact (key B hB P hP).res

theorem leNat_enc (h : MtOk crv q A decS decU) {l : List W} (hl : val l ≤ q) : leNat (encLSB l crv.sslen) = val l := by
  rw [leNat_encLSB]; apply Nat.mod_eq_of_lt; have := h.enc; omega

theorem baseWords_val (h : MtOk crv q A decS decU) : (baseWords crv).length = crv.c ∧ val (baseWords crv) = crv.up := by
  refine ⟨by simp [baseWords], ?_⟩
  have hc := h.fld.cpos
  unfold baseWords
  obtain ⟨m, hm⟩ : ∃ m, crv.c = m + 1 := ⟨crv.c - 1, by omega⟩
  rw [hm, List.range_succ_eq_map, List.map_cons, List.map_map]
  simp only [if_true, val]
  have : ((List.range m).map ((fun t => if t = 0 then BitVec.ofNat 32 crv.up else (0:W)) ∘ Nat.succ)) = List.replicate m (0 : W) := by
    rw [List.eq_replicate_iff]; simp
  rw [this, val_replicate_zero, BitVec.toNat_ofNat, Nat.mod_eq_of_lt h.upw]
  ring

theorem encLSB_inj {l m : List W} {n : Nat} (h : val l = val m) : encLSB l n = encLSB m n := by
  have h1 : leNat (encLSB l n) = leNat (encLSB m n) := by rw [leNat_encLSB, leNat_encLSB, h]
  have len : ∀ v : List W, (encLSB v n).length = n := by intro v; simp [encLSB]
  apply List.ext_getElem (by rw [len, len])
  intro i hi hj
  have e : ∀ (v : List W) (hv : i < (encLSB v n).length), (encLSB v n)[i].toNat = leNat (encLSB v n) / 256 ^ i % 256 := by
    intro v hv
    rw [← leNat_getD, List.getD_eq_getElem?_getD, List.getElem?_eq_getElem hv]; rfl
  apply BitVec.eq_of_toNat_eq
  rw [e, e, h1]

end
end Xecdh
