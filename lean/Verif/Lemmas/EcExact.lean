import Verif.Lemmas.EcInst

/-!
# Zero and non-zero words

The reductions never turn a non-zero number into zero, nor zero into the prime. So two results of the same
residue class are the same words unless exactly one of them comes from zero.
-/

namespace Ec
open Vlong Spec

theorem fold_zero {V T Q : Nat} (hQ : 0 < Q) : V % T + V / T * Q = 0 ↔ V = 0 := by
  constructor
  · intro h
    have h1 : V % T = 0 := by omega
    have h2 : V / T * Q = 0 := by omega
    have h3 : V / T = 0 := by
      rcases Nat.mul_eq_zero.mp h2 with h | h
      · exact h
      · omega
    have := Nat.div_add_mod V T
    rw [h3, h1] at this
    omega
  · rintro rfl; simp

theorem foldLoop_zero {tbl : List (Int × Nat)} {n K : Nat} (ht : TblOk tbl n K) (hK0 : 0 < K)
    (hK : K * 2 ^ 32 ≤ 2 ^ (32 * n)) (k : Nat) (rem : List W)
    (hl : n + k ≤ rem.length) (hV : val rem < 2 ^ (32 * (n + k))) :
    val (foldLoop tbl n k rem) = 0 ↔ val rem = 0 := by
  induction k generalizing rem with
  | zero => exact Iff.rfl
  | succ k ih =>
    have hT : 0 < 2 ^ (32 * (n + k)) := by positivity
    have hQ : K * 2 ^ (32 * k) * 2 ^ 32 ≤ 2 ^ (32 * (n + k)) := by
      rw [Nat.mul_add, Nat.pow_add, Nat.mul_right_comm]
      exact Nat.mul_le_mul_right _ hK
    have hV' : val rem < 2 ^ 32 * 2 ^ (32 * (n + k)) := by
      rw [← Nat.pow_add]
      have : 32 + 32 * (n + k) = 32 * (n + (k + 1)) := by omega
      rw [this]; exact hV
    obtain ⟨b1, b2⟩ := two_folds hT hQ hV'
    have hbig : 2 * 2 ^ (32 * (n + k)) ≤ 2 ^ (32 * rem.length) := by
      calc 2 * 2 ^ (32 * (n + k)) = 2 ^ (1 + 32 * (n + k)) := by rw [Nat.pow_add]
        _ ≤ _ := Nat.pow_le_pow_right (by decide) (by omega)
    obtain ⟨l1, v1⟩ := foldOnce_val ht k rem hV (by omega)
    rw [← v1] at b1 b2
    have hlt : val (foldOnce tbl (n + k) rem) < 2 ^ (32 * (n + k + 1)) := by
      have : 2 * 2 ^ (32 * (n + k)) ≤ 2 ^ (32 * (n + k + 1)) := by
        calc 2 * 2 ^ (32 * (n + k)) = 2 ^ (1 + 32 * (n + k)) := by rw [Nat.pow_add]
          _ ≤ _ := Nat.pow_le_pow_right (by decide) (by omega)
      omega
    obtain ⟨l2, v2⟩ := foldOnce_val ht k (foldOnce tbl (n + k) rem) hlt (by rw [l1]; omega)
    rw [← v2] at b2
    have hKp : 0 < K * 2 ^ (32 * k) := by positivity
    rw [foldLoop, ih (foldOnce tbl (n + k) (foldOnce tbl (n + k) rem)) (by omega) b2, v2, fold_zero hKp, v1,
      fold_zero hKp]

theorem condSub_zero {v p : Nat} : (if p < v then v - p else v) = 0 ↔ v = 0 := by
  split <;> omega

theorem red_zero_of_fold {tbl : List (Int × Nat)} {n K : Nat} {pw : List W} (ht : TblOk tbl n K) (hK0 : 0 < K)
    (hpl : pw.length = n) (hK : K * 2 ^ 32 ≤ 2 ^ (32 * n)) (l : List W) :
    val (if l.length < n then l else finSub (foldLoop tbl n (l.length - n) l) pw) = 0 ↔ val l = 0 := by
  split
  · exact Iff.rfl
  · have e : l.length = n + (l.length - n) := by omega
    have hV : val l < 2 ^ (32 * (n + (l.length - n))) := by rw [← e]; exact val_lt l
    obtain ⟨g1, g2⟩ := finSub_val (foldLoop tbl n (l.length - n) l) pw
      (by rw [length_foldLoop _ _ _ _ ht.small]; omega)
    rw [g2, condSub_zero, foldLoop_zero ht hK0 hK _ l (by omega) hV]

theorem remv256_zero (l : List W) : val (remv256 l) = 0 ↔ val l = 0 :=
  red_zero_of_fold tbl256_ok (by decide +kernel) rfl (by decide +kernel) l
theorem remv384_zero (l : List W) : val (remv384 l) = 0 ↔ val l = 0 :=
  red_zero_of_fold tbl384_ok (by decide +kernel) rfl (by decide +kernel) l

theorem sm2_zero1 (l : List W) (hl : 9 ≤ l.length) (hV : val l < 2 ^ 288) :
    val (foldLoop tblSM2 8 1 l) = 0 ↔ val l = 0 := by
  have hbig : (2:Nat) ^ 288 ≤ 2 ^ (32 * l.length) := Nat.pow_le_pow_right (by decide) (by omega)
  have h0 : 2 * 2 ^ 256 ≤ (2:Nat) ^ 288 := by decide +kernel
  have h00 : 2 ^ 256 + 2 ^ 128 ≤ (2:Nat) ^ 288 := by decide +kernel
  have hx : (2:Nat) ^ (32 * (8 + 0 + 1)) = 2 ^ 288 := by rw [show 32 * (8 + 0 + 1) = 288 from rfl]
  obtain ⟨b1, b2⟩ := sm2_folds8 hV
  have e1 : ∀ v : Nat, v % 2 ^ (32 * (8 + 0)) + v / 2 ^ (32 * (8 + 0)) * (KSM2 * 2 ^ (32 * 0)) =
      v % 2 ^ 256 + v / 2 ^ 256 * KSM2 := by intro v; simp
  obtain ⟨l1, v1⟩ := foldOnce_val tblSM2_ok 0 l (by rw [hx]; exact hV) (by rw [e1]; omega)
  rw [e1] at v1
  rw [← v1] at b1 b2
  obtain ⟨l2, v2⟩ := foldOnce_val tblSM2_ok 0 (foldOnce tblSM2 (8 + 0) l)
    (by rw [hx]; exact lt_of_lt_of_le b1 h0) (by rw [e1, l1]; omega)
  rw [e1] at v2
  have hK : 0 < KSM2 := by decide +kernel
  rw [foldLoop, foldLoop, v2, fold_zero hK, v1, fold_zero hK]

theorem sm2_zero2 (l : List W) (hl : 10 ≤ l.length) (hV : val l < 2 ^ 318) :
    val (foldLoop tblSM2 8 2 l) = 0 ↔ val l = 0 := by
  have hbig : (2:Nat) ^ 320 ≤ 2 ^ (32 * l.length) := Nat.pow_le_pow_right (by decide) (by omega)
  have h0 : 2 * 2 ^ 288 ≤ (2:Nat) ^ 320 := by decide +kernel
  have h1 : 2 ^ 318 ≤ (2:Nat) ^ 320 := Nat.pow_le_pow_right (by decide) (by decide)
  have hx : (2:Nat) ^ (32 * (8 + 1 + 1)) = 2 ^ 320 := by rw [show 32 * (8 + 1 + 1) = 320 from rfl]
  obtain ⟨b1, b2⟩ := sm2_folds9 hV
  have e1 : ∀ v : Nat, v % 2 ^ (32 * (8 + 1)) + v / 2 ^ (32 * (8 + 1)) * (KSM2 * 2 ^ (32 * 1)) =
      v % 2 ^ 288 + v / 2 ^ 288 * (KSM2 * 2 ^ 32) := by
    intro v; rw [show 32 * (8 + 1) = 288 from rfl, show 32 * 1 = 32 from rfl]
  obtain ⟨l1, v1⟩ := foldOnce_val tblSM2_ok 1 l (by rw [hx]; exact lt_of_lt_of_le hV h1)
    (by rw [e1]; exact lt_of_lt_of_le b1 (h0.trans hbig))
  rw [e1] at v1
  rw [← v1] at b1 b2
  obtain ⟨l2, v2⟩ := foldOnce_val tblSM2_ok 1 (foldOnce tblSM2 (8 + 1) l)
    (by rw [hx]; exact lt_of_lt_of_le b1 h0) (by
      rw [e1, l1]
      exact lt_of_lt_of_le b2 ((Nat.pow_le_pow_right (by decide) (by decide)).trans hbig))
  rw [e1] at v2
  rw [← v2] at b2
  have hK : 0 < KSM2 * 2 ^ 32 := by decide +kernel
  rw [foldLoop, sm2_zero1 _ (by rw [l2, l1]; omega) b2, v2, fold_zero hK, v1, fold_zero hK]

theorem remvSM2_zero (l : List W) (hV : val l < 2 ^ 318) : val (remvSM2 l) = 0 ↔ val l = 0 := by
  unfold remvSM2
  split
  · exact Iff.rfl
  · rename_i hl
    obtain ⟨h1, h2, h3⟩ := sm2_loop l (by omega) hV
    obtain ⟨g1, g2⟩ := finSub_val (foldLoop tblSM2 8 (l.length - 8) l) pSM2
      (by rw [show pSM2.length = 8 from rfl]; omega)
    rw [g2, condSub_zero]
    by_cases h8 : l.length = 8
    · rw [show l.length - 8 = 0 by omega]; exact Iff.rfl
    · by_cases h9 : l.length = 9
      · have hv := val_lt l
        rw [show 32 * l.length = 288 by omega] at hv
        rw [show l.length - 8 = 1 by omega]
        exact sm2_zero1 l (by omega) hv
      · have e : l.length - 8 = 2 + (l.length - 10) := by omega
        have h1 : 2 ^ 318 ≤ (2:Nat) ^ (32 * (8 + 2)) := Nat.pow_le_pow_right (by decide) (by decide)
        rw [e, foldLoop_skip tblSM2_ok (l.length - 10) 2 l (by omega) (lt_of_lt_of_le hV h1)]
        exact sm2_zero2 l (by omega) hV

/-- The reduction of a number is zero exactly if the number is. -/
def RedZero (f : List W → List W) (c B : Nat) : Prop :=
  ∀ l : List W, l.length = c → val l < B → (val (f l) = 0 ↔ val l = 0)

theorem prop_aux (A B C D : Prop) : ((A ∧ (B ∨ C)) ∧ (B ∨ D)) ↔ (A ∧ (B ∨ (D ∧ C))) := by tauto

theorem mulvLoop_zero {a b : List W} {bmask : W} {f : List W → List W} {c p B : Nat} (hz : RedZero f c B)
    (hr : RedOk f p c B) (hB : B ≤ 2 ^ (32 * c))
    (h1 : val a * (2 ^ 32 - 1) + (p + 1) ≤ B) (h2 : (p + 1) * 2 ^ 32 ≤ B) (i : Nat) (out : List W)
    (hl : out.length = c) (hlt : val out ≤ p) {o : List W}
    (ho : mulvLoop a b bmask (some fun l => some (f l)) i out = some o) :
    val o = 0 ↔ val out = 0 ∧ (val a = 0 ∨ blow b bmask i = 0) := by
  induction i generalizing out with
  | zero =>
    simp only [mulvLoop, Option.some.injEq] at ho
    subst ho
    simp [blow]
  | succ i ih =>
    simp only [mulvLoop, Option.bind_eq_bind] at ho
    change ((some (f (muls out a (bdig b bmask i) true))).bind fun out =>
        if i ≠ 0 then (some (f (mulx out.length out))).bind fun out => mulvLoop a b bmask (some fun l => some (f l)) i out
        else (some out).bind fun out => mulvLoop a b bmask (some fun l => some (f l)) i out) = some o at ho
    simp only [Option.bind_some] at ho
    set q0 := muls out a (bdig b bmask i) true with hq0
    have hq0l : q0.length = c := by rw [hq0, length_muls, hl]
    have hd := (bdig b bmask i).isLt
    have hm : val a * (bdig b bmask i).toNat ≤ val a * (2 ^ 32 - 1) := Nat.mul_le_mul_left _ (by omega)
    have hq0v : val q0 = val a * (bdig b bmask i).toNat + val out := by
      rw [hq0, val_muls, if_pos rfl, hl, Nat.mod_eq_of_lt]
      omega
    have hq0B : val q0 < B := by rw [hq0v]; omega
    have z1 := hz q0 hq0l hq0B
    have hql := hr.len q0 hq0l
    have hqM := hr.le q0 hq0l hq0B
    rw [hq0v] at z1
    have hb : blow b bmask (i + 1) = 0 ↔ blow b bmask i = 0 ∧ (bdig b bmask i).toNat = 0 := by
      rw [blow]
      have : 0 < 2 ^ (32 * i) := by positivity
      constructor
      · intro h
        have h2 : (bdig b bmask i).toNat * 2 ^ (32 * i) = 0 := by omega
        rcases Nat.mul_eq_zero.mp h2 with h | h <;> omega
      · rintro ⟨h, h'⟩; rw [h, h']; simp
    have key : (val a * (bdig b bmask i).toNat + val out = 0) ↔
        val out = 0 ∧ (val a = 0 ∨ (bdig b bmask i).toNat = 0) := by
      rw [Nat.add_eq_zero_iff, Nat.mul_eq_zero]; tauto
    by_cases h0 : i = 0
    · subst h0
      simp only [ne_eq, not_true_eq_false, if_false, mulvLoop, Option.some.injEq] at ho
      subst ho
      rw [z1, key, hb]
      simp [blow]
    · simp only [ne_eq, h0, not_false_eq_true, if_true] at ho
      set q := f q0
      have hxv : val (mulx q.length q) = 2 ^ 32 * val q := by
        rw [val_mulx, hql, Nat.mod_eq_of_lt]
        have : (val q + 1) * 2 ^ 32 ≤ (p + 1) * 2 ^ 32 := Nat.mul_le_mul_right _ (by omega)
        omega
      have hxB : val (mulx q.length q) < B := by
        rw [hxv]
        have : (val q + 1) * 2 ^ 32 ≤ (p + 1) * 2 ^ 32 := Nat.mul_le_mul_right _ (by omega)
        omega
      have hxl : (mulx q.length q).length = c := by rw [length_mulx, hql]
      have z2 := hz _ hxl hxB
      rw [ih (f (mulx q.length q)) (hr.len _ hxl) (hr.le _ hxl hxB) ho, z2, hxv, hb]
      have : 2 ^ 32 * val q = 0 ↔ val q = 0 := by omega
      rw [this, z1, key]
      exact prop_aux _ _ _ _

section
variable {aux : Aux} {c p : Nat} (hF : FieldOk aux c p) (hZ : RedZero aux.modfunc c (p * 2 ^ 40))
include hF hZ

theorem mulM_zero {a b : List W} (hb : b ≠ []) (ha : val a ≤ 2 ^ 7 * p) :
    val (mulM aux c a b 1) = 0 ↔ val a = 0 ∨ val b = 0 := by
  have hp := hF.two
  have hB : p * 2 ^ 40 ≤ 2 ^ (32 * c) := le_trans (Nat.mul_le_mul_left _ (by norm_num)) hF.room
  have hred : ReducesB (fun l => some (aux.modfunc l)) c p (p + 1) (p * 2 ^ 40) := by
    intro l hl hlt
    exact ⟨_, rfl, hF.red.len l hl, hF.red.mod l hl hlt, Nat.lt_succ_of_le (hF.red.le l hl hlt)⟩
  obtain ⟨o, g1, g2, g3, g4⟩ := mulvLoop_bdd a b (0 - 1) (fun l => some (aux.modfunc l)) c p (p + 1)
    (p * 2 ^ 40) hred hB (room_a hp ha) (room_b hp) b.length
    (List.replicate c 0) (by simp) (by rw [val_replicate_zero]; omega)
  have z := mulvLoop_zero hZ hF.red hB (room_a hp ha) (room_b hp) b.length (List.replicate c 0) (by simp)
    (by rw [val_replicate_zero]; omega) g1
  unfold mulM mulvMasked
  rw [g1, Option.getD_some, z, val_replicate_zero, blow_factor b 1 (Or.inr rfl) hb, factor, if_pos rfl]
  simp

theorem mod_zero {k : Nat} {l : List W} {x : ZMod p} (h : Rep c p k l x) (hk : k < 2 ^ 40) :
    val (aux.modfunc l) = 0 ↔ val l = 0 := by
  apply hZ l h.len
  have h1 := h.le
  have : (k + 1) * p ≤ 2 ^ 40 * p := Nat.mul_le_mul_right _ hk
  have h3 := hF.two
  rw [Nat.add_mul] at this
  rw [Nat.mul_comm p]; omega

omit hZ in
theorem add_val {k k' : Nat} {a b : List W} {x y : ZMod p} (ha : Rep c p k a x) (hb : Rep c p k' b y)
    (hk : k + k' ≤ 2 ^ 40) : val (addv c a b) = val a + val b := by
  have h1 := ha.le
  have h2 := hb.le
  have h3 := hF.fit hk
  have hl : (addv c a b).length = c := length_addKernel _ _ _ _ _
  rw [Nat.add_mul] at h3
  have hpos : 0 < 2 ^ (32 * c) := by positivity
  exact nat_of_modEq hl (by push_cast; exact addv_modEq c a b) (by omega)

/-- The signed reduction of a difference of equal words is zero. -/
theorem imod_sub_self {a b : List W} (hv : val a = val b) :
    val (imod aux (subv c a b)) = 0 := by
  have hc := hF.cpos
  have hl : (subv c a b).length = c := length_addKernel _ _ _ _ _
  have h0 : val (subv c a b) = 0 :=
    nat_of_modEq hl ((subv_modEq c a b).trans (modEq_of_eq (by rw [hv]; simp))) (by positivity)
  generalize subv c a b = rem at *
  unfold imod
  simp only
  rw [top_bit rem (by omega)]
  have hs : 2 * val rem < 2 ^ (32 * rem.length) := by rw [h0]; positivity
  simp only [hs, if_true]
  rw [map_xor_zero]
  have hlv := val_lt rem
  have ha : adds rem.length rem (BitVec.setWidth 64 ((0 : W) &&& 1)) 0 = rem := by
    apply val_inj
    · exact length_addKernel _ _ _ _ _
    · have e : BitVec.setWidth 64 ((0 : W) &&& 1) = 0 := by decide
      rw [e]
      have h := val_of_modEq (length_addKernel _ _ _ _ _)
        (adds_modEq rem.length rem 0 0 (by decide) (by decide))
      rw [show (0 : BitVec 64).toInt = 0 from rfl, Int.zero_mul, add_zero,
        Int.emod_eq_of_lt (by omega) (by exact_mod_cast hlv)] at h
      exact_mod_cast h
  rw [ha]
  have e : ∀ x : W, (0 : W) &&& x = 0 := by intro x; simp
  rw [e, imodLoop_pos]
  have hp := hF.two
  exact (hZ rem hl (by rw [h0]; positivity)).mpr h0

omit hZ in
/-- Two non-zero results of the same residue class are the same words. -/
theorem rep_unique {a b : List W} {x : ZMod p} (ha : Rep c p 1 a x) (hb : Rep c p 1 b x) (h1 : val a ≠ 0)
    (h2 : val b ≠ 0) : val a = val b := by
  have hm : val a ≡ val b [MOD p] := (ZMod.natCast_eq_natCast_iff _ _ _).mp (ha.res.trans hb.res.symm)
  have l1 := ha.le
  have l2 := hb.le
  rw [Nat.one_mul] at l1 l2
  have hp := hF.two
  unfold Nat.ModEq at hm
  rcases Nat.lt_or_ge (val a) p with g1 | g1 <;> rcases Nat.lt_or_ge (val b) p with g2 | g2
  · rwa [Nat.mod_eq_of_lt g1, Nat.mod_eq_of_lt g2] at hm
  · have : val b = p := by omega
    rw [this, Nat.mod_self, Nat.mod_eq_of_lt g1] at hm; omega
  · have : val a = p := by omega
    rw [this, Nat.mod_self, Nat.mod_eq_of_lt g2] at hm; omega
  · omega
end

theorem redZero256 : RedZero aux256.modfunc 11 (EcParam.q256 * 2 ^ 40) := fun l _ _ => remv256_zero l
theorem redZero384 : RedZero aux384.modfunc 15 (EcParam.q384 * 2 ^ 40) := fun l _ _ => remv384_zero l
theorem redZeroSM2 : RedZero auxSM2.modfunc 11 (EcParam.qSM2 * 2 ^ 40) := fun l _ h =>
  remvSM2_zero l (lt_of_lt_of_le h (by decide +kernel))

end Ec
