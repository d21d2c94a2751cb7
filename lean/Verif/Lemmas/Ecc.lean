import Verif.Model.Ecc
import Verif.Lemmas.EcScale2
import Verif.Lemmas.EcInst
import Verif.Lemmas.EcMt
import Verif.Lemmas.Pkcs1Ops

/-! Field inversions, square root and the key codec of the short-Weierstrass curves. -/

namespace Ecc
open Vlong Ec Spec EcParam

/-- The callback `vlong_remv_inplace` with the group order as its context. -/
def auxN (C : Curve) : Aux := ⟨fun l => (remvInplace l C.n).getD l, C.n⟩

theorem auxN_val {C : Curve} {l : List W} (h : C.n.length ≤ l.length) :
    ((auxN C).modfunc l).length = l.length ∧ val ((auxN C).modfunc l) = val l % val C.n := by
  obtain ⟨r, e1, e2, e3⟩ := remvInplace_val l C.n h
  have : (auxN C).modfunc l = r := by show (remvInplace l C.n).getD l = r; rw [e1]; rfl
  rw [this]; exact ⟨e2, e3⟩

theorem fieldOkN {C : Curve} {c : Nat} (hl : C.n.length ≤ c) (hr : val C.n * 2 ^ 42 ≤ 2 ^ (32 * c))
    (h2 : 2 ≤ val C.n) : FieldOk (auxN C) c (val C.n) where
  ctx := rfl
  len := hl
  red := by
    refine ⟨fun l h => ?_, fun l h _ => ?_, fun l h _ => ?_⟩
    · rw [(auxN_val (by omega)).1, h]
    · rw [(auxN_val (by omega)).2]; exact Nat.mod_modEq _ _
    · rw [(auxN_val (by omega)).2]; exact (Nat.mod_lt _ (by omega)).le
  room := hr
  two := h2

/-- A product modulo the group order is fully reduced. -/
theorem mulN_val {C : Curve} {c : Nat} (hF : FieldOk (auxN C) c (val C.n)) {a b : List W} (hb : b ≠ [])
    (ha : val a ≤ 2 ^ 7 * val C.n) : (mulM (auxN C) c a b 1).length = c ∧
      val (mulM (auxN C) c a b 1) = val a * val b % val C.n := by
  have hp := hF.two
  have hB : val C.n * 2 ^ 40 ≤ 2 ^ (32 * c) := le_trans (Nat.mul_le_mul_left _ (by norm_num)) hF.room
  have hred : ReducesB (fun l => some ((auxN C).modfunc l)) c (val C.n) (val C.n) (val C.n * 2 ^ 40) := by
    intro l hl _
    have hln : C.n.length ≤ l.length := by rw [hl]; exact hF.len
    refine ⟨_, rfl, by rw [(auxN_val hln).1, hl], ?_, ?_⟩
    · rw [(auxN_val hln).2]; exact Nat.mod_modEq _ _
    · rw [(auxN_val hln).2]; exact Nat.mod_lt _ (by omega)
  have h1 := room_a hp ha
  have h2 := room_b hp
  obtain ⟨o, g1, g2, g3, g4⟩ := mulvLoop_bdd a b (0 - 1) (fun l => some ((auxN C).modfunc l)) c (val C.n) (val C.n)
    (val C.n * 2 ^ 40) hred hB (le_trans (Nat.add_le_add_left (Nat.le_succ _) _) h1) (le_trans (Nat.mul_le_mul_right _ (Nat.le_succ _)) h2) b.length
    (List.replicate c 0) (by simp) (by rw [val_replicate_zero]; omega)
  have e : mulM (auxN C) c a b 1 = o := by
    show (mulvLoop a b (0 - 1) (some fun l => some ((auxN C).modfunc l)) b.length (List.replicate c 0)).getD [] = o
    rw [g1]; rfl
  rw [e]
  refine ⟨g2, ?_⟩
  rw [val_replicate_zero, blow_factor b 1 (Or.inr rfl) hb, factor, if_pos rfl] at g4
  have : val o % val C.n = val a * val b % val C.n := by simpa [Nat.ModEq] using g4
  rw [← this, Nat.mod_eq_of_lt g3]

theorem foldl_or_zero (l : List W) : ∀ b : W, l.foldl (· ||| ·) b = 0 ↔ b = 0 ∧ ∀ x ∈ l, x = 0 := by
  induction l with
  | nil => simp
  | cons x l ih =>
    intro b
    rw [List.foldl_cons, ih, show b ||| x = 0 ↔ b = 0 ∧ x = 0 from BitVec.or_eq_zero_iff]
    simp [and_assoc]

theorem nonzero_iff (v : List W) : nonzero v = true ↔ val v ≠ 0 := by
  unfold nonzero
  rw [bne_iff_ne, Ne, foldl_or_zero, not_iff_not]
  constructor
  · rintro ⟨-, h⟩
    have : v = List.replicate v.length 0 := List.eq_replicate_iff.mpr ⟨rfl, h⟩
    rw [this, val_replicate_zero]
  · intro h
    have : v = List.replicate v.length 0 := val_inj (by simp) (by rw [val_replicate_zero, h])
    refine ⟨rfl, fun x hx => ?_⟩
    rw [this] at hx
    exact (List.mem_replicate.mp hx).2

theorem nonzero_false (v : List W) : nonzero v = false ↔ val v = 0 := by
  have := nonzero_iff v
  cases h : nonzero v <;> simp_all

theorem cmp0 (a b : List W) : cmpvShifted a b 0 = cmpRes (val a) (val b) := by
  rw [cmpvShifted_eq]; simp

theorem cmpRes_two {x y : Nat} : cmpRes x y = 2 ↔ x < y := by
  unfold cmpRes; split
  · simp [*]
  · split <;> simp [*] <;> decide
theorem cmpRes_one {x y : Nat} : cmpRes x y = 1 ↔ y < x := by
  unfold cmpRes; split
  · constructor
    · intro h; exact absurd h (by decide)
    · omega
  · split
    · constructor
      · intro h; exact absurd h (by decide)
      · omega
    · simp; omega
theorem cmpRes_zero {x y : Nat} : cmpRes x y = 0 ↔ x = y := by
  unfold cmpRes; split
  · constructor
    · intro h; exact absurd h (by decide)
    · omega
  · split
    · simp [*]
    · constructor
      · intro h; exact absurd h (by decide)
      · intro h; contradiction

theorem val_one : val one = 1 := by decide

theorem scalarOk_iff (C : Curve) (d : List W) : scalarOk C d = true ↔ 1 ≤ val d ∧ val d < val C.n := by
  unfold scalarOk
  rw [cmp0, cmp0, val_one]
  by_cases h1 : val d < val C.n
  · rw [if_neg (by rw [not_not]; exact cmpRes_two.mpr h1)]
    by_cases h2 : val d < 1
    · rw [if_pos (cmpRes_one.mpr h2)]; simp; omega
    · rw [if_neg (fun h => h2 (cmpRes_one.mp h))]; simp; omega
  · rw [if_pos (fun h => h1 (cmpRes_two.mp h))]; simp; omega

/-- What the key and signature functions need of a curve context. -/
structure EccCurve (C : Curve) (c p : Nat) (a b : ZMod p) [Fact p.Prime] : Prop extends GoodCurve C c p a b where
  zero : RedZero C.aux.modfunc c (p * 2 ^ 40)
  plen : 0 < C.plen
  p4 : p % 4 = 3
  plow : 2 ≤ (rd C.aux.modCtx 0).toNat ∧ (rd C.aux.modCtx 0).toNat % 4 = 3
  pctx : p + 1 < 2 ^ (32 * C.aux.modCtx.length)
  plt : p < 2 ^ (8 * C.plen)
  p2 : 2 ^ (8 * C.plen) ≤ 2 * p
  top : topwordModmask (BitVec.allOnes 32) (rd C.aux.modCtx ((C.plen - 1) / 4)) = BitVec.allOnes 32
  nlen : C.n.length ≤ c
  nlow : 2 ≤ (rd C.n 0).toNat
  nprime : (val C.n).Prime
  nroom : val C.n * 2 ^ 42 ≤ 2 ^ (32 * c)
  n2 : 2 ^ (8 * C.plen) ≤ 2 * val C.n
  np : val C.n < p
  room : 8 * C.plen ≤ 32 * c
  base : ∃ G : (shortW a b).Point, Denotes c C.G G ∧ addOrderOf G = val C.n

section
variable {C : Curve} {c p : Nat} [hp : Fact p.Prime] {a b : ZMod p} (hC : EccCurve C c p a b)
include hC

theorem EccCurve.fld : FieldOk C.aux c p := hC.ok.fld
theorem EccCurve.fldN : FieldOk (auxN C) c (val C.n) := fieldOkN hC.nlen hC.nroom hC.nprime.two_le
theorem EccCurve.three : 3 ≤ p := by
  have := hC.p4
  have := hp.out.two_le
  omega

theorem invP_rep {l : List W} {x : ZMod p} (h : Rep c p 1 l x) : Rep c p 1 (invModP C c l) x⁻¹ := by
  have h3 := hC.three
  have hctx := hC.pctx
  have := modexp_rep hC.fld (-2) 0 (p - 2) (by rw [show (-2 : BitVec 32).toInt = -2 by decide]; omega)
    (by rw [show (-2 : BitVec 32).toInt = -2 by decide]; have := hC.plow.1; omega) (by omega) (by norm_num)
    (by intro h0; rw [h0] at hctx; simp at hctx) h
  rw [pow_zero, Nat.div_one, fermat_inv (by omega)] at this
  exact this

theorem invN_rep {l : List W} {x : ZMod (val C.n)} (h : Rep c (val C.n) 1 l x) :
    Rep c (val C.n) 1 (invModN C c l) x⁻¹ := by
  haveI : Fact (val C.n).Prime := ⟨hC.nprime⟩
  have hl := hC.nlow
  have hlt := val_lt C.n
  have h3 : 2 < val C.n := by
    have h2 := hC.nprime.two_le
    have h4 := hC.n2
    have : 2 ^ 8 ≤ 2 ^ (8 * C.plen) := Nat.pow_le_pow_right (by norm_num) (by have := hC.plen; omega)
    omega
  have := modexp_rep hC.fldN (-2) 0 (val C.n - 2) (by rw [show (-2 : BitVec 32).toInt = -2 by decide]; omega)
    (by rw [show (-2 : BitVec 32).toInt = -2 by decide]; show 0 ≤ ((rd C.n 0).toNat : Int) + -2; omega)
    (by show val C.n - 2 < 2 ^ (32 * C.n.length); omega) (by norm_num)
    (by intro h0; have h0 : C.n = [] := h0; rw [h0] at h3; exact absurd h3 (by decide)) h
  rw [pow_zero, Nat.div_one, fermat_inv h3] at this
  exact this

theorem sqrt_rep {l : List W} {x : ZMod p} (h : Rep c p 1 l x) : ∃ y, sqrtC3m4 C.aux c l = some y ∧
    Rep c p 1 y (x ^ ((p + 1) / 4)) := by
  have h3 := hC.three
  have hctx := hC.pctx
  have := modexp_rep hC.fld 1 2 (p + 1) (by rw [show (1 : BitVec 32).toInt = 1 by decide]; omega)
    (by rw [show (1 : BitVec 32).toInt = 1 by decide]; omega) (by omega) (by norm_num)
    (by intro h0; rw [h0] at hctx; simp at hctx) h
  refine ⟨_, ?_, this⟩
  unfold sqrtC3m4
  rw [if_neg]
  rw [not_not]
  apply BitVec.eq_of_toNat_eq
  rw [BitVec.toNat_and, show (3 : BitVec 32).toNat = 2 ^ 2 - 1 from rfl, Nat.and_two_pow_sub_one_eq_mod]
  exact hC.plow.2

omit hC in
theorem sqrt_sq (h4 : p % 4 = 3) {x y : ZMod p} (h : y ^ 2 = x) : (x ^ ((p + 1) / 4)) ^ 2 = x := by
  have e : (p + 1) / 4 * 2 = (p - 1) / 2 + 1 := by omega
  rw [← pow_mul, e]
  subst h
  by_cases hy : y = 0
  · subst hy; simp
  · rw [← pow_mul, show 2 * ((p - 1) / 2 + 1) = (p - 1) + 2 by omega, pow_add, ZMod.pow_card_sub_one_eq_one hy, one_mul]

theorem os_rep (os : List Byte) (hl : os.length = C.plen) : Rep c p 2 (os2ip c os) (beNat os : ZMod p) ∧
    val (os2ip c os) = beNat os := by
  have h1 := beNat_lt os
  rw [hl, show (256 : Nat) = 2 ^ 8 from rfl, ← pow_mul] at h1
  have h2 : 2 ^ (8 * C.plen) ≤ 2 ^ (32 * c) := Nat.pow_le_pow_right (by norm_num) hC.room
  have hv : val (os2ip c os) = beNat os := by
    rw [(Props.C06_os2ip c os).2, Nat.mod_eq_of_lt (by omega)]
  have h3 := hC.p2
  exact ⟨⟨(Props.C06_os2ip c os).1, by omega, by rw [hv]⟩, hv⟩

theorem curveRhs_rep {l : List W} {x : ZMod p} (h : Rep c p 2 l x) :
    Rep c p 1 (curveRhs C c l) (x ^ 3 + a * x + b) := by
  have h1 := BitVec.le_toInt C.a
  have h2 := BitVec.toInt_lt (x := C.a)
  have hF := hC.fld
  unfold curveRhs
  extract_lets -merge v u u1 u2 u3
  have r0 : Rep c p 1 v (x * x) := mul_rr hF h h (by norm_num)
  have r1 : Rep c p 1 u (x * (x * x)) := mul_rr hF h r0 (by norm_num)
  have r2 := imuls_acc_rep hF C.a64 h r1 (by norm_num) (by rw [a64_toInt]; simpa using h1)
    (by rw [a64_toInt]; simpa using h2) (by norm_num)
  have r3 : Rep c p 1 u2 _ := imod_rep hF r2 (by norm_num)
  have hb := hC.ok.ble
  have r4 : Rep c p 2 u3 ((C.a64.toInt : ZMod p) * x + x * (x * x) + b) := by
    have h5 := hF.fit (k := 2) (by norm_num)
    have h6 := r3.le
    have hl : u3.length = c := length_addKernel _ _ _ _ _
    have hv : val u3 = val u2 + val C.b := by
      have := addv_modEq c u2 C.b
      have := hp.out.pos
      exact nat_of_modEq hl ‹_› (by omega)
    refine ⟨hl, by omega, ?_⟩
    rw [hv, Nat.cast_add, r3.res, hC.ok.cb]
  refine (mod_rep hF r4 (by norm_num)).of_eq ?_
  rw [a64_toInt, hC.ok.ca]; ring

theorem one_rep : Rep c p 1 (cpy c one) 1 ∧ val (cpy c one) = 1 := by
  have hc := hC.fld.cpos
  have h2 := hp.out.two_le
  have hv : val (cpy c one) = 1 := by
    rw [val_cpy, val_one, Nat.mod_eq_of_lt (Nat.one_lt_two_pow (by omega))]
  exact ⟨⟨length_cpy _ _, by omega, by rw [hv]; simp⟩, hv⟩

theorem candidate_eq (rnd : List Byte) : candidate C c rnd = os2ip c rnd := by
  unfold candidate
  simp only
  have : (fun x => topwordModmask x (rd C.aux.modCtx ((C.plen - 1) / 4))) = id := by
    funext x
    have ht := hC.top
    unfold topwordModmask at ht ⊢
    simp only at ht ⊢
    rw [BitVec.allOnes_and] at ht
    rw [ht, BitVec.and_allOnes, id]
  rw [this]
  exact List.modify_id _ _

end

/-- The mask keeps, for every top word `m` with leading bit `k`, exactly the `k + 1` low bits. -/
theorem topwordModmask_spec (x m : W) (k : Nat) (h1 : 2 ^ k ≤ m.toNat) (h2 : m.toNat < 2 ^ (k + 1)) :
    (topwordModmask x m).toNat = x.toNat % 2 ^ (k + 1) := by
  have hk : k < 32 := by
    by_contra hc
    have := m.isLt
    have : 2 ^ 32 ≤ 2 ^ k := Nat.pow_le_pow_right (by decide) (by omega)
    omega
  have hb : m.getLsbD k = true := by
    rw [BitVec.getLsbD, Nat.testBit_eq_decide_div_mod_eq]
    have : m.toNat / 2 ^ k = 1 := by
      apply Nat.div_eq_of_lt_le
      · omega
      · rw [Nat.pow_succ] at h2; omega
    rw [this]; rfl
  have hz : ∀ j, k < j → m.getLsbD j = false := by
    intro j hj
    rw [BitVec.getLsbD]
    apply Nat.testBit_lt_two_pow
    exact lt_of_lt_of_le h2 (Nat.pow_le_pow_right (by decide) hj)
  apply Nat.eq_of_testBit_eq
  intro i
  rw [Nat.testBit_mod_two_pow, ← BitVec.getLsbD, ← BitVec.getLsbD]
  unfold topwordModmask
  simp only [BitVec.getLsbD_and, BitVec.getLsbD_or, BitVec.getLsbD_ushiftRight]
  by_cases hi : i < k + 1
  · obtain ⟨d, hd⟩ : ∃ d, k = i + d := ⟨k - i, by omega⟩
    have hd' : d < 32 := by omega
    subst hd
    rw [decide_eq_true hi, Bool.true_and]
    have : ∀ j, j = i + d → m.getLsbD j = true := fun j hj => by rw [hj]; exact hb
    have hb' : m.getLsbD (d + i) = true := by rw [Nat.add_comm]; exact hb
    clear this hb
    interval_cases d <;> simp only [← Nat.add_assoc, Nat.reduceAdd] <;> (try rw [Nat.zero_add] at hb') <;>
      simp [hb']
  · rw [decide_eq_false hi, Bool.false_and]
    have z : ∀ t, m.getLsbD (t + i) = false := fun t => hz _ (by omega)
    simp [← Nat.add_assoc, z, hz i (by omega)]

end Ecc
