import Verif.Model.Rsa
import Verif.Spec.Rsa
import Verif.Lemmas.Egcd
import Mathlib.FieldTheory.Finite.Basic

/-! # RSA: lemmas -/

namespace Rsa
open Vlong Spec NumTheory

theorem accRow_eq (R : List W) (ha : W) (a k b : Nat) (M : List W) (ax : BitVec 64)
    (hk : k + b = R.length) (hM : M.length ≤ a + R.length) :
    accRow R ha a k b M ax = M.take (a + b) ++ mulsLoop R ha true (M.drop (a + b)) b ax := by
  induction k generalizing b M ax with
  | zero =>
    rw [accRow, List.drop_of_length_le (by omega), mulsLoop, List.append_nil,
      List.take_of_length_le (by omega)]
  | succ k ih =>
    rw [accRow]
    simp only
    split
    · rename_i h
      rw [List.drop_of_length_le (by omega), mulsLoop, List.append_nil, List.take_of_length_le (by omega)]
    · rename_i h
      have hlt : a + b < M.length := by omega
      rw [ih (b + 1) _ _ (by omega) (by simpa using hM)]
      have hd : M.drop (a + b) = M[a + b] :: M.drop (a + b + 1) := List.drop_eq_getElem_cons hlt
      have hr : rd M (a + b) = M[a + b] := by
        unfold rd; rw [List.getD_eq_getElem?_getD, List.getElem?_eq_getElem hlt]; rfl
      rw [hd, mulsLoop, if_pos (by omega : b < R.length)]
      simp only [if_true]
      rw [hr]
      have e1 : a + (b + 1) = a + b + 1 := by omega
      rw [e1, List.drop_set_of_lt (by omega), List.take_set, List.take_succ_eq_append_getElem hlt,
        List.set_append_right _ _ (by simp), List.append_assoc]
      simp [Nat.min_eq_left hlt.le]

theorem val_append (a b : List W) : val (a ++ b) = val a + 2 ^ (32 * a.length) * val b := by
  induction a with
  | nil => simp [val]
  | cons w a ih =>
    rw [List.cons_append, val, val, ih, List.length_cons,
      show 32 * (a.length + 1) = 32 + 32 * a.length by ring, Nat.pow_add]
    ring

theorem accRow_val (R : List W) (ha : W) (a : Nat) (M : List W) (hR : R.length = M.length) :
    (accRow R ha a R.length 0 M 0).length = M.length ∧
    val (accRow R ha a R.length 0 M 0) =
      (val M + 2 ^ (32 * a) * (val R * ha.toNat)) % 2 ^ (32 * M.length) := by
  rw [accRow_eq R ha a R.length 0 M 0 (by omega) (by omega), Nat.add_zero]
  have hl : (M.take a ++ mulsLoop R ha true (M.drop a) 0 0).length = M.length := by
    rw [List.length_append, length_mulsLoop, ← List.length_append, List.take_append_drop]
  refine ⟨hl, ?_⟩
  by_cases h : a ≤ M.length
  · have hm := val_muls (M.drop a) R ha true
    unfold muls at hm
    rw [val_append, hm]
    simp only [if_true]
    have hM := val_append (M.take a) (M.drop a)
    rw [List.take_append_drop] at hM
    have hta : (M.take a).length = a := by simp [h]
    have hda : (M.drop a).length = M.length - a := by simp
    rw [hta] at hM ⊢
    rw [hda]
    have ht := val_lt (M.take a)
    rw [hta] at ht
    have hP : 2 ^ (32 * M.length) = 2 ^ (32 * a) * 2 ^ (32 * (M.length - a)) := by
      rw [← Nat.pow_add]; congr 1; omega
    rw [hM, hP]
    obtain ⟨P, hPe⟩ : ∃ P, P = 2 ^ (32 * a) := ⟨_, rfl⟩
    obtain ⟨Q, hQe⟩ : ∃ Q, Q = 2 ^ (32 * (M.length - a)) := ⟨_, rfl⟩
    rw [← hPe] at ht ⊢
    rw [← hQe]
    rw [show val (M.take a) + P * val (M.drop a) + P * (val R * ha.toNat) =
      val (M.take a) + P * (val R * ha.toNat + val (M.drop a)) by ring]
    rw [Nat.mod_mul, Nat.add_mul_mod_self_left, Nat.mod_eq_of_lt ht,
      Nat.add_mul_div_left _ _ (by omega), Nat.div_eq_of_lt ht, Nat.zero_add]
  · rw [List.drop_of_length_le (by omega), mulsLoop, List.append_nil, List.take_of_length_le (by omega)]
    have hd : 2 ^ (32 * M.length) ∣ 2 ^ (32 * a) * (val R * ha.toNat) :=
      Dvd.dvd.mul_right (Nat.pow_dvd_pow 2 (by omega)) _
    rw [Nat.add_mod, Nat.mod_eq_zero_of_dvd hd, Nat.add_zero, Nat.mod_mod, Nat.mod_eq_of_lt (val_lt M)]

theorem mulAcc_val (R h : List W) (k a : Nat) (M : List W) (hR : R.length = M.length)
    (hk : k + a = h.length) :
    (mulAcc R h k a M).length = M.length ∧
    val (mulAcc R h k a M) ≡ val M + val R * (2 ^ (32 * a) * (val h / 2 ^ (32 * a)))
      [MOD 2 ^ (32 * M.length)] := by
  induction k generalizing a M with
  | zero =>
    simp only [mulAcc]
    refine ⟨by simp, ?_⟩
    rw [Nat.div_eq_of_lt (by
      have := val_lt h
      rwa [show h.length = a by omega] at this)]
    simp; rfl
  | succ k ih =>
    simp only [mulAcc]
    obtain ⟨l1, v1⟩ := accRow_val R (rd h a) a M hR
    obtain ⟨l2, v2⟩ := ih (a + 1) (accRow R (rd h a) a R.length 0 M 0) (by omega) (by omega)
    rw [l1] at v2
    refine ⟨by omega, v2.trans ?_⟩
    have e : (rd h a).toNat = val h / 2 ^ (32 * a) % 2 ^ 32 := by
      rw [rd_eq_ofNat, BitVec.toNat_ofNat, Nat.shiftRight_eq_div_pow]
    have hm : val (accRow R (rd h a) a R.length 0 M 0) ≡
        val M + 2 ^ (32 * a) * (val R * (rd h a).toNat) [MOD 2 ^ (32 * M.length)] := by
      rw [v1]; exact Nat.mod_modEq _ _
    refine (hm.add_right _).trans ?_
    have hp : (2:Nat) ^ (32 * (a + 1)) = 2 ^ (32 * a) * 2 ^ 32 := by rw [← Nat.pow_add]; congr 1
    have hd : val h / 2 ^ (32 * a) = 2 ^ 32 * (val h / 2 ^ (32 * (a + 1))) + (rd h a).toNat := by
      rw [hp, ← Nat.div_div_eq_div_mul, e]
      exact (Nat.div_add_mod _ _).symm
    rw [hd, hp]
    have : val M + 2 ^ (32 * a) * (val R * (rd h a).toNat) +
        val R * (2 ^ (32 * a) * 2 ^ 32 * (val h / (2 ^ (32 * a) * 2 ^ 32))) =
      val M + val R * (2 ^ (32 * a) * (2 ^ 32 * (val h / (2 ^ (32 * a) * 2 ^ 32)) + (rd h a).toNat)) := by ring
    rw [this]

theorem reduces_modBy (m : List W) (c : Nat) (h : m.length ≤ c) (hm : val m ≠ 0) :
    Reduces (modBy m) c (val m) (val m) := by
  intro l hl
  obtain ⟨r, h1, h2, h3⟩ := remvInplace_val l m (by omega)
  exact ⟨r, h1, by omega, by rw [h3]; exact Nat.mod_modEq _ _, by rw [h3]; exact Nat.mod_lt _ (by omega)⟩

theorem enc_val (c : Nat) (n e M : List W) (he : e ≠ []) (hn : n.length ≤ c)
    (hroom : val n * 2 ^ 32 ≤ 2 ^ (32 * c)) (hM : val M < val n) :
    ∃ C, enc c n e M = some C ∧ C.length = c ∧ val C = val M ^ val e % val n := by
  obtain ⟨o, h1, h2, h3, h4⟩ := modexpv_val c M e (modBy n) (val n) (val n)
    (reduces_modBy n c hn (by omega)) (by omega) hroom he hM
  refine ⟨o, h1, h2, ?_⟩
  rw [← h4, Nat.mod_eq_of_lt h3]

/-- The sizes `rsa_fastdec` needs for one prime. -/
structure Sized (cf : Nat) (x : Triple) : Prop where
  rl : x.r.length ≤ cf
  room : val x.r * 2 ^ 32 ≤ 2 ^ (32 * cf)
  dne : x.d ≠ []
  tne : x.t ≠ []

theorem two_mul_le_of_room {v P : Nat} (h : v * 2 ^ 32 ≤ P) : 2 * v ≤ P := by omega

theorem rem_val (cf : Nat) (a b : List W) (hb : b.length ≤ cf) (h0 : val b ≠ 0)
    (hroom : val b * 2 ^ 32 ≤ 2 ^ (32 * cf)) :
    ∃ r, rem cf a b = some r ∧ r.length = cf ∧ val r = val a % val b := by
  obtain ⟨r, q, h, lr, -, vr, -⟩ := divv_val cf a.length a b (le_refl _) hb h0
    (Or.inl (two_mul_le_of_room hroom))
  exact ⟨r, by unfold rem; rw [h]; rfl, lr, vr⟩

/-- `(x mod r) ^ d mod r`, the first two lines of the loop body. -/
theorem powmod_val (cf : Nat) (C r d : List W) (hr : r.length ≤ cf) (h0 : val r ≠ 0)
    (hroom : val r * 2 ^ 32 ≤ 2 ^ (32 * cf)) (hd : d ≠ []) :
    ∃ h o, rem cf C r = some h ∧ modexpv cf h d (some (modBy r)) = some o ∧ o.length = cf ∧
      val o = val C ^ val d % val r := by
  obtain ⟨h, e1, l1, v1⟩ := rem_val cf C r hr h0 hroom
  obtain ⟨o, h1, h2, h3, h4⟩ := modexpv_val cf h d (modBy r) (val r) (val r)
    (reduces_modBy r cf hr h0) (by omega) hroom hd (by rw [v1]; exact Nat.mod_lt _ (by omega))
  refine ⟨h, o, e1, h1, h2, ?_⟩
  have h5 : val o ≡ val C ^ val d [MOD val r] := by
    refine h4.trans ?_
    rw [v1]
    exact (Nat.mod_modEq _ _).pow _
  rw [← h5, Nat.mod_eq_of_lt h3]

theorem step_val (cf vm : Nat) (C : List W) (x : Triple) (M R : List W) (hs : Sized cf x)
    (hr1 : 1 < val x.r) (hRM : R.length = M.length) (hMR : val M < val R)
    (hvm : val R * val x.r ≤ 2 ^ (32 * vm)) (hcm : val R * val x.r ≤ 2 ^ (32 * M.length))
    (hinv : val R * val x.t % val x.r = 1) :
    ∃ M' R', step cf vm C x M R = some (M', R') ∧ M'.length = M.length ∧ R'.length = R.length ∧
      val M' < val R * val x.r ∧
      val M' ≡ val M [MOD val R] ∧ val M' ≡ val C ^ val x.d [MOD val x.r] ∧
      (val R * val x.r < 2 ^ (32 * vm) → val R * val x.r < 2 ^ (32 * R.length) →
        val R' = val R * val x.r) := by
  obtain ⟨hrl, hroom, hd, ht⟩ := hs
  obtain ⟨h0, h, e0, e1, lh, vh⟩ := powmod_val cf C x.r x.d hrl (by omega) hroom hd
  obtain ⟨m, e2, lm, vm'⟩ := rem_val cf M x.r hrl (by omega) hroom
  have hcf : 0 < cf := by
    rcases Nat.eq_zero_or_pos cf with hz | hz
    · subst hz; simp at hroom; omega
    · exact hz
  set s := subv cf h m with hsdef
  have ls : s.length = cf := length_addKernel _ _ _ _ _
  have hsv : sval s = (val h : Int) - val m := by
    apply sval_of_modEq
    · rw [ls]; exact subv_modEq cf h m
    · rw [ls]
      have a1 : (val h : Int) < val x.r := by
        rw [vh]; exact_mod_cast Nat.mod_lt _ (by omega)
      have a2 : (val m : Int) < val x.r := by
        rw [vm']; exact_mod_cast Nat.mod_lt _ (by omega)
      have a3 : (2 : Int) * val x.r ≤ 2 ^ (32 * cf) := by
        exact_mod_cast two_mul_le_of_room hroom
      have : |(val h : Int) - val m| < val x.r := by
        rw [abs_lt]; constructor <;> linarith [Int.natCast_nonneg (val h), Int.natCast_nonneg (val m)]
      linarith
  obtain ⟨li, vi⟩ := imodInplace_val s x.r (by omega) (by omega) (by omega)
  rw [hsv] at vi
  set m2 := imodInplace s x.r with hm2
  have hm2lt : val m2 < val x.r := by
    have := Int.emod_lt_of_pos ((val h : Int) - val m) (by exact_mod_cast (by omega : 0 < val x.r) : (0:Int) < val x.r)
    rw [← vi] at this; exact_mod_cast this
  obtain ⟨g, e3, lg, bg, vg⟩ := mulvMasked_some cf m2 x.t 1 (modBy x.r) (val x.r) (val x.r)
    (reduces_modBy x.r cf hrl (by omega)) (by omega) (Vlong.room hm2lt hroom) hroom (Or.inr rfl) ht
  simp only [factor, if_true] at vg
  have hrne : x.r ≠ [] := by intro hh; rw [hh] at hr1; simp [val] at hr1
  obtain ⟨t, e4, lt, vt⟩ := mulvMasked_none vm R x.r 1 (Or.inr rfl) hrne
  simp only [factor, if_true] at vt
  obtain ⟨lM, vM⟩ := mulAcc_val R g g.length 0 M hRM (by omega)
  simp only [Nat.mul_zero, Nat.pow_zero, Nat.div_one, Nat.one_mul] at vM
  have hMle : val M + val R * val g < val R * val x.r := by
    have : val R * (val g + 1) ≤ val R * val x.r := Nat.mul_le_mul_left _ (by omega)
    rw [Nat.mul_add, Nat.mul_one] at this
    omega
  have vM' : val (mulAcc R g g.length 0 M) = val M + val R * val g := by
    have h1 := val_lt (mulAcc R g g.length 0 M)
    rw [lM] at h1
    unfold Nat.ModEq at vM
    rwa [Nat.mod_eq_of_lt h1, Nat.mod_eq_of_lt (by omega)] at vM
  refine ⟨mulAcc R g g.length 0 M, cpy R.length t, ?_, lM, length_cpy _ _, ?_, ?_, ?_, ?_⟩
  · unfold step
    rw [e0]
    simp only [Option.bind_eq_bind, Option.bind_some]
    rw [e1]
    simp only [Option.bind_some]
    rw [e2]
    simp only [Option.bind_some]
    rw [← hsdef, ← hm2, e3]
    simp only [Option.bind_some]
    rw [e4]
    rfl
  · rw [vM']; exact hMle
  · rw [vM']
    unfold Nat.ModEq
    rw [Nat.add_mul_mod_self_left]
  · -- modulo r: M + R * ((h - M) * t) = h
    rw [vM']
    have hz : ((val M + val R * val g : Nat) : Int) ≡ ((val C ^ val x.d : Nat) : Int) [ZMOD (val x.r : Nat)] := by
      have g1 : ((val g : Nat) : Int) ≡ (val m2 : Int) * val x.t [ZMOD val x.r] := by
        have := (Int.natCast_modEq_iff).mpr vg
        exact_mod_cast this
      have g2 : (val m2 : Int) ≡ (val h : Int) - val m [ZMOD val x.r] := by
        rw [vi]; exact Int.mod_modEq _ _
      have g3 : (val m : Int) ≡ val M [ZMOD val x.r] := by
        rw [vm']; exact (Int.natCast_modEq_iff).mpr (Nat.mod_modEq _ _)
      have g4 : (val h : Int) ≡ ((val C ^ val x.d : Nat) : Int) [ZMOD val x.r] := by
        rw [vh]; exact (Int.natCast_modEq_iff).mpr (Nat.mod_modEq _ _)
      have g5 : (val R : Int) * val x.t ≡ 1 [ZMOD val x.r] := by
        have : val R * val x.t ≡ 1 [MOD val x.r] := by
          unfold Nat.ModEq; rw [hinv, Nat.mod_eq_of_lt hr1]
        have := (Int.natCast_modEq_iff).mpr this
        exact_mod_cast this
      push_cast
      have k1 : (val R : Int) * val g ≡ (val R : Int) * (((val h : Int) - val m) * val x.t) [ZMOD val x.r] :=
        (g1.trans (g2.mul_right _)).mul_left _
      have k2 : (val R : Int) * (((val h : Int) - val m) * val x.t) ≡ (val h : Int) - val m [ZMOD val x.r] := by
        have := g5.mul_right ((val h : Int) - val m)
        refine (modEq_of_eq (by ring)).trans (this.trans (modEq_of_eq (by ring)))
      have k3 := (k1.trans k2).add_left (val M : Int)
      refine k3.trans ?_
      have k4 := (g4.sub g3).add_left (val M : Int)
      refine k4.trans (modEq_of_eq (by push_cast; ring))
    exact (Int.natCast_modEq_iff).mp hz
  · intro a1 a2
    rw [val_cpy, vt, Nat.mod_eq_of_lt a1, Nat.mod_eq_of_lt a2]

/-- The numbers of a triple. -/
def Triple.nums (x : Triple) : Nat × Nat × Nat := (val x.r, val x.d, val x.t)

theorem chainProduct_ge (e R : Nat) (l : List (Nat × Nat × Nat)) (h : ValidChain e R l) :
    R ≤ chainProduct R l := by
  induction l generalizing R with
  | nil => exact le_refl _
  | cons x l ih =>
    obtain ⟨r, d, t⟩ := x
    obtain ⟨h1, -, -, h4⟩ := h
    have := ih (R * r) h4
    have h2 : R * 1 ≤ R * r := Nat.mul_le_mul_left _ h1.one_lt.le
    simp only [chainProduct]
    omega

theorem steps_val (cf vm : Nat) (C : List W) (e m : Nat) (l : List Triple) (M R : List W)
    (hs : ∀ x ∈ l, Sized cf x) (hv : ValidChain e (val R) (l.map Triple.nums))
    (hagree : ∀ x ∈ l, m ≡ val C ^ val x.d [MOD val x.r])
    (hRM : R.length = M.length) (hMR : val M < val R) (hm : val M ≡ m [MOD val R])
    (hvm : chainProduct (val R) (l.map Triple.nums) < 2 ^ (32 * vm))
    (hcm : chainProduct (val R) (l.map Triple.nums) < 2 ^ (32 * M.length)) :
    ∃ o, steps cf vm C l M R = some o ∧ o.length = M.length ∧
      val o < chainProduct (val R) (l.map Triple.nums) ∧
      val o ≡ m [MOD chainProduct (val R) (l.map Triple.nums)] := by
  induction l generalizing M R with
  | nil => exact ⟨M, rfl, rfl, hMR, hm⟩
  | cons x l ih =>
    simp only [List.map_cons, Triple.nums, ValidChain, chainProduct] at hv hvm hcm ⊢
    obtain ⟨p1, p2, p3, p4⟩ := hv
    have hge := chainProduct_ge _ _ _ p4
    obtain ⟨M', R', a1, a2, a3, a4, a5, a6, a7⟩ := step_val cf vm C x M R (hs x (by simp)) p1.one_lt hRM hMR
      (by omega) (by omega) p3
    have vR := a7 (by omega) (by rw [hRM]; omega)
    have hcop : Nat.Coprime (val R) (val x.r) := by
      rw [Nat.coprime_comm, p1.coprime_iff_not_dvd]
      intro hd
      have : val R * val x.t % val x.r = 0 := Nat.mod_eq_zero_of_dvd (Dvd.dvd.mul_right hd _)
      omega
    have hm' : val M' ≡ m [MOD val R * val x.r] :=
      (Nat.modEq_and_modEq_iff_modEq_mul hcop).mp
        ⟨a5.trans hm, a6.trans (hagree x (by simp)).symm⟩
    rw [steps, a1]
    simp only
    obtain ⟨o, b1, b2, b3, b4⟩ := ih M' R' (fun y hy => hs y (by simp [hy])) (by rw [vR]; exact p4)
      (fun y hy => hagree y (by simp [hy])) (by omega) (by rw [vR]; exact a4) (by rw [vR]; exact hm')
      (by rw [vR]; exact hvm) (by rw [vR, a2]; exact hcm)
    rw [vR] at b3 b4
    exact ⟨o, b1, by omega, b3, b4⟩

theorem fastdec_val (cf vm cm : Nat) (C q dQ : List W) (e m : Nat) (l : List Triple)
    (hql : q.length ≤ cf) (hqroom : val q * 2 ^ 32 ≤ 2 ^ (32 * cf)) (hq : (val q).Prime) (hdq : dQ ≠ [])
    (hs : ∀ x ∈ l, Sized cf x) (hv : ValidChain e (val q) (l.map Triple.nums))
    (hagreeq : m ≡ val C ^ val dQ [MOD val q])
    (hagree : ∀ x ∈ l, m ≡ val C ^ val x.d [MOD val x.r])
    (hvm : chainProduct (val q) (l.map Triple.nums) < 2 ^ (32 * vm))
    (hcm : chainProduct (val q) (l.map Triple.nums) < 2 ^ (32 * cm)) :
    ∃ o, fastdec cf vm cm q dQ l C = some o ∧ o.length = cm ∧
      val o < chainProduct (val q) (l.map Triple.nums) ∧
      val o ≡ m [MOD chainProduct (val q) (l.map Triple.nums)] := by
  have hq0 := hq.pos
  obtain ⟨h0, h, e0, e1, lh, vh⟩ := powmod_val cf C q dQ hql (by omega) hqroom hdq
  have hge := chainProduct_ge _ _ _ hv
  have vq : val (cpy cm q) = val q := by rw [val_cpy, Nat.mod_eq_of_lt (by omega)]
  have vhlt : val h < val q := by rw [vh]; exact Nat.mod_lt _ hq0
  have vh2 : val (cpy cm h) = val h := by rw [val_cpy, Nat.mod_eq_of_lt (by omega)]
  obtain ⟨o, b1, b2, b3, b4⟩ := steps_val cf vm C e m l (cpy cm h) (cpy cm q) hs (by rw [vq]; exact hv)
    hagree (by rw [length_cpy, length_cpy]) (by rw [vq, vh2]; exact vhlt)
    (by rw [vq, vh2, vh]; exact (Nat.mod_modEq _ _).trans hagreeq.symm) (by rw [vq]; exact hvm)
    (by rw [vq, length_cpy]; exact hcm)
  rw [vq] at b3 b4
  rw [length_cpy] at b2
  refine ⟨o, ?_, b2, b3, b4⟩
  unfold fastdec
  rw [e0]
  simp only [Option.bind_eq_bind, Option.bind_some]
  rw [e1]
  simp only [Option.bind_some]
  exact b1

/-- Fermat: exponentiation by `e` and then by its CRT exponent is the identity modulo a prime. -/
theorem fermat_exp (m e d r : Nat) (hr : r.Prime) (h : ExponentFor e r d) : m ^ (e * d) ≡ m [MOD r] := by
  obtain ⟨k, hk⟩ := h
  haveI : Fact r.Prime := ⟨hr⟩
  rw [hk]
  apply (ZMod.natCast_eq_natCast_iff _ _ _).mp
  push_cast
  by_cases hz : (m : ZMod r) = 0
  · rw [hz, zero_pow (by omega)]
  · rw [pow_add, pow_one, Nat.mul_comm k, pow_mul, ZMod.pow_card_sub_one_eq_one hz, one_pow, mul_one]

theorem validChain_mem (e R : Nat) (l : List (Nat × Nat × Nat)) (h : ValidChain e R l) :
    ∀ x ∈ l, x.1.Prime ∧ ExponentFor e x.1 x.2.1 ∧ x.1 ∣ chainProduct R l ∧ R ∣ chainProduct R l := by
  induction l generalizing R with
  | nil => simp
  | cons x l ih =>
    obtain ⟨r, d, t⟩ := x
    obtain ⟨h1, h2, h3, h4⟩ := h
    have hdiv : ∀ (l : List (Nat × Nat × Nat)) R, R ∣ chainProduct R l := by
      intro l
      induction l with
      | nil => intro R; exact dvd_refl _
      | cons y l ih => intro R; exact (Dvd.intro _ rfl).trans (ih (R * y.1))
    intro y hy
    rcases List.mem_cons.mp hy with rfl | hy
    · exact ⟨h1, h2, (Dvd.intro_left R rfl).trans (hdiv l (R * r)), (Dvd.intro r rfl).trans (hdiv l (R * r))⟩
    · obtain ⟨a, b, c, d⟩ := ih (R * r) h4 y hy
      exact ⟨a, b, c, (Dvd.intro r rfl).trans d⟩

theorem dvd_chainProduct (R : Nat) (l : List (Nat × Nat × Nat)) : R ∣ chainProduct R l := by
  induction l generalizing R with
  | nil => exact dvd_refl _
  | cons y l ih => exact (Dvd.intro _ rfl).trans (ih (R * y.1))

/-- Congruence modulo every prime of the chain is congruence modulo the product. -/
theorem chain_modEq (e R : Nat) (l : List (Nat × Nat × Nat)) (h : ValidChain e R l) (a b : Nat)
    (hR : a ≡ b [MOD R]) (hl : ∀ x ∈ l, a ≡ b [MOD x.1]) : a ≡ b [MOD chainProduct R l] := by
  induction l generalizing R with
  | nil => exact hR
  | cons x l ih =>
    obtain ⟨r, d, t⟩ := x
    obtain ⟨h1, h2, h3, h4⟩ := h
    have hcop : Nat.Coprime R r := by
      rw [Nat.coprime_comm, h1.coprime_iff_not_dvd]
      intro hd
      have : R * t % r = 0 := Nat.mod_eq_zero_of_dvd (Dvd.dvd.mul_right hd _)
      omega
    exact ih (R * r) h4 ((Nat.modEq_and_modEq_iff_modEq_mul hcop).mp ⟨hR, hl (r, d, t) (by simp)⟩)
      (fun y hy => hl y (by simp [hy]))

theorem crt_exists (e C : Nat) (R : Nat) (l : List (Nat × Nat × Nat)) (h : ValidChain e R l) (a : Nat) :
    ∃ m, m ≡ a [MOD R] ∧ ∀ x ∈ l, m ≡ C ^ x.2.1 [MOD x.1] := by
  induction l generalizing R a with
  | nil => exact ⟨a, rfl, by simp⟩
  | cons x l ih =>
    obtain ⟨r, d, t⟩ := x
    obtain ⟨h1, h2, h3, h4⟩ := h
    have hcop : Nat.Coprime R r := by
      rw [Nat.coprime_comm, h1.coprime_iff_not_dvd]
      intro hd
      have : R * t % r = 0 := Nat.mod_eq_zero_of_dvd (Dvd.dvd.mul_right hd _)
      omega
    obtain ⟨c, hc1, hc2⟩ := Nat.chineseRemainder hcop a (C ^ d)
    obtain ⟨m, m1, m2⟩ := ih (R * r) h4 c
    have k := (Nat.modEq_and_modEq_iff_modEq_mul hcop).mpr m1
    refine ⟨m, k.1.trans hc1, ?_⟩
    intro y hy
    rcases List.mem_cons.mp hy with rfl | hy
    · exact k.2.trans hc2
    · exact m2 y hy

end Rsa
