import Verif.Model.Sm2
import Verif.Spec.Sm2
import Verif.Lemmas.Ecdsa

/-! The SM2 signature scheme: the scalars and points of signing and verification. -/

namespace Ecc
open Vlong Ec Spec EcParam

theorem wordsDiffer_false (a b : List W) : wordsDiffer a b = false ↔ val a = val b := by
  have key : ∀ (l : List Nat) (f : Nat → W) (w : W), l.foldl (fun w t => w ||| f t) w = (l.map f).foldl (· ||| ·) w := by
    intro l f
    induction l with
    | nil => intro w; rfl
    | cons x l ih => intro w; simp [ih]
  have h1 : wordsDiffer a b = false ↔ cpy (max a.length b.length) a = cpy (max a.length b.length) b := by
    unfold wordsDiffer
    rw [key, bne_eq_false_iff_eq, foldl_or_zero]
    unfold cpy
    rw [List.map_inj_left]
    simp only [true_and, List.mem_map, forall_exists_index, and_imp, forall_apply_eq_imp_iff₂]
    constructor
    · intro h t ht
      have := h t ht
      exact BitVec.xor_eq_zero_iff.mp this
    · intro h t ht
      exact BitVec.xor_eq_zero_iff.mpr (h t ht)
  rw [h1]
  have la := lt_of_lt_of_le (val_lt a) (Nat.pow_le_pow_right (by norm_num : 0 < 2) (Nat.mul_le_mul_left 32 (le_max_left a.length b.length)))
  have lb := lt_of_lt_of_le (val_lt b) (Nat.pow_le_pow_right (by norm_num : 0 < 2) (Nat.mul_le_mul_left 32 (le_max_right a.length b.length)))
  constructor
  · intro h
    have := congrArg val h
    rwa [val_cpy, val_cpy, Nat.mod_eq_of_lt la, Nat.mod_eq_of_lt lb] at this
  · intro h
    apply val_inj (by rw [length_cpy, length_cpy])
    rw [val_cpy, val_cpy, h]

section
variable {C : Curve} {c p : Nat} [hp : Fact p.Prime] {a b : ZMod p} (hC : EccCurve C c p a b)
include hC

theorem cast_eq_iff {u v : Nat} (hu : u < val C.n) (hv : v < val C.n) :
    (u : ZMod (val C.n)) = (v : ZMod (val C.n)) ↔ u = v := by
  rw [ZMod.natCast_eq_natCast_iff', Nat.mod_eq_of_lt hu, Nat.mod_eq_of_lt hv]

/-- The difference of two numbers reduced modulo the group order. -/
theorem subN_spec {k l : List W} (hk : val k ≤ 8 * val C.n) (hl : val l ≤ 8 * val C.n) :
    (imodInplace (subv c k l) C.n).length = c ∧ val (imodInplace (subv c k l) C.n) < val C.n ∧
    ((val (imodInplace (subv c k l) C.n) : Nat) : ZMod (val C.n)) = (val k : ZMod (val C.n)) - (val l : ZMod (val C.n)) := by
  have hn := hC.nprime.pos
  have hlen : (subv c k l).length = c := length_addKernel _ _ _ _ _
  have hroom : 32 * val C.n ≤ 2 ^ (32 * c) := le_trans (by omega) hC.nroom
  have hroomZ : (32 * val C.n : Int) ≤ 2 ^ (32 * c) := by exact_mod_cast hroom
  have hs : sval (subv c k l) = (val k : Int) - val l :=
    Ec.sval_of_modEq hC.fldN hlen (subv_modEq c k l) (by omega) (by omega)
  obtain ⟨h1, h2⟩ := imodInplace_val (subv c k l) C.n (by rw [hlen]; exact nz_c hC) (by rw [hlen]; exact hC.nlen) (by omega)
  rw [hs] at h2
  refine ⟨by rw [h1, hlen], ?_, ?_⟩
  · have := Int.emod_lt_of_pos ((val k : Int) - val l) (show (0 : Int) < val C.n by omega)
    omega
  · have : ((val (imodInplace (subv c k l) C.n) : Int) : ZMod (val C.n)) = (((val k : Int) - val l : Int) : ZMod (val C.n)) := by
      rw [h2]; simp
    rw [Int.cast_natCast] at this
    rw [this]; push_cast; rfl

/-- The sum of a coordinate and a digest. -/
theorem addE_spec {l : List W} (hl : val l ≤ p) (os : List Byte) (ho : os.length ≤ C.plen) :
    (addv c l (os2ip c os)).length = c ∧ val (addv c l (os2ip c os)) = val l + beNat os ∧ val l + beNat os ≤ 4 * val C.n := by
  obtain ⟨ev1, ev2, ev3, ev4⟩ := dig_val hC os ho
  have hp2n : p ≤ 2 * val C.n := by have h1 := hC.plt; have h2 := hC.n2; omega
  have hroom : 32 * val C.n ≤ 2 ^ (32 * c) := le_trans (by omega) hC.nroom
  have hn := hC.nprime.pos
  refine ⟨length_addKernel _ _ _ _ _, ?_, by omega⟩
  refine nat_of_modEq (length_addKernel _ _ _ _ _) ((addv_modEq _ _ _).trans (modEq_of_eq ?_)) (by omega)
  rw [ev2]; push_cast; ring

theorem redN_spec {l : List W} (hl : l.length = c) : (redN C l).length = c ∧ val (redN C l) = val l % val C.n := by
  obtain ⟨w1, w2⟩ := auxN_val (C := C) (l := l) (by rw [hl]; exact hC.nlen)
  rw [hl] at w1
  exact ⟨w1, w2⟩

/-- The verification as the code decides it: for a point with `x`-coordinate zero the code may use `p` instead. -/
theorem gmtVerify_spec (H : Pkcs1.Hash) (x : Ctx) {G Q : (shortW a b).Point} (hG : Denotes c C.G G) (hQ : Denotes2 c x.Q Q) (h0 : Q ≠ 0)
    (hr : x.r.length = c) (hs : x.s.length = c) :
    ((gmtVerify C c H x).2 = true → 1 ≤ val x.r ∧ val x.r < val C.n ∧ 1 ≤ val x.s ∧ val x.s < val C.n ∧
      (val x.r + val x.s) % val C.n ≠ 0 ∧
      ∃ X Y h v, sm2Point (val C.n) G Q (val x.r) (val x.s) = .some X Y h ∧ v ≤ p ∧ (v : ZMod p) = X ∧
        (beNat (H.digest x.hmsg (slen C H)) + v) % val C.n = val x.r) ∧
    ((1 ≤ val x.r ∧ val x.r < val C.n ∧ 1 ≤ val x.s ∧ val x.s < val C.n ∧ (val x.r + val x.s) % val C.n ≠ 0 ∧
      ∃ X Y h, sm2Point (val C.n) G Q (val x.r) (val x.s) = .some X Y h ∧ X ≠ 0 ∧
        (beNat (H.digest x.hmsg (slen C H)) + X.val) % val C.n = val x.r) → (gmtVerify C c H x).2 = true) ∧
    (gmtVerify C c H x).1.status = (if (gmtVerify C c H x).2 then 1 else -1) ∧
    (gmtVerify C c H x).1.s = x.s ∧ (gmtVerify C c H x).1.Q = x.Q ∧ (gmtVerify C c H x).1.uinfo = x.uinfo ∧
    ((gmtVerify C c H x).2 = true → (gmtVerify C c H x).1.d = x.s ∧ (gmtVerify C c H x).1.r = x.s) := by
  haveI : Fact (val C.n).Prime := ⟨hC.nprime⟩
  have hc := nz_c hC
  have hn0 := hC.nprime.pos
  have hroom : 32 * val C.n ≤ 2 ^ (32 * c) := le_trans (by omega) hC.nroom
  unfold gmtVerify
  rw [cmp0, cmp0, cmp0, cmp0, val_one]
  by_cases r2 : val x.r < val C.n
  swap
  · rw [if_pos (fun h => r2 (cmpRes_two.mp h))]
    exact ⟨by simp, fun h => absurd h.2.1 r2, by simp, rfl, rfl, rfl, by simp⟩
  rw [if_neg (by rw [not_not]; exact cmpRes_two.mpr r2)]
  by_cases s2 : val x.s < val C.n
  swap
  · rw [if_pos (fun h => s2 (cmpRes_two.mp h))]
    exact ⟨by simp, fun h => absurd h.2.2.2.1 s2, by simp, rfl, rfl, rfl, by simp⟩
  rw [if_neg (by rw [not_not]; exact cmpRes_two.mpr s2)]
  by_cases r1 : val x.r < 1
  · rw [if_pos (cmpRes_one.mpr r1)]
    exact ⟨by simp, fun h => by omega, by simp, rfl, rfl, rfl, by simp⟩
  rw [if_neg (fun h => r1 (cmpRes_one.mp h))]
  by_cases s1 : val x.s < 1
  · rw [if_pos (cmpRes_one.mpr s1)]
    exact ⟨by simp, fun h => by omega, by simp, rfl, rfl, rfl, by simp⟩
  rw [if_neg (fun h => s1 (cmpRes_one.mp h))]
  have hsum : val (addv c x.r x.s) = val x.r + val x.s :=
    nat_of_modEq (length_addKernel _ _ _ _ _) ((addv_modEq _ _ _).trans (modEq_of_eq (by push_cast; ring))) (by omega)
  obtain ⟨k1, k2⟩ := redN_spec hC (l := addv c x.r x.s) (length_addKernel _ _ _ _ _)
  rw [hsum] at k2
  have hd : cpy c x.s = x.s := cpy_self hs
  simp only [hd]
  generalize redN C (addv c x.r x.s) = k at k1 k2 ⊢
  by_cases hk0 : (val x.r + val x.s) % val C.n = 0
  · rw [if_pos (by rw [(nonzero_false _).mpr (by rw [k2, hk0])]; rfl)]
    exact ⟨by simp, fun h => absurd hk0 h.2.2.2.2.1, by simp, rfl, rfl, rfl, by simp⟩
  rw [if_neg (by rw [(nonzero_iff _).mpr (by rw [k2]; exact hk0)]; simp)]
  have ho := base_order hC hG
  have hA := scaleAccumulate_ptZ hC.ok hC.zero hC.two hC.noTwo x.s (inf_ptZ hC.ok) (denotes_iff.mp hG).two (base_ne hC ho)
  have hR := scaleAccumulate_ptZ hC.ok hC.zero hC.two hC.noTwo k hA (denotes2_iff.mp hQ) h0
  rw [zero_add, k2] at hR
  generalize hRR : scaleAccumulate C c (scaleAccumulate C c (xyzInf c) C.G x.s) x.Q k = R at hR ⊢
  have hz := ptZ_iff hR
  change PtZ c R (sm2Point (val C.n) G Q (val x.r) (val x.s)) at hR
  change val R.z = 0 ↔ sm2Point (val C.n) G Q (val x.r) (val x.s) = 0 at hz
  generalize sm2Point (val C.n) G Q (val x.r) (val x.s) = T at hR hz ⊢
  rcases T with _ | ⟨X, Y, hns⟩
  · have hzero : val R.z = 0 := hz.mpr rfl
    rw [if_pos (by rw [(nonzero_false _).mpr hzero]; rfl)]
    refine ⟨by simp, ?_, by simp, rfl, rfl, rfl, by simp⟩
    rintro ⟨-, -, -, -, -, X, Y, h, he, -⟩
    exact absurd he (by simp)
  · have hnz : val R.z ≠ 0 := fun h => absurd (hz.mp h) (WeierstrassCurve.Affine.Point.some_ne_zero _)
    rw [if_neg (by rw [(nonzero_iff _).mpr hnz]; simp)]
    have rx := affine_x hC hR.1
    generalize mulM C.aux c (invModP C c R.z) R.x 1 = ax at rx ⊢
    have hax : val ax ≤ p := by have := rx.le; omega
    obtain ⟨v1, v2, v3⟩ := addE_spec hC hax (H.digest x.hmsg (slen C H)) (by rw [digest_len]; exact slen_le C H)
    generalize addv c ax (os2ip c (H.digest x.hmsg (slen C H))) = sum at v1 v2 ⊢
    have hkn : val k < val C.n := by rw [k2]; exact Nat.mod_lt _ hn0
    obtain ⟨q1, q2, q3⟩ := subN_spec hC (k := k) (l := sum) (by omega) (by omega)
    generalize imodInplace (subv c k sum) C.n = q at q1 q2 q3 ⊢
    rw [k2, ZMod.natCast_mod, v2] at q3
    have hval : cmpvShifted x.s q 0 = 0 ↔ (beNat (H.digest x.hmsg (slen C H)) + val ax) % val C.n = val x.r := by
      rw [cmp0, cmpRes_zero, ← cast_eq_iff hC s2 q2, q3, ← cast_eq_iff hC (Nat.mod_lt _ hn0) r2, ZMod.natCast_mod]
      push_cast
      constructor
      · intro h; linear_combination h
      · intro h; linear_combination h
    by_cases he : (beNat (H.digest x.hmsg (slen C H)) + val ax) % val C.n = val x.r
    · have hqs : q = x.s := val_inj (by rw [q1, hs]) (by have := hval.mpr he; rw [cmp0, cmpRes_zero] at this; exact this.symm)
      rw [if_neg (by rw [not_not]; exact hval.mpr he)]
      exact ⟨fun _ => ⟨by omega, r2, by omega, s2, hk0, X, Y, hns, val ax, rfl, hax, rx.res, he⟩, fun _ => rfl, by simp, rfl, rfl, rfl, fun _ => ⟨rfl, hqs⟩⟩
    · rw [if_pos (fun h => he (hval.mp h))]
      refine ⟨by simp, ?_, by simp, rfl, rfl, rfl, by simp⟩
      rintro ⟨-, -, -, -, -, X', Y', h', he', hX0, hX'⟩
      obtain ⟨rfl, -⟩ := WeierstrassCurve.Affine.Point.some.inj he'
      rw [← val_of_rep rx hX0] at hX'
      exact absurd hX' he

/-- What one attempt of the signing loop computes. -/
theorem sm2Attempt_spec (H : Pkcs1.Hash) (msg : List Byte) {G : (shortW a b).Point} (hG : Denotes c C.G G) {d k : List W}
    (hd : d.length = c) (hdn : val d < val C.n) (hk : k.length = c) (hk1 : 1 ≤ val k) (hk2 : val k < val C.n) :
    ∃ X Y h v, val k • G = .some X Y h ∧ v ≤ p ∧ (v : ZMod p) = X ∧
      (∀ R r s, sm2Attempt C c H msg d k = some (R, r, s) → r.length = c ∧ s.length = c ∧
        val r = (beNat (H.digest msg (slen C H)) + v) % val C.n ∧ val r ≠ 0 ∧ val r + val k ≠ val C.n ∧
        1 ≤ val s ∧ val s < val C.n ∧ val d + 1 ≠ val C.n ∧
        (val s : ZMod (val C.n)) = (1 + (val d : ZMod (val C.n)))⁻¹ * ((val k : ZMod (val C.n)) - (val r : ZMod (val C.n)) * (val d : ZMod (val C.n)))) ∧
      (sm2Attempt C c H msg d k = none →
        (beNat (H.digest msg (slen C H)) + v) % val C.n = 0 ∨
        (beNat (H.digest msg (slen C H)) + v) % val C.n + val k = val C.n ∨ val d + 1 = val C.n ∨
        (((beNat (H.digest msg (slen C H)) + v : Nat) : ZMod (val C.n)) * (val d : ZMod (val C.n)) = (val k : ZMod (val C.n)))) := by
  haveI : Fact (val C.n).Prime := ⟨hC.nprime⟩
  have hc := nz_c hC
  have hn0 := hC.nprime.pos
  have hroom : 32 * val C.n ≤ 2 ^ (32 * c) := le_trans (by omega) hC.nroom
  have ho := base_order hC hG
  have hR := scaleAccumulate_pt hC.ok hC.two hC.noTwo k (inf_pt hC.ok) (denotes_iff.mp hG) (base_ne hC ho)
  rw [zero_add] at hR
  have hne := smul_ne hC ho hk1 hk2
  cases hT : (val k • G) with
  | zero => exact absurd hT hne
  | some X Y h =>
  rw [hT] at hR
  unfold sm2Attempt
  generalize hRR : scaleAccumulate C c (xyzInf c) C.G k = R at hR ⊢
  have rx := affine_x hC hR
  simp only
  generalize mulM C.aux c (invModP C c R.z) R.x 1 = ax at rx ⊢
  have hax : val ax ≤ p := by have := rx.le; omega
  refine ⟨X, Y, h, val ax, rfl, hax, rx.res, ?_⟩
  obtain ⟨v1, v2, v3⟩ := addE_spec hC hax (H.digest msg (slen C H)) (by rw [digest_len]; exact slen_le C H)
  generalize addv c ax (os2ip c (H.digest msg (slen C H))) = sum at v1 v2 ⊢
  obtain ⟨r1, r2⟩ := redN_spec hC v1
  rw [v2, Nat.add_comm] at r2
  generalize redN C sum = r at r1 r2 ⊢
  have hrn : val r < val C.n := by rw [r2]; exact Nat.mod_lt _ hn0
  have hd0 : d ≠ [] := by intro h; rw [h] at hd; simp at hd; omega
  -- `d + 1`
  have hd1 : val (adds c d 1 0) = val d + 1 :=
    nat_of_modEq (length_addKernel _ _ _ _ _) ((adds_modEq c d 1 0 (by decide) (by decide)).trans (modEq_of_eq (by simp))) (by omega)
  obtain ⟨s1, s2⟩ := redN_spec hC (l := adds c d 1 0) (length_addKernel _ _ _ _ _)
  rw [hd1] at s2
  have hs3 : ((val (redN C (adds c d 1 0)) : Nat) : ZMod (val C.n)) = 1 + (val d : ZMod (val C.n)) := by
    rw [s2, ZMod.natCast_mod]; push_cast; ring
  generalize redN C (adds c d 1 0) = sd at s1 s2 hs3 ⊢
  have rt := invN_rep hC (l := sd) (x := (val sd : ZMod (val C.n))) ⟨s1, by rw [s2]; have := Nat.mod_lt (val d + 1) hn0; omega, rfl⟩
  rw [hs3] at rt
  generalize invModN C c sd = t at rt ⊢
  obtain ⟨m1, m2, m3⟩ := mulN_spec hC (x := r) (y := d) (by omega) hd0
  generalize mulN C c r d = m at m1 m2 m3 ⊢
  obtain ⟨w1, w2, w3⟩ := subN_spec hC (k := k) (l := m) (by omega) (by omega)
  rw [m3] at w3
  generalize imodInplace (subv c k m) C.n = w at w1 w2 w3 ⊢
  obtain ⟨f1, f2, f3⟩ := mulN_spec hC (x := t) (y := w) (by have := rt.le; omega) (by intro h; rw [h] at w1; simp at w1; omega)
  rw [rt.res, w3] at f3
  generalize mulN C c t w = s at f1 f2 f3 ⊢
  by_cases hr0 : val r = 0
  · rw [if_pos (by rw [(nonzero_false _).mpr hr0]; rfl)]
    exact ⟨fun _ _ _ h => by simp at h, fun _ => Or.inl (by rw [← r2, hr0])⟩
  rw [if_neg (by rw [(nonzero_iff _).mpr hr0]; simp)]
  have hrk : val (addv c r k) = val r + val k :=
    nat_of_modEq (length_addKernel _ _ _ _ _) ((addv_modEq _ _ _).trans (modEq_of_eq (by push_cast; ring))) (by omega)
  by_cases hrkn : val r + val k = val C.n
  · rw [if_pos (by rw [(wordsDiffer_false _ _).mpr (by rw [hrk, hrkn])]; rfl)]
    exact ⟨fun _ _ _ h => by simp at h, fun _ => Or.inr (Or.inl (by rw [← r2, hrkn]))⟩
  rw [if_neg (by
    have : wordsDiffer (addv c r k) C.n ≠ false := fun h => hrkn (by rw [← hrk]; exact (wordsDiffer_false _ _).mp h)
    simpa using this)]
  have hz : (1 + (val d : ZMod (val C.n))) = 0 ↔ val d + 1 = val C.n := by
    rw [show (1 + (val d : ZMod (val C.n))) = ((val d + 1 : Nat) : ZMod (val C.n)) by push_cast; ring, ZMod.natCast_eq_zero_iff]
    constructor
    · intro h; have := Nat.le_of_dvd (by omega) h; omega
    · intro h; rw [h]
  by_cases hs0 : val s = 0
  · rw [if_neg (by rw [(nonzero_false _).mpr hs0]; simp)]
    refine ⟨fun _ _ _ h => by simp at h, fun _ => Or.inr (Or.inr ?_)⟩
    rw [hs0, Nat.cast_zero] at f3
    rcases mul_eq_zero.mp f3.symm with h | h
    · exact Or.inl (hz.mp (inv_eq_zero.mp h))
    · right
      rw [r2, ZMod.natCast_mod] at h
      linear_combination -h
  · rw [if_pos ((nonzero_iff _).mpr hs0)]
    refine ⟨?_, fun h => by simp at h⟩
    intro R' r' s' he
    simp only [Option.some.injEq, Prod.mk.injEq] at he
    obtain ⟨-, rfl, rfl⟩ := he
    refine ⟨r1, f1, r2, hr0, hrkn, by omega, f2, ?_, f3⟩
    intro h
    rw [hz.mpr h, inv_zero, zero_mul, ZMod.natCast_eq_zero_iff] at f3
    exact absurd (Nat.le_of_dvd (by omega) f3) (by omega)

end

end Ecc
