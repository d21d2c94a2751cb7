import Verif.Lemmas.VlongCmp

/-! Helper lemmas: multiplication, exponentiation, signed reduction, octet strings. -/

namespace Vlong
open Spec

theorem val_inj {l m : List W} (hl : l.length = m.length) (h : val l = val m) : l = m := by
  apply List.ext_getElem hl
  intro i h1 h2
  have := rd_eq_ofNat l i
  rw [h, ← rd_eq_ofNat] at this
  simpa [rd, h1, h2] using this

theorem val_muls (out a : List W) (b : W) (acc : Bool) :
    val (muls out a b acc) = (val a * b.toNat + (if acc then val out else 0)) % 2 ^ (32 * out.length) := by
  have h := val_of_modEq (l := muls out a b acc) (n := out.length)
    (by unfold muls; exact length_mulsLoop _ _ _ _ _ _) (muls_modEq out a b acc)
  exact_mod_cast h

theorem length_muls (out a : List W) (b : W) (acc : Bool) : (muls out a b acc).length = out.length :=
  length_mulsLoop _ _ _ _ _ _

/-- The digit of the multiplier actually used at position `i`. -/
def bdig (b : List W) (bmask : W) (i : Nat) : W :=
  ((if i ≠ 0 then (0 : W) else 1) &&& ~~~bmask) ||| (rd b i &&& bmask)

/-- The value of the words of the effective multiplier at positions `0..i-1`. -/
def blow (b : List W) (bmask : W) : Nat → Nat
  | 0 => 0
  | i + 1 => blow b bmask i + (bdig b bmask i).toNat * 2 ^ (32 * i)

theorem bdig_one (b : List W) (i : Nat) : bdig b (0 - 1) i = rd b i := by
  unfold bdig
  have : (0 - 1 : W) = BitVec.allOnes 32 := by decide
  rw [this, BitVec.and_allOnes]
  simp

theorem bdig_zero (b : List W) (i : Nat) : bdig b (0 - 0) i = if i ≠ 0 then 0 else 1 := by
  unfold bdig
  split <;> simp

theorem blow_one (b : List W) (i : Nat) : blow b (0 - 1) i = val b % 2 ^ (32 * i) := by
  induction i with
  | zero => simp [blow, Nat.mod_one]
  | succ i ih =>
    rw [blow, ih, bdig_one, rd_eq_ofNat, BitVec.toNat_ofNat, Nat.shiftRight_eq_div_pow]
    have e : (2:Nat) ^ (32 * (i + 1)) = 2 ^ (32 * i) * 2 ^ 32 := by
      rw [← Nat.pow_add]; congr 1
    rw [e, Nat.mod_mul, Nat.mul_comm (2 ^ (32 * i))]

theorem blow_zero (b : List W) (i : Nat) (h : 0 < i) : blow b (0 - 0) i = 1 := by
  induction i with
  | zero => omega
  | succ i ih =>
    rw [blow, bdig_zero]
    by_cases h0 : i = 0
    · subst h0; simp [blow]
    · rw [ih (by omega), if_pos h0]; simp

/-- Plain multiplication. -/
theorem mulvLoop_none (a b : List W) (bmask : W) (i : Nat) (out : List W) :
    ∃ o, mulvLoop a b bmask none i out = some o ∧ o.length = out.length ∧
      val o ≡ (if i = 0 then val out else val out * 2 ^ (32 * (i - 1))) + val a * blow b bmask i
        [MOD 2 ^ (32 * out.length)] := by
  induction i generalizing out with
  | zero => exact ⟨out, by simp [mulvLoop], rfl, by simp [blow]; exact Nat.ModEq.refl _⟩
  | succ i ih =>
    simp only [mulvLoop, Option.bind_eq_bind, Option.bind_some]
    change ∃ o, (if i ≠ 0 then mulvLoop a b bmask none i (mulx (muls out a (bdig b bmask i) true).length
        (muls out a (bdig b bmask i) true)) else mulvLoop a b bmask none i
        (muls out a (bdig b bmask i) true)) = some o ∧ _
    set m := muls out a (bdig b bmask i) true with hm
    have hml : m.length = out.length := length_muls _ _ _ _
    have hmv : val m ≡ val a * (bdig b bmask i).toNat + val out [MOD 2 ^ (32 * out.length)] := by
      rw [hm, val_muls]; simp only [if_true]; exact Nat.mod_modEq _ _
    by_cases h0 : i = 0
    · subst h0
      refine ⟨m, by simp [mulvLoop], hml, ?_⟩
      simp only [Nat.add_eq_zero_iff, Nat.reduceAdd, blow]
      rw [if_neg (by omega)]
      refine hmv.trans ?_
      have : val a * (bdig b bmask 0).toNat + val out =
        val out * 2 ^ (32 * (0 + 1 - 1)) + val a * (0 + (bdig b bmask 0).toNat * 2 ^ (32 * 0)) := by
        simp; ring
      rw [this]
    · simp only [ne_eq, h0, not_false_eq_true, if_true]
      obtain ⟨o, ho, hl, hv⟩ := ih (mulx m.length m)
      rw [length_mulx, hml] at hl hv
      refine ⟨o, by rw [← hml] at *; exact ho, hl, ?_⟩
      rw [val_mulx, if_neg h0] at hv
      try rw [hml] at hv
      rw [if_neg (by omega)]
      refine hv.trans ?_
      have e1 : 2 ^ 32 * val m % 2 ^ (32 * out.length) ≡
          2 ^ 32 * (val a * (bdig b bmask i).toNat + val out) [MOD 2 ^ (32 * out.length)] :=
        (Nat.mod_modEq _ _).trans (Nat.ModEq.mul_left _ hmv)
      refine (Nat.ModEq.add_right _ (Nat.ModEq.mul_right _ e1)).trans ?_
      have e2 : 32 * (i + 1 - 1) = 32 + 32 * (i - 1) := by omega
      have e3 : 32 * i = 32 + 32 * (i - 1) := by omega
      rw [blow, e2, e3, Nat.pow_add]
      have : 2 ^ 32 * (val a * (bdig b bmask i).toNat + val out) * 2 ^ (32 * (i - 1)) + val a * blow b bmask i
        = val out * (2 ^ 32 * 2 ^ (32 * (i - 1))) +
          val a * (blow b bmask i + (bdig b bmask i).toNat * (2 ^ 32 * 2 ^ (32 * (i - 1)))) := by ring
      rw [this]

/-- `f` reduces `c`-word numbers modulo `m`, to values below `M`. -/
def Reduces (f : ModFunc) (c m M : Nat) : Prop :=
  ∀ l : List W, l.length = c → ∃ l', f l = some l' ∧ l'.length = c ∧ val l' ≡ val l [MOD m] ∧ val l' < M

theorem mulvLoop_some (a b : List W) (bmask : W) (f : ModFunc) (c m M : Nat)
    (hf : Reduces f c m M)
    (h1 : val a * (2 ^ 32 - 1) + M ≤ 2 ^ (32 * c)) (h2 : M * 2 ^ 32 ≤ 2 ^ (32 * c)) (i : Nat) (out : List W)
    (hl : out.length = c) (hlt : val out < M) :
    ∃ o, mulvLoop a b bmask (some f) i out = some o ∧ o.length = c ∧ val o < M ∧
      val o ≡ (if i = 0 then val out else val out * 2 ^ (32 * (i - 1))) + val a * blow b bmask i
        [MOD m] := by
  induction i generalizing out with
  | zero => exact ⟨out, by simp [mulvLoop], hl, hlt, by simp [blow]; exact Nat.ModEq.refl _⟩
  | succ i ih =>
    simp only [mulvLoop, Option.bind_eq_bind]
    change ∃ o, ((f (muls out a (bdig b bmask i) true)).bind fun out =>
        if i ≠ 0 then (f (mulx out.length out)).bind fun out => mulvLoop a b bmask (some f) i out
        else (some out).bind fun out => mulvLoop a b bmask (some f) i out) = some o ∧ _
    set p := muls out a (bdig b bmask i) true with hp
    have hpl : p.length = c := by rw [hp, length_muls, hl]
    have hpv : val p = val a * (bdig b bmask i).toNat + val out := by
      rw [hp, val_muls, if_pos rfl, hl, Nat.mod_eq_of_lt]
      have := (bdig b bmask i).isLt
      have : val a * (bdig b bmask i).toNat ≤ val a * (2 ^ 32 - 1) := Nat.mul_le_mul_left _ (by omega)
      omega
    obtain ⟨q, hq, hql, hqm, hqM⟩ := hf p hpl
    rw [hq, Option.bind_some]
    rw [hpv] at hqm
    by_cases h0 : i = 0
    · subst h0
      refine ⟨q, by simp [mulvLoop], hql, hqM, ?_⟩
      simp only [Nat.add_eq_zero_iff, Nat.reduceAdd, blow]
      rw [if_neg (by omega)]
      refine hqm.trans ?_
      have : val a * (bdig b bmask 0).toNat + val out =
        val out * 2 ^ (32 * (0 + 1 - 1)) + val a * (0 + (bdig b bmask 0).toNat * 2 ^ (32 * 0)) := by
        simp; ring
      rw [this]
    · simp only [ne_eq, h0, not_false_eq_true, if_true]
      have hxv : val (mulx q.length q) = 2 ^ 32 * val q := by
        rw [val_mulx, hql, Nat.mod_eq_of_lt]
        have : (val q + 1) * 2 ^ 32 ≤ M * 2 ^ 32 := Nat.mul_le_mul_right _ hqM
        omega
      obtain ⟨r, hr, hrl, hrm, hrM⟩ := hf (mulx q.length q) (by rw [length_mulx, hql])
      rw [hr, Option.bind_some]
      obtain ⟨o, ho, hol, hoM, hov⟩ := ih r hrl hrM
      refine ⟨o, ho, hol, hoM, hov.trans ?_⟩
      rw [if_neg h0, if_neg (by omega)]
      rw [hxv] at hrm
      have e1 : val r ≡ 2 ^ 32 * (val a * (bdig b bmask i).toNat + val out) [MOD m] :=
        hrm.trans (Nat.ModEq.mul_left _ hqm)
      refine (Nat.ModEq.add_right _ (Nat.ModEq.mul_right _ e1)).trans ?_
      have e2 : 32 * (i + 1 - 1) = 32 + 32 * (i - 1) := by omega
      have e3 : 32 * i = 32 + 32 * (i - 1) := by omega
      rw [blow, e2, e3, Nat.pow_add]
      have : 2 ^ 32 * (val a * (bdig b bmask i).toNat + val out) * 2 ^ (32 * (i - 1)) + val a * blow b bmask i
        = val out * (2 ^ 32 * 2 ^ (32 * (i - 1))) +
          val a * (blow b bmask i + (bdig b bmask i).toNat * (2 ^ 32 * 2 ^ (32 * (i - 1)))) := by ring
      rw [this]

/-- The factor a masked multiplication uses. -/
def factor (b : List W) (mask : W) : Nat := if mask = 1 then val b else 1

theorem blow_factor (b : List W) (mask : W) (hm : mask = 0 ∨ mask = 1) (hb : b ≠ []) :
    blow b (0 - mask) b.length = factor b mask := by
  have hpos : 0 < b.length := List.length_pos_iff.mpr hb
  rcases hm with h | h
  · subst h; rw [blow_zero _ _ hpos]; rfl
  · subst h; rw [blow_one, Nat.mod_eq_of_lt (val_lt b)]; rfl

theorem mulvMasked_none (c : Nat) (a b : List W) (mask : W) (hm : mask = 0 ∨ mask = 1) (hb : b ≠ []) :
    ∃ o, mulvMasked c a b mask none = some o ∧ o.length = c ∧
      val o = val a * factor b mask % 2 ^ (32 * c) := by
  obtain ⟨o, h1, h2, h3⟩ := mulvLoop_none a b (0 - mask) b.length (List.replicate c 0)
  rw [List.length_replicate] at h2 h3
  refine ⟨o, h1, h2, ?_⟩
  rw [val_replicate_zero, blow_factor b mask hm hb] at h3
  have : val o % 2 ^ (32 * c) = val o := Nat.mod_eq_of_lt (by rw [← h2]; exact val_lt o)
  rw [← this]
  refine Eq.trans h3 ?_
  split <;> simp

theorem mulvMasked_some (c : Nat) (a b : List W) (mask : W) (f : ModFunc) (m M : Nat)
    (hf : Reduces f c m M) (hM : 0 < M)
    (h1 : val a * (2 ^ 32 - 1) + M ≤ 2 ^ (32 * c)) (h2 : M * 2 ^ 32 ≤ 2 ^ (32 * c))
    (hm : mask = 0 ∨ mask = 1) (hb : b ≠ []) :
    ∃ o, mulvMasked c a b mask (some f) = some o ∧ o.length = c ∧ val o < M ∧
      val o ≡ val a * factor b mask [MOD m] := by
  obtain ⟨o, g1, g2, g3, g4⟩ := mulvLoop_some a b (0 - mask) f c m M hf h1 h2 b.length
    (List.replicate c 0) (by simp) (by rw [val_replicate_zero]; exact hM)
  refine ⟨o, g1, g2, g3, ?_⟩
  rw [val_replicate_zero, blow_factor b mask hm hb] at g4
  refine g4.trans ?_
  have : (if b.length = 0 then 0 else 0 * 2 ^ (32 * (b.length - 1))) + val a * factor b mask =
    val a * factor b mask := by split <;> simp
  rw [this]

theorem room {v M P : Nat} (h : v < M) (h2 : M * 2 ^ 32 ≤ P) : v * (2 ^ 32 - 1) + M ≤ P := by
  norm_num at h2 ⊢; linarith
theorem room1 {v M P : Nat} (h : v ≤ 1) (hM : 0 < M) (h2 : M * 2 ^ 32 ≤ P) :
    v * (2 ^ 32 - 1) + M ≤ P := by norm_num at h2 ⊢; linarith

theorem modexpLoop_val (e : List W) (f : ModFunc) (c m M : Nat) (hf : Reduces f c m M) (hc : 0 < c)
    (hM : 0 < M) (h2 : M * 2 ^ 32 ≤ 2 ^ (32 * c)) (k i : Nat) (hk : k + i = 32 * e.length) (hk0 : 0 < k)
    (out tmp1 : List W)
    (hl : out.length = c) (hl1 : tmp1.length = c) (ho : val out < M ∨ val out ≤ 1) (ht : val tmp1 < M) :
    ∃ o, modexpLoop e (some f) k i out tmp1 = some o ∧ o.length = c ∧ val o < M ∧
      val o ≡ val out * val tmp1 ^ (val e / 2 ^ i) [MOD m] := by
  induction k generalizing i out tmp1 with
  | zero => omega
  | succ k ih =>
    have hne : tmp1 ≠ [] := by intro h; simp [h] at hl1; omega
    have hmask : rd e (i / 32) >>> (i % 32) &&& 1 = if (val e / 2 ^ i) % 2 = 1 then (1 : W) else 0 := by
      have h1 : (val e).testBit i = (rd e (i / 32) >>> (i % 32)).getLsbD 0 := by
        rw [val_testBit, BitVec.getLsbD_ushiftRight]; simp
      rw [Nat.testBit_eq_decide_div_mod_eq] at h1
      apply BitVec.eq_of_toNat_eq
      rw [BitVec.toNat_and, show (1 : W).toNat = 1 from rfl, Nat.and_one_is_mod]
      simp only [BitVec.getLsbD, Nat.testBit_zero] at h1
      have h3 := decide_eq_decide.mp h1
      split
      · rename_i h; rw [h3.mp h]; rfl
      · rename_i h
        have : ¬ (BitVec.toNat (rd e (i / 32) >>> (i % 32)) % 2 = 1) := fun hh => h (h3.mpr hh)
        rw [show (0 : W).toNat = 0 from rfl]; omega
    set mask : W := rd e (i / 32) >>> (i % 32) &&& 1 with hmdef
    have hm01 : mask = 0 ∨ mask = 1 := by rw [hmask]; split <;> simp
    have hout : val out * (2 ^ 32 - 1) + M ≤ 2 ^ (32 * c) := by
      rcases ho with h | h
      · exact room h h2
      · exact room1 h hM h2
    obtain ⟨o1, e1, l1, b1, v1⟩ := mulvMasked_some c out tmp1 mask f m M hf hM hout h2 hm01 hne
    simp only [modexpLoop, hl, ← hmdef, e1, Option.bind_eq_bind, Option.bind_some]
    have hfac : factor tmp1 mask = val tmp1 ^ (val e / 2 ^ i % 2) := by
      unfold factor
      rw [hmask]
      rcases Nat.mod_two_eq_zero_or_one (val e / 2 ^ i) with h | h
      · rw [h]; simp
      · rw [h]; simp
    by_cases hk1 : k = 0
    · subst hk1
      rw [if_pos rfl]
      refine ⟨o1, rfl, l1, b1, v1.trans ?_⟩
      have : val e / 2 ^ i < 2 := by
        rw [Nat.div_lt_iff_lt_mul (Nat.pow_pos (by decide))]
        have := val_lt e
        rw [← hk, Nat.zero_add, Nat.pow_add] at this
        omega
      rw [hfac, Nat.mod_eq_of_lt this]
    · rw [if_neg hk1]
      have htt : val tmp1 * (2 ^ 32 - 1) + M ≤ 2 ^ (32 * c) := by
        exact room ht h2
      obtain ⟨t2, e2, l2, b2, v2⟩ := mulvMasked_some c tmp1 tmp1 1 f m M hf hM htt h2 (Or.inr rfl) hne
      rw [hl1, e2, Option.bind_some]
      obtain ⟨o, e3, l3, b3, v3⟩ := ih (i + 1) (by omega) (by omega) o1 t2 l1 l2 (Or.inl b1) b2
      refine ⟨o, e3, l3, b3, v3.trans ?_⟩
      have hdiv : val e / 2 ^ i = 2 * (val e / 2 ^ (i + 1)) + val e / 2 ^ i % 2 := by
        rw [Nat.pow_succ, ← Nat.div_div_eq_div_mul]; omega
      have v2' : val t2 ≡ val tmp1 ^ 2 [MOD m] := by
        have : val tmp1 ^ 2 = val tmp1 * factor tmp1 1 := by simp [factor]; ring
        rw [this]; exact v2
      refine (Nat.ModEq.mul v1 (v2'.pow _)).trans ?_
      rw [hfac, ← pow_mul, mul_assoc, ← pow_add]
      have : val e / 2 ^ i % 2 + 2 * (val e / 2 ^ (i + 1)) = val e / 2 ^ i := by omega
      rw [this]

theorem modexpv_val (c : Nat) (base e : List W) (f : ModFunc) (m M : Nat) (hf : Reduces f c m M)
    (hM : 0 < M) (h2 : M * 2 ^ 32 ≤ 2 ^ (32 * c)) (he : e ≠ []) (hb : val base < M) :
    ∃ o, modexpv c base e (some f) = some o ∧ o.length = c ∧ val o < M ∧
      val o ≡ val base ^ val e [MOD m] := by
  have hc : 0 < c := by
    rcases Nat.eq_zero_or_pos c with h | h
    · subst h; simp at h2; omega
    · exact h
  have hel : 0 < e.length := List.length_pos_iff.mpr he
  have hone : val ((List.range c).map fun i => if i ≠ 0 then (0:W) else 1) = 1 := by
    rw [val_digits _ 1 c]
    · apply Nat.mod_eq_of_lt
      apply Nat.one_lt_two_pow; omega
    · intro j _
      by_cases h : j = 0
      · subst h; rfl
      · rw [if_pos h, Nat.shiftRight_eq_div_pow, Nat.div_eq_of_lt]
        · rfl
        · apply Nat.one_lt_two_pow; omega
  have hbc : val (cpy c base) = val base := by
    rw [val_cpy, Nat.mod_eq_of_lt]
    have : M * 1 ≤ M * 2 ^ 32 := Nat.mul_le_mul_left _ (by decide)
    omega
  obtain ⟨o, h1, h2, h3, h4⟩ := modexpLoop_val e f c m M hf hc hM h2 (e.length * 32) 0 (by omega)
    (by omega) _ (cpy c base) (by simp) (length_cpy c base)
    (Or.inr (Nat.le_of_eq hone)) (by rw [hbc]; exact hb)
  refine ⟨o, ?_, h2, h3, ?_⟩
  · unfold modexpv; rw [if_neg (by omega)]; exact h1
  · rw [hone, hbc] at h4; simpa using h4

/-! ### Signed reduction -/

theorem imodLoop_eq (b : List W) (neg : W) (rem : List W) (i : Nat) (x : BitVec 64) (r0 : List W)
    (h : ∀ j, rd rem j = rd r0 (i + j)) :
    imodLoop b neg rem i x = addKernel [] (fun i x =>
      x + ((~~~neg &&& rd r0 i) ||| (neg &&& rd b i)).setWidth 64 - (neg &&& rd r0 i).setWidth 64)
      rem.length i x := by
  induction rem generalizing i x with
  | nil => rfl
  | cons u rem ih =>
    have h0 := h 0
    rw [rd_cons_zero, Nat.add_zero] at h0
    subst h0
    simp only [imodLoop, List.length_cons, addKernel, rd_nil]
    have e : x + (0 : W).setWidth 64 = x := by simp
    rw [e, ih]
    intro j
    have := h (j + 1)
    rw [rd_cons_succ] at this
    rw [this]; congr 1; omega

theorem imodLoop_pos (b rem : List W) : imodLoop b 0 rem 0 0 = rem := by
  apply val_inj
  · rw [imodLoop_eq b 0 rem 0 0 rem (by simp), length_addKernel]
  · rw [imodLoop_eq b 0 rem 0 0 rem (by simp)]
    have h := addKernel_val [] (fun i x =>
      x + ((~~~(0:W) &&& rd rem i) ||| (0 &&& rd b i)).setWidth 64 - ((0:W) &&& rd rem i).setWidth 64)
      (fun i => ((rd rem i).toNat : Int))
      (by
        intro i x h1 h2
        have := (rd rem i).isLt
        have e1 : (~~~(0:W) &&& rd rem i) ||| (0 &&& rd b i) = rd rem i := by
          have : ~~~(0:W) = BitVec.allOnes 32 := by decide
          rw [this, BitVec.allOnes_and]; simp
        have e2 : (0:W) &&& rd rem i = 0 := by simp
        rw [e1, e2]
        have e3 : ∀ y : BitVec 64, y - (0 : W).setWidth 64 = y := by intro y; simp
        rw [e3, toInt_add_small] <;> rw [toInt_setWidth_32] <;> omega)
      rem.length 0 0 (by decide) (by decide)
    have h' := val_of_modEq (length_addKernel _ _ _ _ _) h
    rw [dsum_add, dsum_rd, dsum_rd, Nat.mod_eq_of_lt (val_lt rem)] at h'
    have hl := val_lt rem
    rw [show (0 : BitVec 64).toInt = 0 from rfl, zero_add, val, Nat.zero_mod, Nat.cast_zero, zero_add,
      Int.emod_eq_of_lt (by omega) (by exact_mod_cast hl)] at h'
    exact_mod_cast h'

theorem imodLoop_neg (b rem : List W) (h1 : b.length ≤ rem.length) (h2 : val rem ≤ val b) :
    (imodLoop b (BitVec.allOnes 32) rem 0 0).length = rem.length ∧
    val (imodLoop b (BitVec.allOnes 32) rem 0 0) = val b - val rem := by
  rw [imodLoop_eq b _ rem 0 0 rem (by simp)]
  refine ⟨length_addKernel _ _ _ _ _, ?_⟩
  have h := addKernel_val [] (fun i x =>
      x + ((~~~(BitVec.allOnes 32) &&& rd rem i) ||| (BitVec.allOnes 32 &&& rd b i)).setWidth 64
        - (BitVec.allOnes 32 &&& rd rem i).setWidth 64)
      (fun i => ((rd b i).toNat : Int) + -((rd rem i).toNat : Int))
      (by
        intro i x h1 h2
        have := (rd rem i).isLt
        have := (rd b i).isLt
        have e1 : (~~~(BitVec.allOnes 32) &&& rd rem i) ||| (BitVec.allOnes 32 &&& rd b i) = rd b i := by
          have : ~~~(BitVec.allOnes 32) = (0#32) := by decide
          rw [this, BitVec.allOnes_and]; simp
        rw [e1, BitVec.allOnes_and]
        have g : (x + (rd b i).setWidth 64).toInt = x.toInt + (rd b i).toNat := by
          rw [toInt_add_small] <;> rw [toInt_setWidth_32] <;> omega
        rw [toInt_sub_small] <;> rw [g, toInt_setWidth_32] <;> omega)
      rem.length 0 0 (by decide) (by decide)
  have h' := val_of_modEq (length_addKernel _ _ _ _ _) h
  have hb : val b < 2 ^ (32 * rem.length) :=
    Nat.lt_of_lt_of_le (val_lt b) (Nat.pow_le_pow_right (by decide) (by omega))
  have hb' : ((val b : Nat) : Int) < 2 ^ (32 * rem.length) := by exact_mod_cast hb
  rw [dsum_add, dsum_rd, dsum_add, dsum_neg, dsum_rd, dsum_rd, Nat.mod_eq_of_lt (val_lt rem),
    Nat.mod_eq_of_lt hb, show (0 : BitVec 64).toInt = 0 from rfl, zero_add, val, Nat.zero_mod,
    Nat.cast_zero, zero_add, Int.emod_eq_of_lt (by omega) (by omega)] at h'
  omega

theorem val_map_not (l : List W) : val (l.map (· ^^^ BitVec.allOnes 32)) = 2 ^ (32 * l.length) - 1 - val l := by
  induction l with
  | nil => rfl
  | cons w l ih =>
    have hw := w.isLt
    have hl := val_lt l
    have e : (w ^^^ BitVec.allOnes 32).toNat = 2 ^ 32 - 1 - w.toNat := by
      rw [BitVec.xor_allOnes, BitVec.toNat_not]
    rw [List.map_cons, val, ih, e, val, List.length_cons, Nat.mul_add, Nat.mul_one, Nat.pow_add]
    generalize 2 ^ (32 * l.length) = P at *
    omega

theorem map_xor_zero (l : List W) : l.map (· ^^^ (0 : W)) = l := by
  induction l with
  | nil => rfl
  | cons w l ih => simp

theorem foldl_or_zero (l : List W) (acc : W) :
    l.foldl (· ||| ·) acc = 0 ↔ acc = 0 ∧ val l = 0 := by
  induction l generalizing acc with
  | nil => simp [val]
  | cons w l ih =>
    rw [List.foldl_cons, ih, val]
    rw [show (acc ||| w = 0 ↔ acc = 0 ∧ w = 0) from BitVec.or_eq_zero_iff]
    constructor
    · rintro ⟨⟨h1, h2⟩, h3⟩
      refine ⟨h1, ?_⟩
      rw [h2, h3]; rfl
    · rintro ⟨h1, h2⟩
      refine ⟨⟨h1, ?_⟩, by omega⟩
      apply BitVec.eq_of_toNat_eq
      rw [show (0 : W).toNat = 0 from rfl]; omega

theorem top_bit (rem : List W) (h : 0 < rem.length) :
    -((rd rem (rem.length - 1) >>> 31) &&& 1) =
      if 2 * val rem < 2 ^ (32 * rem.length) then (0 : W) else BitVec.allOnes 32 := by
  have e : (rd rem (rem.length - 1) >>> 31) &&& 1 =
      if 2 * val rem < 2 ^ (32 * rem.length) then (0 : W) else 1 := by
    apply BitVec.eq_of_toNat_eq
    have hl := val_lt rem
    have hp : 32 * rem.length = 32 * (rem.length - 1) + 31 + 1 := by omega
    rw [BitVec.toNat_and, BitVec.toNat_ushiftRight, rd_eq_ofNat, BitVec.toNat_ofNat,
      show (1 : W).toNat = 1 from rfl, Nat.and_one_is_mod, Nat.shiftRight_eq_div_pow,
      Nat.shiftRight_eq_div_pow]
    rw [hp, Nat.pow_succ, Nat.pow_add] at hl
    have hp2 : 2 ^ (32 * rem.length) = 2 ^ (32 * (rem.length - 1)) * 2 ^ 31 * 2 := by
      rw [hp, Nat.pow_succ, Nat.pow_add]
    rw [hp2]
    have hP : 0 < 2 ^ (32 * (rem.length - 1)) := Nat.pow_pos (by decide)
    generalize 2 ^ (32 * (rem.length - 1)) = P at *
    have hd : val rem / P < 2 ^ 32 := by
      rw [Nat.div_lt_iff_lt_mul hP]; omega
    rw [Nat.mod_eq_of_lt hd]
    split
    · rename_i h1
      rw [show (0 : W).toNat = 0 from rfl]
      have : val rem / P < 2 ^ 31 := by rw [Nat.div_lt_iff_lt_mul hP]; omega
      rw [Nat.div_eq_of_lt this]
    · rename_i h1
      have : 2 ^ 31 ≤ val rem / P := by rw [Nat.le_div_iff_mul_le hP]; omega
      rw [show (1 : W).toNat = 1 from rfl]
      have h3 : val rem / P / 2 ^ 31 = 1 := by
        rw [Nat.div_eq_iff (by decide)]; omega
      rw [h3]
  rw [e]; split <;> decide

theorem imodInplace_val (rem b : List W) (h0 : 0 < rem.length) (h1 : b.length ≤ rem.length)
    (hb : val b ≠ 0) :
    (imodInplace rem b).length = rem.length ∧ (val (imodInplace rem b) : Int) = sval rem % val b := by
  unfold imodInplace
  simp only
  rw [top_bit rem h0]
  have hl := val_lt rem
  unfold sval
  by_cases hs : 2 * val rem < 2 ^ (32 * rem.length)
  · simp only [hs, if_true]
    rw [map_xor_zero]
    have ha : adds rem.length rem (BitVec.setWidth 64 ((0 : W) &&& 1)) 0 = rem := by
      apply val_inj
      · exact length_addKernel _ _ _ _ _
      · have e : BitVec.setWidth 64 ((0 : W) &&& 1) = 0 := by decide
        rw [e]
        have h := val_of_modEq (length_addKernel _ _ _ _ _)
          (adds_modEq rem.length rem 0 0 (by decide) (by decide))
        rw [show (0 : BitVec 64).toInt = 0 from rfl, Int.zero_mul, add_zero,
          Int.emod_eq_of_lt (by omega) (by exact_mod_cast hl)] at h
        exact_mod_cast h
    rw [ha]
    obtain ⟨r, hr, hrl, hrv⟩ := remvInplace_val rem b h1
    rw [hr, Option.getD_some]
    have e : ∀ x : W, (0 : W) &&& x = 0 := by intro x; simp
    rw [e, imodLoop_pos]
    exact ⟨hrl, by rw [hrv]; push_cast; rfl⟩
  · simp only [hs, if_false]
    set rem1 := rem.map (· ^^^ BitVec.allOnes 32) with hrem1
    have hl1 : rem1.length = rem.length := by simp [hrem1]
    have hv1 : val rem1 = 2 ^ (32 * rem.length) - 1 - val rem := val_map_not rem
    set rem2 := adds rem1.length rem1 (BitVec.setWidth 64 (BitVec.allOnes 32 &&& 1)) 0 with hrem2
    have hl2 : rem2.length = rem.length := by rw [hrem2, adds, length_addKernel, hl1]
    have hv2 : val rem2 = 2 ^ (32 * rem.length) - val rem := by
      have e : BitVec.setWidth 64 (BitVec.allOnes 32 &&& 1) = 1 := by decide
      have h := val_of_modEq (length_addKernel _ _ _ _ _)
          (adds_modEq rem1.length rem1 1 0 (by decide) (by decide))
      rw [← e, ← adds, ← hrem2, e, show (1 : BitVec 64).toInt = 1 from rfl, hv1, hl1] at h
      have hp : (1 : Nat) ≤ 2 ^ (32 * rem.length) := Nat.one_le_two_pow
      rw [Int.emod_eq_of_lt] at h
      · simp at h; omega
      · omega
      · have : (0 : Nat) < val rem := by omega
        have h3 : ((2 ^ (32 * rem.length) - 1 - val rem : Nat) : Int) + 1 < ((2 ^ (32 * rem.length) : Nat) : Int) := by
          omega
        simpa using h3
    obtain ⟨r, hr, hrl, hrv⟩ := remvInplace_val rem2 b (by omega)
    rw [hr, Option.getD_some, BitVec.allOnes_and, nzMask_eq]
    have hrlt : val r < val b := by rw [hrv]; exact Nat.mod_lt _ (by omega)
    have hz := foldl_or_zero r 0
    have hcast : ((val rem : Nat) : Int) - 2 ^ (32 * rem.length) = -((val rem2 : Nat) : Int) := by
      rw [hv2]
      have : ((2 ^ (32 * rem.length) - val rem : Nat) : Int) = ((2 ^ (32 * rem.length) : Nat) : Int) - val rem := by
        omega
      rw [this]; push_cast; ring
    rw [hcast]
    by_cases hr0 : val r = 0
    · rw [if_pos (hz.mpr ⟨rfl, hr0⟩), imodLoop_pos]
      refine ⟨by omega, ?_⟩
      rw [hr0]
      rw [hr0] at hrv
      have hd : ((val b : Nat) : Int) ∣ -((val rem2 : Nat) : Int) := by
        rw [Int.dvd_neg]; exact_mod_cast Nat.dvd_of_mod_eq_zero hrv.symm
      rw [Int.emod_eq_zero_of_dvd hd]; rfl
    · rw [if_neg (fun h => hr0 (hz.mp h).2)]
      obtain ⟨g1, g2⟩ := imodLoop_neg b r (by omega) (by omega)
      refine ⟨by omega, ?_⟩
      rw [g2]
      have hm : ((val rem2 : Nat) : Int) = val b * ((val rem2 / val b : Nat) : Int) + val r := by
        rw [hrv]; exact_mod_cast (Nat.div_add_mod _ _).symm
      have : -((val rem2 : Nat) : Int) = ((val b - val r : Nat) : Int) +
          val b * (-((val rem2 / val b : Nat) : Int) - 1) := by
        rw [hm]
        have : ((val b - val r : Nat) : Int) = (val b : Int) - val r := by omega
        rw [this]; ring
      rw [this, Int.add_mul_emod_self_left, Int.emod_eq_of_lt (by omega) (by omega)]

/-! ### Octet strings -/

theorem leNat_lt (l : List (BitVec 8)) : leNat l < 256 ^ l.length := by
  induction l with
  | nil => simp [leNat]
  | cons w l ih =>
    have := w.isLt
    simp only [leNat, List.length_cons, Nat.pow_succ]
    omega

theorem leNat_testBit (l : List (BitVec 8)) (k : Nat) :
    (leNat l).testBit k = (l.getD (k / 8) 0).getLsbD (k % 8) := by
  induction l generalizing k with
  | nil => simp [leNat]
  | cons w l ih =>
    have hw := w.isLt
    have : leNat (w :: l) = 2 ^ 8 * leNat l + w.toNat := by simp [leNat]; omega
    rw [this, Nat.testBit_two_pow_mul_add _ hw]
    by_cases h : k < 8
    · rw [if_pos h]
      have h0 : k / 8 = 0 := by omega
      have h1 : k % 8 = k := by omega
      rw [h0, h1]; rfl
    · rw [if_neg h, ih]
      have h0 : k / 8 = (k - 8) / 8 + 1 := by omega
      have h1 : k % 8 = (k - 8) % 8 := by omega
      rw [h0, h1]; rfl

theorem leNat_inj {l m : List (BitVec 8)} (hl : l.length = m.length) (h : leNat l = leNat m) : l = m := by
  apply List.ext_getElem hl
  intro i h1 h2
  apply BitVec.eq_of_getLsbD_eq
  intro k hk
  have a := leNat_testBit l (8 * i + k)
  have b := leNat_testBit m (8 * i + k)
  rw [h, b] at a
  have e1 : (8 * i + k) / 8 = i := by omega
  have e2 : (8 * i + k) % 8 = k := by omega
  rw [e1, e2] at a
  simpa [h1, h2] using a.symm

theorem encByte_eq (v : List W) (i : Nat) : encByte v i = BitVec.ofNat 8 (val v >>> (8 * i)) := by
  apply BitVec.eq_of_getLsbD_eq
  intro k hk
  rw [BitVec.getLsbD_ofNat, Nat.testBit_shiftRight, val_testBit]
  have e1 : (8 * i + k) / 32 = i / 4 := by omega
  have e2 : (8 * i + k) % 32 = i * 8 % 32 + k := by omega
  rw [e1, e2]
  unfold encByte
  split
  · rw [rd_ge (by omega)]; simp
  · rw [BitVec.getLsbD_setWidth, BitVec.getLsbD_ushiftRight]

theorem leNat_encLSB (v : List W) (len : Nat) : leNat (encLSB v len) = val v % 256 ^ len := by
  have hp : 256 ^ len = 2 ^ (8 * len) := by rw [Nat.pow_mul]
  rw [hp]
  apply Nat.eq_of_testBit_eq
  intro k
  rw [leNat_testBit, Nat.testBit_mod_two_pow]
  by_cases hk : k < 8 * len
  · have hj : k / 8 < len := by omega
    have : (encLSB v len).getD (k / 8) 0 = encByte v (k / 8) := by simp [encLSB, hj]
    rw [this, encByte_eq, BitVec.getLsbD_ofNat, Nat.testBit_shiftRight]
    have h1 : 8 * (k / 8) + k % 8 = k := by omega
    have h2 : k % 8 < 8 := by omega
    simp [h1, h2, hk]
  · have : (encLSB v len).getD (k / 8) 0 = 0 := by
      simp only [encLSB, List.getD_eq_getElem?_getD]
      rw [List.getElem?_eq_none (by simp; omega)]; rfl
    rw [this]; simp [hk]

theorem length_orByte (v : List W) (i b) : (orByte v i b).length = v.length := by simp [orByte]

theorem length_decLoop (os : List (BitVec 8)) (i : Nat) (v : List W) :
    (decLoop os i v).length = v.length := by
  induction os generalizing i v with
  | nil => rfl
  | cons b os ih => simp only [decLoop]; split
                    · rfl
                    · rw [ih, length_orByte]

theorem decLoop_val (os : List (BitVec 8)) (i : Nat) (v : List W) (hi : i ≤ 4 * v.length)
    (hv : val v < 2 ^ (8 * i)) :
    val (decLoop os i v) = (val v + 2 ^ (8 * i) * leNat os) % 2 ^ (32 * v.length) := by
  induction os generalizing i v with
  | nil => simp [decLoop, leNat, Nat.mod_eq_of_lt (val_lt v)]
  | cons b os ih =>
    simp only [decLoop]
    split
    · have : i = 4 * v.length := by omega
      have e : 8 * i = 32 * v.length := by omega
      rw [e, Nat.add_mul_mod_self_left, Nat.mod_eq_of_lt (val_lt v)]
    · rename_i h
      have hb := b.isLt
      have hbn : (b.setWidth 32).toNat = b.toNat := by
        rw [BitVec.toNat_setWidth]; omega
      have e8 : 32 * (i / 4) + i * 8 % 32 = 8 * i := by omega
      have hv' : val (orByte v i b) = val v + 2 ^ (8 * i) * b.toNat := by
        unfold orByte
        rw [val_modify_or _ _ _ _ (by omega), hbn, e8]
        · rw [Nat.or_comm, ← Nat.shiftLeft_add_eq_or_of_lt hv, Nat.shiftLeft_eq]; ring
        · rw [hbn, Nat.shiftLeft_eq]
          have : (2:Nat) ^ (i * 8 % 32) ≤ 2 ^ 24 := Nat.pow_le_pow_right (by decide) (by omega)
          nlinarith
      have e9 : 8 * (i + 1) = 8 * i + 8 := by omega
      rw [ih (i + 1) (orByte v i b) (by rw [length_orByte]; omega)
        (by rw [hv', e9, Nat.pow_add]
            have : 2 ^ (8 * i) * (b.toNat + 1) ≤ 2 ^ (8 * i) * 2 ^ 8 := Nat.mul_le_mul_left _ hb
            rw [Nat.mul_add] at this
            omega), hv', length_orByte, leNat, e9, Nat.pow_add]
      congr 1; ring

theorem val_decLSB (c : Nat) (os : List (BitVec 8)) : val (decLSB c os) = leNat os % 2 ^ (32 * c) := by
  unfold decLSB
  rw [decLoop_val _ _ _ (by omega) (by rw [val_replicate_zero]; simp), val_replicate_zero]
  simp

theorem val_os2ip (c : Nat) (os : List (BitVec 8)) : val (os2ip c os) = beNat os % 2 ^ (32 * c) := by
  unfold os2ip
  rw [decLoop_val _ _ _ (by omega) (by rw [val_replicate_zero]; simp), val_replicate_zero]
  simp [beNat]

theorem beNat_i2osp (v : List W) (len : Nat) : beNat (i2osp v len) = val v % 256 ^ len := by
  unfold i2osp beNat
  rw [List.reverse_reverse]
  exact leNat_encLSB v len

/-! ### Bit length -/

theorem bitLoop_spec (fuel i : Nat) (w : W) (h : w.toNat < 2 ^ fuel) :
    ∃ t, bitLoop fuel i w = i + t ∧ w.toNat < 2 ^ t ∧ (t = 0 ∨ 2 ^ (t - 1) ≤ w.toNat) := by
  induction fuel generalizing i w with
  | zero => exact ⟨0, rfl, by simpa using h, Or.inl rfl⟩
  | succ n ih =>
    unfold bitLoop
    by_cases h0 : w = 0
    · subst h0; exact ⟨0, by simp, by decide, Or.inl rfl⟩
    · rw [if_neg h0]
      have hs : (w >>> 1).toNat = w.toNat / 2 := by
        rw [BitVec.toNat_ushiftRight, Nat.shiftRight_eq_div_pow]
      have hw : 0 < w.toNat := by
        rcases Nat.eq_zero_or_pos w.toNat with h | h
        · exact absurd (BitVec.eq_of_toNat_eq (by simpa using h)) h0
        · exact h
      rw [Nat.pow_succ] at h
      obtain ⟨t, h1, h2, h3⟩ := ih (i + 1) (w >>> 1) (by rw [hs]; omega)
      refine ⟨t + 1, by omega, ?_, Or.inr ?_⟩
      · rw [hs] at h2; rw [Nat.pow_succ]; omega
      · rw [hs] at h3
        rw [Nat.add_sub_cancel]
        rcases h3 with h3 | h3
        · subst h3; simp; omega
        · rcases Nat.eq_zero_or_pos t with ht | ht
          · subst ht; simp; omega
          · have : 2 ^ t = 2 * 2 ^ (t - 1) := by rw [← Nat.pow_succ']; congr 1; omega
            omega

theorem topIdx_le (x : List W) (i : Nat) : topIdx x i ≤ i := by
  induction i with
  | zero => simp [topIdx]
  | succ i ih => simp only [topIdx]; split <;> omega

theorem topIdx_val (x : List W) (i : Nat) :
    val x % 2 ^ (32 * (i + 1)) = val x % 2 ^ (32 * (topIdx x i + 1)) ∧
      (topIdx x i = 0 ∨ rd x (topIdx x i) ≠ 0) := by
  induction i with
  | zero => simp [topIdx]
  | succ i ih =>
    simp only [topIdx]
    split
    · rename_i h; exact ⟨rfl, Or.inr h⟩
    · rename_i h
      simp only [ne_eq, not_not] at h
      rw [val_mod_eq_zero_of_rd x (i + 1) h]
      exact ih

theorem topbit_spec (x : List W) (h : x ≠ []) :
    ∃ t, topbit x = some t ∧ val x < 2 ^ t ∧ (t = 0 ∨ 2 ^ (t - 1) ≤ val x) := by
  have hpos : 0 < x.length := List.length_pos_iff.mpr h
  set i := topIdx x (x.length - 1) with hi
  obtain ⟨h1, h2⟩ := topIdx_val x (x.length - 1)
  rw [← hi] at h1 h2
  have e : x.length - 1 + 1 = x.length := by omega
  rw [e, Nat.mod_eq_of_lt (val_lt x)] at h1
  obtain ⟨t, t1, t2, t3⟩ := bitLoop_spec 32 (i * 32) (rd x i) (rd x i).isLt
  have hrd : (rd x i).toNat = val x / 2 ^ (32 * i) := by
    rw [rd_eq_ofNat, BitVec.toNat_ofNat, Nat.shiftRight_eq_div_pow, Nat.mod_eq_of_lt]
    rw [Nat.div_lt_iff_lt_mul (Nat.pow_pos (by decide)), ← Nat.pow_add, h1]
    have : 32 + 32 * i = 32 * (i + 1) := by omega
    rw [this]
    exact Nat.mod_lt _ (Nat.pow_pos (by decide))
  have hP : 0 < 2 ^ (32 * i) := Nat.pow_pos (by decide)
  refine ⟨i * 32 + t, ?_, ?_, ?_⟩
  · unfold topbit; rw [if_neg (by omega)]; simp only; rw [← hi, t1]
  · rw [hrd, Nat.div_lt_iff_lt_mul hP, ← Nat.pow_add] at t2
    have : i * 32 + t = t + 32 * i := by omega
    rw [this]; exact t2
  · rcases Nat.eq_zero_or_pos t with ht | ht
    · subst ht
      left
      rcases h2 with h2 | h2
      · omega
      · exfalso; apply h2
        apply BitVec.eq_of_toNat_eq
        rw [show (0 : W).toNat = 0 from rfl]; simpa using t2
    · right
      have t3' : 2 ^ (t - 1) ≤ (rd x i).toNat := by rcases t3 with h | h; omega; exact h
      rw [hrd, Nat.le_div_iff_mul_le hP, ← Nat.pow_add] at t3'
      have : i * 32 + t - 1 = t - 1 + 32 * i := by omega
      rw [this]; exact t3'

end Vlong
