import Verif.Lemmas.EcField
import Mathlib.Data.ZMod.Basic
import Mathlib.Tactic.Ring
import Mathlib.Tactic.Linarith
import Mathlib.Tactic.LinearCombination
import Mathlib.Tactic.Positivity

/-! # Field operations of the curve code, as operations on residues -/

namespace Ec
open Vlong Spec

/-- `f` reduces `c`-word numbers below `B` modulo `m`, to values below `M`. -/
def ReducesB (f : ModFunc) (c m M B : Nat) : Prop :=
  ∀ l : List W, l.length = c → val l < B →
    ∃ l', f l = some l' ∧ l'.length = c ∧ val l' ≡ val l [MOD m] ∧ val l' < M

theorem mulvLoop_bdd (a b : List W) (bmask : W) (f : ModFunc) (c m M B : Nat)
    (hf : ReducesB f c m M B) (hB : B ≤ 2 ^ (32 * c))
    (h1 : val a * (2 ^ 32 - 1) + M ≤ B) (h2 : M * 2 ^ 32 ≤ B) (i : Nat) (out : List W)
    (hl : out.length = c) (hlt : val out < M) :
    ∃ o, mulvLoop a b bmask (some f) i out = some o ∧ o.length = c ∧ val o < M ∧
      val o ≡ (if i = 0 then val out else val out * 2 ^ (32 * (i - 1))) + val a * blow b bmask i
        [MOD m] := by
  induction i generalizing out with
  | zero => exact ⟨out, by simp [mulvLoop], hl, hlt, by simp [blow]; exact Nat.ModEq.refl _⟩
  | succ i ih =>
    simp only [mulvLoop, Option.bind_eq_bind]
    change ∃ o, ((f (muls out a (bdig b bmask i) true)).bind fun out =>
        if i ≠ 0 then (f (mulx out.length out)).bind fun out => mulvLoop a b bmask (some f) i out
        else (some out).bind fun out => mulvLoop a b bmask (some f) i out) = some o ∧ _
    set p := muls out a (bdig b bmask i) true with hp
    have hpl : p.length = c := by rw [hp, length_muls, hl]
    have hpv : val p = val a * (bdig b bmask i).toNat + val out := by
      rw [hp, val_muls, if_pos rfl, hl, Nat.mod_eq_of_lt]
      have := (bdig b bmask i).isLt
      have : val a * (bdig b bmask i).toNat ≤ val a * (2 ^ 32 - 1) := Nat.mul_le_mul_left _ (by omega)
      omega
    have hpB : val p < B := by
      rw [hpv]
      have := (bdig b bmask i).isLt
      have : val a * (bdig b bmask i).toNat ≤ val a * (2 ^ 32 - 1) := Nat.mul_le_mul_left _ (by omega)
      omega
    obtain ⟨q, hq, hql, hqm, hqM⟩ := hf p hpl hpB
    rw [hq, Option.bind_some]
    rw [hpv] at hqm
    by_cases h0 : i = 0
    · subst h0
      refine ⟨q, by simp [mulvLoop], hql, hqM, ?_⟩
      simp only [Nat.add_eq_zero_iff, Nat.reduceAdd, blow]
      rw [if_neg (by omega)]
      refine hqm.trans ?_
      have : val a * (bdig b bmask 0).toNat + val out =
        val out * 2 ^ (32 * (0 + 1 - 1)) + val a * (0 + (bdig b bmask 0).toNat * 2 ^ (32 * 0)) := by
        simp; ring
      rw [this]
    · simp only [ne_eq, h0, not_false_eq_true, if_true]
      have hxv : val (mulx q.length q) = 2 ^ 32 * val q := by
        rw [val_mulx, hql, Nat.mod_eq_of_lt]
        have : (val q + 1) * 2 ^ 32 ≤ M * 2 ^ 32 := Nat.mul_le_mul_right _ hqM
        omega
      obtain ⟨r, hr, hrl, hrm, hrM⟩ := hf (mulx q.length q) (by rw [length_mulx, hql])
        (by
          rw [hxv]
          have : (val q + 1) * 2 ^ 32 ≤ M * 2 ^ 32 := Nat.mul_le_mul_right _ hqM
          omega)
      rw [hr, Option.bind_some]
      obtain ⟨o, ho, hol, hoM, hov⟩ := ih r hrl hrM
      refine ⟨o, ho, hol, hoM, hov.trans ?_⟩
      rw [if_neg h0, if_neg (by omega)]
      rw [hxv] at hrm
      have e1 : val r ≡ 2 ^ 32 * (val a * (bdig b bmask i).toNat + val out) [MOD m] :=
        hrm.trans (Nat.ModEq.mul_left _ hqm)
      refine (Nat.ModEq.add_right _ (Nat.ModEq.mul_right _ e1)).trans ?_
      have e2 : 32 * (i + 1 - 1) = 32 + 32 * (i - 1) := by omega
      have e3 : 32 * i = 32 + 32 * (i - 1) := by omega
      rw [blow, e2, e3, Nat.pow_add]
      have : 2 ^ 32 * (val a * (bdig b bmask i).toNat + val out) * 2 ^ (32 * (i - 1)) + val a * blow b bmask i
        = val out * (2 ^ 32 * 2 ^ (32 * (i - 1))) +
          val a * (blow b bmask i + (bdig b bmask i).toNat * (2 ^ 32 * 2 ^ (32 * (i - 1)))) := by ring
      rw [this]


/-- What the curve code assumes of its reduction context: `c`-word objects, modulus `p`. -/
structure FieldOk (aux : Aux) (c p : Nat) : Prop where
  ctx : val aux.modCtx = p
  len : aux.modCtx.length ≤ c
  red : RedOk aux.modfunc p c (p * 2 ^ 40)
  room : p * 2 ^ 42 ≤ 2 ^ (32 * c)
  two : 2 ≤ p

theorem room_a {v p : Nat} (hp : 2 ≤ p) (h : v ≤ 2 ^ 7 * p) : v * (2 ^ 32 - 1) + (p + 1) ≤ p * 2 ^ 40 := by
  norm_num at h ⊢; omega
theorem room_b {p : Nat} (hp : 2 ≤ p) : (p + 1) * 2 ^ 32 ≤ p * 2 ^ 40 := by
  norm_num; omega

theorem mulM_raw {aux : Aux} {c p : Nat} (hF : FieldOk aux c p) (a b : List W) (mask : W)
    (hm : mask = 0 ∨ mask = 1) (hb : b ≠ []) (ha : val a ≤ 2 ^ 7 * p) :
    (mulM aux c a b mask).length = c ∧ val (mulM aux c a b mask) ≤ p ∧
      val (mulM aux c a b mask) ≡ val a * factor b mask [MOD p] := by
  have hp := hF.two
  have hB : p * 2 ^ 40 ≤ 2 ^ (32 * c) := le_trans (Nat.mul_le_mul_left _ (by norm_num)) hF.room
  have hred : ReducesB (fun l => some (aux.modfunc l)) c p (p + 1) (p * 2 ^ 40) := by
    intro l hl hlt
    exact ⟨_, rfl, hF.red.len l hl, hF.red.mod l hl hlt, Nat.lt_succ_of_le (hF.red.le l hl hlt)⟩
  obtain ⟨o, g1, g2, g3, g4⟩ := mulvLoop_bdd a b (0 - mask) (fun l => some (aux.modfunc l)) c p (p + 1)
    (p * 2 ^ 40) hred hB (room_a hp ha) (room_b hp) b.length
    (List.replicate c 0) (by simp) (by rw [val_replicate_zero]; omega)
  unfold mulM mulvMasked
  rw [g1, Option.getD_some]
  refine ⟨g2, by omega, ?_⟩
  rw [val_replicate_zero, blow_factor b mask hm hb] at g4
  refine g4.trans ?_
  have : (if b.length = 0 then 0 else 0 * 2 ^ (32 * (b.length - 1))) + val a * factor b mask =
    val a * factor b mask := by split <;> simp
  rw [this]

/-! ### Representations of residues -/

/-- The `c`-word object `l` holds a number at most `k * p` of the residue class `x`. -/
structure Rep (c p k : Nat) (l : List W) (x : ZMod p) : Prop where
  len : l.length = c
  le : val l ≤ k * p
  res : (val l : ZMod p) = x

/-- The same for the two's-complement reading. -/
structure SRep (c p k : Nat) (l : List W) (x : ZMod p) : Prop where
  len : l.length = c
  lo : -(k * p : Int) ≤ sval l
  hi : sval l ≤ k * p
  res : ((sval l : Int) : ZMod p) = x

theorem Rep.mono {c p k k' : Nat} {l : List W} {x : ZMod p} (h : Rep c p k l x) (hk : k ≤ k') :
    Rep c p k' l x := ⟨h.len, h.le.trans (Nat.mul_le_mul_right _ hk), h.res⟩

theorem Rep.of_eq {c p k : Nat} {l : List W} {x y : ZMod p} (h : Rep c p k l x) (e : x = y) :
    Rep c p k l y := e ▸ h

theorem cast_modEq {p a b : Nat} (h : a ≡ b [MOD p]) : (a : ZMod p) = b :=
  (ZMod.natCast_eq_natCast_iff a b p).mpr h

theorem cast_modEqI {p : Nat} {a b : Int} (h : a ≡ b [ZMOD p]) : (a : ZMod p) = b :=
  (ZMod.intCast_eq_intCast_iff a b p).mpr h

section
variable {aux : Aux} {c p : Nat} (hF : FieldOk aux c p)
include hF

theorem FieldOk.cpos : 0 < c := by
  rcases Nat.eq_zero_or_pos c with h | h
  · have := hF.room; have := hF.two; subst h; norm_num at *; omega
  · exact h

theorem FieldOk.fit {k : Nat} (hk : k ≤ 2 ^ 40) : 4 * (k * p) ≤ 2 ^ (32 * c) := by
  have h := hF.room
  have : k * p ≤ 2 ^ 40 * p := Nat.mul_le_mul_right _ hk
  norm_num at h this ⊢
  omega

theorem mul_rep {a b : List W} {x y : ZMod p} (ha : val a ≤ 2 ^ 7 * p) (hax : (val a : ZMod p) = x)
    (hb : b ≠ []) (hby : (val b : ZMod p) = y) : Rep c p 1 (mulM aux c a b 1) (x * y) := by
  obtain ⟨h1, h2, h3⟩ := mulM_raw hF a b 1 (Or.inr rfl) hb ha
  refine ⟨h1, by omega, ?_⟩
  rw [cast_modEq h3, factor, if_pos rfl, Nat.cast_mul, hax, hby]

theorem Rep.ne_nil {k : Nat} {l : List W} {x : ZMod p} (h : Rep c p k l x) : l ≠ [] := by
  intro e
  have := hF.cpos
  have := h.len
  rw [e] at this; simp at this; omega

theorem mul_rr {k k' : Nat} {a b : List W} {x y : ZMod p} (ha : Rep c p k a x) (hb : Rep c p k' b y)
    (hk : k ≤ 2 ^ 7) : Rep c p 1 (mulM aux c a b 1) (x * y) :=
  mul_rep hF (ha.le.trans (Nat.mul_le_mul_right _ hk)) ha.res (Rep.ne_nil hF hb) hb.res

theorem add_rep {k k' : Nat} {a b : List W} {x y : ZMod p} (ha : Rep c p k a x) (hb : Rep c p k' b y)
    (hk : k + k' ≤ 2 ^ 40) : Rep c p (k + k') (addv c a b) (x + y) := by
  have h1 := ha.le
  have h2 := hb.le
  have h3 := hF.fit hk
  have hl : (addv c a b).length = c := length_addKernel _ _ _ _ _
  rw [Nat.add_mul] at h3
  have hpos : 0 < 2 ^ (32 * c) := by positivity
  have hv : val (addv c a b) = val a + val b :=
    nat_of_modEq hl (by push_cast; exact addv_modEq c a b) (by omega)
  refine ⟨hl, by rw [hv, Nat.add_mul]; omega, ?_⟩
  rw [hv, Nat.cast_add, ha.res, hb.res]

theorem mod_rep {k : Nat} {l : List W} {x : ZMod p} (h : Rep c p k l x) (hk : k < 2 ^ 40) :
    Rep c p 1 (aux.modfunc l) x := by
  have h1 := h.le
  have h2 : val l < p * 2 ^ 40 := by
    have : (k + 1) * p ≤ 2 ^ 40 * p := Nat.mul_le_mul_right _ hk
    have h3 := hF.two
    rw [Nat.add_mul] at this
    rw [Nat.mul_comm p]; omega
  refine ⟨hF.red.len l h.len, by rw [Nat.one_mul]; exact hF.red.le l h.len h2, ?_⟩
  rw [cast_modEq (hF.red.mod l h.len h2), h.res]

/-- From a congruence modulo the object size to the two's-complement value. -/
theorem sval_of_modEq {l : List W} {z : Int} (hl : l.length = c)
    (h : (val l : Int) ≡ z [ZMOD 2 ^ (32 * c)]) (h1 : -(2 ^ (32 * c) : Int) ≤ 2 * z)
    (h2 : 2 * z < 2 ^ (32 * c)) : sval l = z := by
  have hv := val_of_modEq hl h
  have hpos : (0:Int) < 2 ^ (32 * c) := by positivity
  unfold sval
  rw [hl]
  by_cases hz : 0 ≤ z
  · rw [Int.emod_eq_of_lt hz (by omega)] at hv
    have h3 : 2 * val l < 2 ^ (32 * c) := by
      have : (2 * (val l : Int)) < ((2 ^ (32 * c) : Nat) : Int) := by push_cast; omega
      exact_mod_cast this
    rw [if_pos h3, hv]
  · have e : z % 2 ^ (32 * c) = z + 2 ^ (32 * c) := by
      rw [← Int.add_emod_right, Int.emod_eq_of_lt (by omega) (by omega)]
    rw [e] at hv
    have h3 : ¬ 2 * val l < 2 ^ (32 * c) := by
      intro h4
      have : (2 * (val l : Int)) < ((2 ^ (32 * c) : Nat) : Int) := by exact_mod_cast h4
      push_cast at this; omega
    rw [if_neg h3, hv]; ring

theorem sub_rep {k k' : Nat} {a b : List W} {x y : ZMod p} (ha : Rep c p k a x) (hb : Rep c p k' b y)
    (hk : k + k' ≤ 2 ^ 40) : SRep c p (k + k') (subv c a b) (x - y) := by
  have h1 := ha.le
  have h2 := hb.le
  have h3 := hF.fit hk
  have h3' : (4 * ((k + k') * p) : Int) ≤ 2 ^ (32 * c) := by exact_mod_cast h3
  have h1' : (val a : Int) ≤ k * p := by exact_mod_cast h1
  have h2' : (val b : Int) ≤ k' * p := by exact_mod_cast h2
  have hl : (subv c a b).length = c := length_addKernel _ _ _ _ _
  have e : ((k:Int) + k') * p = k * p + k' * p := by ring
  have n1 : (0:Int) ≤ k * p := by positivity
  have n2 : (0:Int) ≤ k' * p := by positivity
  rw [e] at h3'
  have hpos : (0:Int) < 2 ^ (32 * c) := by positivity
  have hv : sval (subv c a b) = (val a : Int) - val b :=
    sval_of_modEq hF hl (subv_modEq c a b) (by omega) (by omega)
  refine ⟨hl, ?_, ?_, ?_⟩
  · rw [hv]; push_cast; rw [e]; omega
  · rw [hv]; push_cast; rw [e]; omega
  · rw [hv]; push_cast; rw [ha.res, hb.res]

theorem Rep.toS {k : Nat} {l : List W} {x : ZMod p} (h : Rep c p k l x) (hk : k ≤ 2 ^ 40) :
    SRep c p k l x := by
  have h1 := h.le
  have h3 := hF.fit hk
  have hs : sval l = val l := by
    unfold sval; rw [h.len, if_pos]
    have := hF.two
    rcases Nat.eq_zero_or_pos (k * p) with h0 | h0
    · have : 0 < 2 ^ (32 * c) := by positivity
      omega
    · omega
  have h1' : (val l : Int) ≤ k * p := by exact_mod_cast h1
  have n1 : (0:Int) ≤ k * p := by positivity
  refine ⟨h.len, by rw [hs]; omega, by rw [hs]; exact h1', by rw [hs]; push_cast; exact h.res⟩

theorem muls_rep {k : Nat} {out a : List W} {x : ZMod p} (w : W) (ha : Rep c p k a x)
    (ho : out.length = c) (hk : k * w.toNat ≤ 2 ^ 40) :
    Rep c p (k * w.toNat) (muls out a w false) ((w.toNat : ZMod p) * x) := by
  have h1 := ha.le
  have h3 := hF.fit hk
  have hm : val a * w.toNat ≤ k * w.toNat * p := by
    calc val a * w.toNat ≤ k * p * w.toNat := Nat.mul_le_mul_right _ h1
      _ = _ := by ring
  have hv : val (muls out a w false) = val a * w.toNat := by
    rw [val_muls, ho]
    simp only [Bool.false_eq_true, if_false, Nat.add_zero]
    apply Nat.mod_eq_of_lt
    have : 0 < 2 ^ (32 * c) := by positivity
    rcases Nat.eq_zero_or_pos (k * w.toNat * p) with h0 | h0
    · omega
    · omega
  refine ⟨by rw [length_muls, ho], by rw [hv]; exact hm, ?_⟩
  rw [hv, Nat.cast_mul, ha.res, mul_comm]

theorem muls_acc_rep {k k' : Nat} {out a : List W} {x y : ZMod p} (w : W) (ha : Rep c p k a x)
    (ho : Rep c p k' out y) (hk : k * w.toNat + k' ≤ 2 ^ 40) :
    Rep c p (k * w.toNat + k') (muls out a w true) ((w.toNat : ZMod p) * x + y) := by
  have h1 := ha.le
  have h2 := ho.le
  have h3 := hF.fit hk
  have hm : val a * w.toNat ≤ k * w.toNat * p := by
    calc val a * w.toNat ≤ k * p * w.toNat := Nat.mul_le_mul_right _ h1
      _ = _ := by ring
  rw [Nat.add_mul] at h3
  have hv : val (muls out a w true) = val a * w.toNat + val out := by
    rw [val_muls, ho.len]
    simp only [if_true]
    apply Nat.mod_eq_of_lt
    have : 0 < 2 ^ (32 * c) := by positivity
    rcases Nat.eq_zero_or_pos (k * w.toNat * p + k' * p) with h0 | h0
    · omega
    · omega
  refine ⟨by rw [length_muls, ho.len], by rw [hv, Nat.add_mul]; omega, ?_⟩
  rw [hv, Nat.cast_add, Nat.cast_mul, ha.res, ho.res, mul_comm]

theorem imuls_sval {k : Nat} {out a : List W} {x : ZMod p} (b : BitVec 64) (acc : Bool) (ha : Rep c p k a x)
    (hol : out.length = c) (hob : acc = true → val out ≤ 2 ^ 33 * p)
    (hb1 : -2 ^ 31 ≤ b.toInt) (hb2 : b.toInt < 2 ^ 31) (hk : k ≤ 2 ^ 7) :
    sval (imuls out a b acc) = (val a : Int) * b.toInt + (if acc then (val out : Int) else 0) := by
  have h1 := ha.le
  have h3 := hF.room
  have hp := hF.two
  have hl : (imuls out a b acc).length = c := by
    unfold imuls; rw [length_imulsLoop, hol]
  have hm := imuls_modEq out a b acc hb1 hb2
  rw [hol] at hm
  have h4 : (val a : Int) ≤ 2 ^ 7 * p := by
    have : val a ≤ 2 ^ 7 * p := h1.trans (Nat.mul_le_mul_right _ hk)
    exact_mod_cast this
  have h5 : (p : Int) * 2 ^ 42 ≤ 2 ^ (32 * c) := by exact_mod_cast h3
  have h6 : (0:Int) ≤ (if acc then (val out : Int) else 0) ∧
      (if acc then (val out : Int) else 0) ≤ 2 ^ 33 * p := by
    split
    · rename_i h
      exact ⟨by positivity, by exact_mod_cast hob h⟩
    · exact ⟨le_refl _, by positivity⟩
  have n0 : (0:Int) ≤ val a := by positivity
  have hp' : (2:Int) ≤ p := by exact_mod_cast hp
  have m1 : (val a : Int) * b.toInt ≤ 2 ^ 7 * p * 2 ^ 31 :=
    le_trans (mul_le_mul_of_nonneg_left (le_of_lt hb2) n0)
      (mul_le_mul_of_nonneg_right h4 (by norm_num))
  have m2 : -(2 ^ 7 * p * 2 ^ 31 : Int) ≤ (val a : Int) * b.toInt := by
    have e1 : (val a : Int) * (-2 ^ 31) ≤ (val a : Int) * b.toInt := mul_le_mul_of_nonneg_left hb1 n0
    have e2 : (val a : Int) * 2 ^ 31 ≤ 2 ^ 7 * p * 2 ^ 31 := mul_le_mul_of_nonneg_right h4 (by norm_num)
    linarith
  generalize hS : (if acc then (val out : Int) else 0) = S at *
  have hm' : (val (imuls out a b acc) : Int) ≡ (val a : Int) * b.toInt + S [ZMOD 2 ^ (32 * c)] := by
    rw [← hS]
    convert hm using 2
    cases acc <;> simp
  apply sval_of_modEq hF hl hm'
  · norm_num at *; linarith
  · norm_num at *; linarith

/-- `vlong_imuls(out, a, b, false)` followed by a signed reduction. -/
theorem imuls_rep {k : Nat} {out a : List W} {x : ZMod p} (b : BitVec 64) (ha : Rep c p k a x)
    (hol : out.length = c) (hb1 : -2 ^ 31 ≤ b.toInt) (hb2 : b.toInt < 2 ^ 31) (hk : k ≤ 2 ^ 7) :
    SRep c p (2 ^ 38) (imuls out a b false) ((b.toInt : ZMod p) * x) := by
  have hv := imuls_sval hF b false ha hol (by simp) hb1 hb2 hk (out := out)
  simp only [Bool.false_eq_true, if_false, add_zero] at hv
  have h4 : (val a : Int) ≤ 2 ^ 7 * p := by
    have : val a ≤ 2 ^ 7 * p := ha.le.trans (Nat.mul_le_mul_right _ hk)
    exact_mod_cast this
  have n0 : (0:Int) ≤ val a := by positivity
  refine ⟨by unfold imuls; rw [length_imulsLoop, hol], ?_, ?_, ?_⟩
  · rw [hv]
    have e1 : (val a : Int) * (-2 ^ 31) ≤ (val a : Int) * b.toInt := mul_le_mul_of_nonneg_left hb1 n0
    norm_num at *; linarith
  · rw [hv]
    have e1 : (val a : Int) * b.toInt ≤ (val a : Int) * 2 ^ 31 :=
      mul_le_mul_of_nonneg_left (le_of_lt hb2) n0
    norm_num at *; linarith
  · rw [hv]; push_cast; rw [ha.res, mul_comm]

/-- `vlong_imuls(out, a, b, true)`. -/
theorem imuls_acc_rep {k k' : Nat} {out a : List W} {x y : ZMod p} (b : BitVec 64) (ha : Rep c p k a x)
    (ho : Rep c p k' out y) (hk' : k' ≤ 2 ^ 33) (hb1 : -2 ^ 31 ≤ b.toInt) (hb2 : b.toInt < 2 ^ 31)
    (hk : k ≤ 2 ^ 7) :
    SRep c p (2 ^ 39) (imuls out a b true) ((b.toInt : ZMod p) * x + y) := by
  have hob : val out ≤ 2 ^ 33 * p := ho.le.trans (Nat.mul_le_mul_right _ hk')
  have hv := imuls_sval hF b true ha ho.len (fun _ => hob) hb1 hb2 hk
  simp only [if_true] at hv
  have h4 : (val a : Int) ≤ 2 ^ 7 * p := by
    have : val a ≤ 2 ^ 7 * p := ha.le.trans (Nat.mul_le_mul_right _ hk)
    exact_mod_cast this
  have n0 : (0:Int) ≤ val a := by positivity
  have n1 : (0:Int) ≤ val out := by positivity
  have h5 : (val out : Int) ≤ 2 ^ 33 * p := by exact_mod_cast hob
  have hp' : (2:Int) ≤ p := by exact_mod_cast hF.two
  refine ⟨by unfold imuls; rw [length_imulsLoop, ho.len], ?_, ?_, ?_⟩
  · rw [hv]
    have e1 : (val a : Int) * (-2 ^ 31) ≤ (val a : Int) * b.toInt := mul_le_mul_of_nonneg_left hb1 n0
    norm_num at *; linarith
  · rw [hv]
    have e1 : (val a : Int) * b.toInt ≤ (val a : Int) * 2 ^ 31 :=
      mul_le_mul_of_nonneg_left (le_of_lt hb2) n0
    norm_num at *; linarith
  · rw [hv]; push_cast; rw [ha.res, ho.res, mul_comm]

/-- `vlong_imuls(out, a, b, false)` with a small non-negative multiplier needs no signed reduction. -/
theorem imuls_pos_rep {k : Nat} {out a : List W} {x : ZMod p} (b : BitVec 64) (m : Nat) (hbm : b.toInt = m)
    (hm : m ≤ 2 ^ 30) (ha : Rep c p k a x) (hol : out.length = c) (hk : k ≤ 2 ^ 7) :
    Rep c p (k * m) (imuls out a b false) ((m : ZMod p) * x) := by
  have hv := imuls_sval hF b false ha hol (by simp) (by rw [hbm]; omega)
    (by rw [hbm]; omega) hk (out := out)
  simp only [Bool.false_eq_true, if_false, add_zero] at hv
  have hl : (imuls out a b false).length = c := by unfold imuls; rw [length_imulsLoop, hol]
  have hvv : val (imuls out a b false) = val a * m := by
    unfold sval at hv
    rw [hbm] at hv
    have n0 : (0:Int) ≤ (val a : Int) * m := by positivity
    split at hv
    · exact_mod_cast hv
    · have h1 := val_lt (imuls out a b false)
      have h2 : (val (imuls out a b false) : Int) < 2 ^ (32 * (imuls out a b false).length) := by
        exact_mod_cast h1
      omega
  refine ⟨hl, ?_, ?_⟩
  · rw [hvv]
    calc val a * m ≤ k * p * m := Nat.mul_le_mul_right _ ha.le
      _ = _ := by ring
  · rw [hvv, Nat.cast_mul, ha.res, mul_comm]

theorem cpy_rep {k : Nat} {l : List W} {x : ZMod p} (h : Rep c p k l x) : Rep c p k (cpy c l) x := by
  have e : cpy c l = l := by
    apply val_inj
    · rw [length_cpy, h.len]
    · rw [val_cpy, ← h.len, Nat.mod_eq_of_lt (val_lt l)]
  rw [e]; exact h

/-- `ecp_imod_inplace`. -/
theorem imod_rep {k : Nat} {rem : List W} {x : ZMod p} (h : SRep c p k rem x) (hk : k < 2 ^ 40) :
    Rep c p 1 (imod aux rem) x := by
  have hc := hF.cpos
  have h0 : 0 < rem.length := by rw [h.len]; exact hc
  have hlo := h.lo
  have hhi := h.hi
  have hres := h.res
  have hlen := h.len
  have hp := hF.two
  have hkp : (k * p : Nat) < p * 2 ^ 40 := by
    have : (k + 1) * p ≤ 2 ^ 40 * p := Nat.mul_le_mul_right _ hk
    rw [Nat.add_mul] at this
    rw [Nat.mul_comm p]; omega
  unfold imod
  simp only
  rw [top_bit rem h0]
  have hl := val_lt rem
  unfold sval at hlo hhi hres
  by_cases hs : 2 * val rem < 2 ^ (32 * rem.length)
  · rw [if_pos hs] at hlo hhi hres
    simp only [hs, if_true]
    rw [map_xor_zero]
    have ha : adds rem.length rem (BitVec.setWidth 64 ((0 : W) &&& 1)) 0 = rem := by
      apply val_inj
      · exact length_addKernel _ _ _ _ _
      · have e : BitVec.setWidth 64 ((0 : W) &&& 1) = 0 := by decide
        rw [e]
        have h := val_of_modEq (length_addKernel _ _ _ _ _)
          (adds_modEq rem.length rem 0 0 (by decide) (by decide))
        rw [show (0 : BitVec 64).toInt = 0 from rfl, Int.zero_mul, add_zero,
          Int.emod_eq_of_lt (by omega) (by exact_mod_cast hl)] at h
        exact_mod_cast h
    rw [ha]
    have e : ∀ x : W, (0 : W) &&& x = 0 := by intro x; simp
    rw [e, imodLoop_pos]
    have hb : val rem < p * 2 ^ 40 := by
      have : val rem ≤ k * p := by exact_mod_cast hhi
      omega
    refine ⟨hF.red.len _ hlen, by rw [Nat.one_mul]; exact hF.red.le _ hlen hb, ?_⟩
    rw [cast_modEq (hF.red.mod _ hlen hb)]
    exact_mod_cast hres
  · rw [if_neg hs] at hlo hhi hres
    simp only [hs, if_false]
    set rem1 := rem.map (· ^^^ BitVec.allOnes 32) with hrem1
    have hl1 : rem1.length = rem.length := by simp [hrem1]
    have hv1 : val rem1 = 2 ^ (32 * rem.length) - 1 - val rem := val_map_not rem
    set rem2 := adds rem1.length rem1 (BitVec.setWidth 64 (BitVec.allOnes 32 &&& 1)) 0 with hrem2
    have hl2 : rem2.length = rem.length := by rw [hrem2, adds, length_addKernel, hl1]
    have hv2 : val rem2 = 2 ^ (32 * rem.length) - val rem := by
      have e : BitVec.setWidth 64 (BitVec.allOnes 32 &&& 1) = 1 := by decide
      have h := val_of_modEq (length_addKernel _ _ _ _ _)
          (adds_modEq rem1.length rem1 1 0 (by decide) (by decide))
      rw [← e, ← adds, ← hrem2, e, show (1 : BitVec 64).toInt = 1 from rfl, hv1, hl1] at h
      have hp : (1 : Nat) ≤ 2 ^ (32 * rem.length) := Nat.one_le_two_pow
      rw [Int.emod_eq_of_lt] at h
      · simp at h; omega
      · omega
      · have : (0 : Nat) < val rem := by omega
        have h3 : ((2 ^ (32 * rem.length) - 1 - val rem : Nat) : Int) + 1 < ((2 ^ (32 * rem.length) : Nat) : Int) := by
          omega
        simpa using h3
    have hcast : ((val rem : Nat) : Int) - 2 ^ (32 * rem.length) = -((val rem2 : Nat) : Int) := by
      rw [hv2]
      have : ((2 ^ (32 * rem.length) - val rem : Nat) : Int) = ((2 ^ (32 * rem.length) : Nat) : Int) - val rem := by
        omega
      rw [this]; push_cast; ring
    rw [hcast] at hlo hres
    have hb2 : val rem2 < p * 2 ^ 40 := by
      have : (val rem2 : Int) ≤ k * p := by omega
      have : val rem2 ≤ k * p := by exact_mod_cast this
      omega
    have hrl := hF.red.len rem2 (by omega)
    have hrm := cast_modEq (hF.red.mod rem2 (by omega) hb2)
    have hrle := hF.red.le rem2 (by omega) hb2
    set r := aux.modfunc rem2 with hr
    rw [BitVec.allOnes_and, nzMask_eq]
    have hz := foldl_or_zero r 0
    push_cast at hres
    rw [← hrm] at hres
    by_cases hr0 : val r = 0
    · rw [if_pos (hz.mpr ⟨rfl, hr0⟩), imodLoop_pos]
      refine ⟨hrl, by omega, ?_⟩
      rw [hr0] at hres ⊢
      simpa using hres
    · rw [if_neg (fun h => hr0 (hz.mp h).2)]
      have hctx := hF.ctx
      obtain ⟨g1, g2⟩ := imodLoop_neg aux.modCtx r (by rw [hrl]; exact hF.len) (by omega)
      refine ⟨by rw [g1, hrl], by rw [g2]; omega, ?_⟩
      rw [g2, hctx, Nat.cast_sub hrle, ← hres]
      simp

end

end Ec
