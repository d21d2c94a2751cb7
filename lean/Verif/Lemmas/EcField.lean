import Verif.Model.EcField
import Verif.Lemmas.VlongMul

/-! # The special-form reductions -/

namespace Ec
open Vlong Spec

theorem val_set_zero (l : List W) (t : Nat) :
    val (l.set t 0) + (rd l t).toNat * 2 ^ (32 * t) = val l := by
  induction l generalizing t with
  | nil => simp [rd_nil, val]
  | cons w l ih =>
    cases t with
    | zero => simp [rd_cons_zero, val]; omega
    | succ t =>
      simp only [List.set_cons_succ, val, rd_cons_succ]
      have h := ih t
      have e : 2 ^ (32 * (t + 1)) = 2 ^ 32 * 2 ^ (32 * t) := by
        rw [← Nat.pow_add]; congr 1; omega
      rw [e, ← h]
      ring

/-- The integer a fold table adds per unit of the word taken out at position `t`. -/
def tsum (t : Nat) : List (Int × Nat) → Int
  | [] => 0
  | ko :: tbl => ko.1 * 2 ^ (32 * (t - ko.2)) + tsum t tbl

theorem tsum_shift (n k : Nat) (tbl : List (Int × Nat)) (h : ∀ ko ∈ tbl, ko.2 ≤ n) :
    tsum (n + k) tbl = tsum n tbl * 2 ^ (32 * k) := by
  induction tbl with
  | nil => simp [tsum]
  | cons ko tbl ih =>
    have h1 := h ko (by simp)
    rw [tsum, tsum, ih (fun x hx => h x (by simp [hx]))]
    have e : 32 * (n + k - ko.2) = 32 * (n - ko.2) + 32 * k := by omega
    rw [e, pow_add]; ring

theorem ofInt_small {z : Int} (h1 : -2 ^ 62 < z) (h2 : z < 2 ^ 62) : (BitVec.ofInt 64 z).toInt = z := by
  rw [BitVec.toInt_ofInt]
  apply Int.bmod_eq_of_le <;> norm_num <;> omega

theorem addsTable_val (tbl : List (Int × Nat)) (t : Nat) (b : W) (rem : List W)
    (h : ∀ ko ∈ tbl, -2 ^ 29 < ko.1 ∧ ko.1 < 2 ^ 29) :
    (addsTable tbl t b rem).length = rem.length ∧
      (val (addsTable tbl t b rem) : Int) ≡ val rem + b.toNat * tsum t tbl [ZMOD 2 ^ (32 * rem.length)] := by
  unfold addsTable
  induction tbl generalizing rem with
  | nil => simp [tsum]
  | cons ko tbl ih =>
    rw [List.foldl_cons]
    obtain ⟨k1, k2⟩ := h ko (by simp)
    have hb := b.isLt
    have hz : (BitVec.ofInt 64 (ko.1 * (b.toNat : Int))).toInt = ko.1 * b.toNat := by
      apply ofInt_small
      · nlinarith
      · nlinarith
    have hz2 := hz
    have ha := adds_modEq rem.length rem (BitVec.ofInt 64 (ko.1 * (b.toNat : Int))) (t - ko.2)
      (by rw [hz]; nlinarith) (by rw [hz]; nlinarith)
    rw [hz] at ha
    have hl : (adds rem.length rem (BitVec.ofInt 64 (ko.1 * (b.toNat : Int))) (t - ko.2)).length = rem.length :=
      length_addKernel _ _ _ _ _
    obtain ⟨i1, i2⟩ := ih (adds rem.length rem (BitVec.ofInt 64 (ko.1 * (b.toNat : Int))) (t - ko.2))
      (fun x hx => h x (by simp [hx]))
    rw [hl] at i1 i2
    refine ⟨i1, i2.trans ?_⟩
    refine (ha.add_right _).trans (modEq_of_eq ?_)
    rw [tsum]; ring

/-- What a fold table must satisfy for `n`-word primes: its sum is the natural number `K`. -/
structure TblOk (tbl : List (Int × Nat)) (n K : Nat) : Prop where
  small : ∀ ko ∈ tbl, -2 ^ 29 < ko.1 ∧ ko.1 < 2 ^ 29
  off : ∀ ko ∈ tbl, ko.2 ≤ n
  sum : tsum n tbl = K

theorem nat_of_modEq {l : List W} {c z : Nat} (hl : l.length = c)
    (h : (val l : Int) ≡ (z : Int) [ZMOD 2 ^ (32 * c)]) (hz : z < 2 ^ (32 * c)) : val l = z := by
  have h1 := val_of_modEq hl h
  rw [Int.emod_eq_of_lt (by omega) (by exact_mod_cast hz)] at h1
  exact_mod_cast h1

/-- One fold, as arithmetic. -/
theorem foldOnce_val {tbl : List (Int × Nat)} {n K : Nat} (ht : TblOk tbl n K) (k : Nat) (rem : List W)
    (hV : val rem < 2 ^ (32 * (n + k + 1)))
    (hb : val rem % 2 ^ (32 * (n + k)) + val rem / 2 ^ (32 * (n + k)) * (K * 2 ^ (32 * k)) < 2 ^ (32 * rem.length)) :
    (foldOnce tbl (n + k) rem).length = rem.length ∧
      val (foldOnce tbl (n + k) rem) =
        val rem % 2 ^ (32 * (n + k)) + val rem / 2 ^ (32 * (n + k)) * (K * 2 ^ (32 * k)) := by
  obtain ⟨h1, h2⟩ := addsTable_val tbl (n + k) (rd rem (n + k)) (rem.set (n + k) 0) ht.small
  rw [List.length_set] at h1 h2
  refine ⟨h1, nat_of_modEq h1 ?_ hb⟩
  refine h2.trans (modEq_of_eq ?_)
  rw [tsum_shift n k tbl ht.off, ht.sum]
  have hr : (rd rem (n + k)).toNat = val rem / 2 ^ (32 * (n + k)) := by
    rw [rd_eq_ofNat, BitVec.toNat_ofNat, Nat.shiftRight_eq_div_pow, Nat.mod_eq_of_lt]
    rw [Nat.div_lt_iff_lt_mul (by positivity)]
    have e : 32 * (n + k + 1) = 32 + 32 * (n + k) := by omega
    rw [e, Nat.pow_add] at hV; exact hV
  have hs := val_set_zero rem (n + k)
  rw [hr] at hs
  have hd := Nat.div_add_mod (val rem) (2 ^ (32 * (n + k)))
  have hm : val (rem.set (n + k) 0) = val rem % 2 ^ (32 * (n + k)) := by
    have : 2 ^ (32 * (n + k)) * (val rem / 2 ^ (32 * (n + k))) = val rem / 2 ^ (32 * (n + k)) * 2 ^ (32 * (n + k)) :=
      Nat.mul_comm _ _
    omega
  rw [hm, hr]
  push_cast
  rfl

theorem fold_modEq {K n p : Nat} (hp : 2 ^ (32 * n) ≡ K [MOD p]) (V k : Nat) :
    V % 2 ^ (32 * (n + k)) + V / 2 ^ (32 * (n + k)) * (K * 2 ^ (32 * k)) ≡ V [MOD p] := by
  have h : V / 2 ^ (32 * (n + k)) * (K * 2 ^ (32 * k)) ≡ V / 2 ^ (32 * (n + k)) * (2 ^ (32 * n) * 2 ^ (32 * k)) [MOD p] :=
    Nat.ModEq.mul_left _ (hp.symm.mul_right _)
  have h2 := h.add_left (V % 2 ^ (32 * (n + k)))
  have e : V % 2 ^ (32 * (n + k)) + V / 2 ^ (32 * (n + k)) * (2 ^ (32 * n) * 2 ^ (32 * k)) = V := by
    rw [← Nat.pow_add, ← Nat.mul_add, Nat.mul_comm (V / _)]
    exact Nat.mod_add_div _ _
  rw [e] at h2; exact h2

/-- Arithmetic of two folds at word `t` when `K * 2^32` does not exceed the modulus power:
`T = 2^(32 t)`, `X = 2^(32 (t-n))`, `Q = K * X`. -/
theorem two_folds {V T Q : Nat} (hT : 0 < T) (hQ : Q * 2 ^ 32 ≤ T) (hV : V < 2 ^ 32 * T) :
    V % T + V / T * Q < 2 * T ∧
      (V % T + V / T * Q) % T + (V % T + V / T * Q) / T * Q < T := by
  have hb : V / T < 2 ^ 32 := by rw [Nat.div_lt_iff_lt_mul hT]; exact hV
  have hr := Nat.mod_lt V hT
  have h1 : V / T * Q ≤ (2 ^ 32 - 1) * Q := Nat.mul_le_mul_right _ (by omega)
  have h2 : (2 ^ 32 - 1) * Q + Q ≤ T := by
    have : (2 ^ 32 - 1) * Q + Q = Q * 2 ^ 32 := by
      norm_num; ring
    omega
  have h3 : V % T + V / T * Q < 2 * T := by omega
  refine ⟨h3, ?_⟩
  generalize hU : V % T + V / T * Q = U at *
  by_cases hc : U < T
  · rw [Nat.mod_eq_of_lt hc, Nat.div_eq_of_lt hc]; simpa using hc
  · have hd : U / T = 1 := by
      rw [Nat.div_eq_iff hT]; omega
    have hm : U % T = U - T := by
      have := Nat.mod_add_div U T; rw [hd] at this; omega
    rw [hd, hm]; omega

theorem foldLoop_val {tbl : List (Int × Nat)} {n K p : Nat} (ht : TblOk tbl n K)
    (hp : 2 ^ (32 * n) ≡ K [MOD p]) (hK : K * 2 ^ 32 ≤ 2 ^ (32 * n)) (k : Nat) (rem : List W)
    (hl : n + k ≤ rem.length) (hV : val rem < 2 ^ (32 * (n + k))) :
    (foldLoop tbl n k rem).length = rem.length ∧ val (foldLoop tbl n k rem) < 2 ^ (32 * n) ∧
      val (foldLoop tbl n k rem) ≡ val rem [MOD p] := by
  induction k generalizing rem with
  | zero => exact ⟨rfl, hV, Nat.ModEq.refl _⟩
  | succ k ih =>
    have hT : 0 < 2 ^ (32 * (n + k)) := by positivity
    have hQ : K * 2 ^ (32 * k) * 2 ^ 32 ≤ 2 ^ (32 * (n + k)) := by
      rw [Nat.mul_add, Nat.pow_add, Nat.mul_right_comm]
      exact Nat.mul_le_mul_right _ hK
    have hV' : val rem < 2 ^ 32 * 2 ^ (32 * (n + k)) := by
      rw [← Nat.pow_add]
      have : 32 + 32 * (n + k) = 32 * (n + (k + 1)) := by omega
      rw [this]; exact hV
    obtain ⟨b1, b2⟩ := two_folds hT hQ hV'
    have hbig : 2 * 2 ^ (32 * (n + k)) ≤ 2 ^ (32 * rem.length) := by
      calc 2 * 2 ^ (32 * (n + k)) = 2 ^ (1 + 32 * (n + k)) := by rw [Nat.pow_add]
        _ ≤ _ := Nat.pow_le_pow_right (by decide) (by omega)
    obtain ⟨l1, v1⟩ := foldOnce_val ht k rem hV (by omega)
    have hmod1 := fold_modEq hp (val rem) k
    rw [← v1] at hmod1 b1 b2
    have hlt : val (foldOnce tbl (n + k) rem) < 2 ^ (32 * (n + k + 1)) := by
      have : 2 * 2 ^ (32 * (n + k)) ≤ 2 ^ (32 * (n + k + 1)) := by
        calc 2 * 2 ^ (32 * (n + k)) = 2 ^ (1 + 32 * (n + k)) := by rw [Nat.pow_add]
          _ ≤ _ := Nat.pow_le_pow_right (by decide) (by omega)
      omega
    obtain ⟨l2, v2⟩ := foldOnce_val ht k (foldOnce tbl (n + k) rem) hlt (by rw [l1]; omega)
    have hmod2 := fold_modEq hp (val (foldOnce tbl (n + k) rem)) k
    rw [← v2] at hmod2 b2
    obtain ⟨g1, g2, g3⟩ := ih (foldOnce tbl (n + k) (foldOnce tbl (n + k) rem)) (by omega) b2
    exact ⟨by rw [foldLoop, g1, l2, l1], g2, g3.trans (hmod2.trans hmod1)⟩

/-- Words above the value are left alone by the fold loop. -/
theorem foldLoop_skip {tbl : List (Int × Nat)} {n K : Nat} (ht : TblOk tbl n K) (j k : Nat) (rem : List W)
    (hl : n + k + j ≤ rem.length) (hV : val rem < 2 ^ (32 * (n + k))) :
    foldLoop tbl n (k + j) rem = foldLoop tbl n k rem := by
  induction j with
  | zero => rfl
  | succ j ih =>
    have hlt : val rem < 2 ^ (32 * (n + (k + j))) :=
      lt_of_lt_of_le hV (Nat.pow_le_pow_right (by decide) (by omega))
    have hlt2 : val rem < 2 ^ (32 * (n + (k + j) + 1)) :=
      lt_of_lt_of_le hV (Nat.pow_le_pow_right (by decide) (by omega))
    have hid : foldOnce tbl (n + (k + j)) rem = rem := by
      have hz : val rem % 2 ^ (32 * (n + (k + j))) +
          val rem / 2 ^ (32 * (n + (k + j))) * (K * 2 ^ (32 * (k + j))) = val rem := by
        rw [Nat.mod_eq_of_lt hlt, Nat.div_eq_of_lt hlt]; simp
      obtain ⟨h1, h2⟩ := foldOnce_val ht (k + j) rem hlt2 (by rw [hz]; exact val_lt rem)
      rw [hz] at h2
      exact val_inj h1 h2
    rw [← Nat.add_assoc, foldLoop, hid, hid]
    exact ih (by omega)

/-! ### The final conditional subtraction -/

theorem finCmp_eq (rem p : List W) (t : Nat) (res : W) : finCmp rem p t res = cmpvLoop rem p 0 t res := by
  induction t generalizing res with
  | zero => rfl
  | succ t ih =>
    simp only [finCmp, cmpvLoop]
    rw [ih]
    have : wordShifted p t 0 = rd p t := by simp [wordShifted]
    rw [this]

theorem val_map_and (l : List W) (u : W) (h : u = 0 ∨ u = BitVec.allOnes 32) :
    val (l.map (· &&& u)) = if u = 0 then 0 else val l := by
  rcases h with h | h
  · subst h
    rw [if_pos rfl]
    induction l with
    | nil => rfl
    | cons w l ih => rw [List.map_cons, val, ih]; simp
  · subst h
    rw [if_neg (by decide)]
    congr 1
    have : (fun x : W => x &&& BitVec.allOnes 32) = id := by
      funext x; exact BitVec.and_allOnes
    rw [this, List.map_id]

/-- The tail of every reduction: subtract `p` once if the value *exceeds* `p`. -/
theorem finSub_val (rem p : List W) (hl : p.length ≤ rem.length) :
    (finSub rem p).length = rem.length ∧
      val (finSub rem p) = if val p < val rem then val rem - val p else val rem := by
  unfold finSub
  simp only
  have hvr := val_lt rem
  have hvp : val p < 2 ^ (32 * rem.length) :=
    lt_of_lt_of_le (val_lt p) (Nat.pow_le_pow_right (by decide) (by omega))
  rw [finCmp_eq, cmpvLoop_eq, Nat.shiftLeft_zero, Nat.mod_eq_of_lt hvr, Nat.mod_eq_of_lt hvp]
  have hu : (0 - ((BitVec.sshiftRight ((cmpRes (val rem) (val p) ^^^ 1) - 1) 8) &&& 1) : W) =
      if val p < val rem then BitVec.allOnes 32 else 0 := by
    unfold cmpRes
    rcases Nat.lt_trichotomy (val rem) (val p) with h | h | h
    · rw [if_pos h, if_neg (by omega)]; decide
    · rw [if_neg (by omega), if_pos h, if_neg (by omega)]; decide
    · rw [if_neg (by omega), if_neg (by omega), if_pos h]; decide
  rw [hu]
  refine ⟨length_addKernel _ _ _ _ _, ?_⟩
  apply nat_of_modEq (length_addKernel _ _ _ _ _)
  · refine (subv_modEq _ _ _).trans (modEq_of_eq ?_)
    rw [val_map_and _ _ (by split <;> simp)]
    split
    · rw [if_neg (by decide)]; omega
    · rw [if_pos rfl]; simp
  · split <;> omega

/-! ### The extra step of `modp25519.c` -/

theorem val_modify (l : List W) (t : Nat) (f : W → W) (ht : t < l.length) :
    val (l.modify t f) + (rd l t).toNat * 2 ^ (32 * t) = val l + (f (rd l t)).toNat * 2 ^ (32 * t) := by
  induction l generalizing t with
  | nil => simp at ht
  | cons w l ih =>
    cases t with
    | zero => simp [rd_cons_zero, val]; omega
    | succ t =>
      simp only [List.modify_succ_cons, val, rd_cons_succ]
      have h := ih t (by simpa using ht)
      have e : 2 ^ (32 * (t + 1)) = 2 ^ 32 * 2 ^ (32 * t) := by
        rw [← Nat.pow_add]; congr 1; omega
      rw [e]
      have h2 := congrArg (2 ^ 32 * ·) h
      simp only [Nat.mul_add] at h2
      have e1 : (rd l t).toNat * (2 ^ 32 * 2 ^ (32 * t)) = 2 ^ 32 * ((rd l t).toNat * 2 ^ (32 * t)) := by ring
      have e2 : (f (rd l t)).toNat * (2 ^ 32 * 2 ^ (32 * t)) = 2 ^ 32 * ((f (rd l t)).toNat * 2 ^ (32 * t)) := by ring
      rw [e1, e2]
      omega

theorem foldTop_val (rem : List W) (hl : 8 ≤ rem.length) (hV : val rem < 2 ^ 256) :
    (foldTop25519 rem).length = rem.length ∧
      val (foldTop25519 rem) = val rem % 2 ^ 255 + val rem / 2 ^ 255 * 19 := by
  unfold foldTop25519
  simp only
  have hr : (rd rem 7).toNat = val rem / 2 ^ 224 := by
    rw [rd_eq_ofNat, BitVec.toNat_ofNat, Nat.shiftRight_eq_div_pow, Nat.mod_eq_of_lt]
    rw [Nat.div_lt_iff_lt_mul (by positivity)]
    have e : (2:Nat) ^ 256 = 2 ^ 32 * 2 ^ (32 * 7) := by norm_num
    rw [e] at hV; exact hV
  have hb : (rd rem 7 >>> 31).toNat = val rem / 2 ^ 255 := by
    rw [BitVec.toNat_ushiftRight, hr, Nat.shiftRight_eq_div_pow, Nat.div_div_eq_div_mul, ← Nat.pow_add]
  have ha : (rd rem 7 &&& 0x7fffffff#32).toNat = val rem / 2 ^ 224 % 2 ^ 31 := by
    rw [BitVec.toNat_and, hr, show (0x7fffffff#32).toNat = 2 ^ 31 - 1 from rfl, Nat.and_two_pow_sub_one_eq_mod]
  have hm := val_modify rem 7 (· &&& 0x7fffffff#32) (by omega)
  rw [hr] at hm
  simp only [ha] at hm
  have hmv : val (rem.modify 7 (· &&& 0x7fffffff#32)) = val rem % 2 ^ 255 := by
    norm_num at hm hV ⊢
    omega
  set rem1 := rem.modify 7 (· &&& 0x7fffffff#32) with hrem1
  have hl1 : rem1.length = rem.length := by simp [hrem1]
  have hs : val rem / 2 ^ 255 < 2 := by
    rw [Nat.div_lt_iff_lt_mul (by positivity)]; norm_num at hV ⊢; omega
  have hz : (BitVec.ofNat 64 ((rd rem 7 >>> 31).toNat * 19)).toInt = (val rem / 2 ^ 255 * 19 : Nat) := by
    rw [hb]
    have : val rem / 2 ^ 255 = 0 ∨ val rem / 2 ^ 255 = 1 := by omega
    rcases this with h | h <;> rw [h] <;> rfl
  have hadd := adds_modEq rem1.length rem1 (BitVec.ofNat 64 ((rd rem 7 >>> 31).toNat * 19)) 0
    (by rw [hz]; omega) (by rw [hz]; omega)
  have hlen : (adds rem1.length rem1 (BitVec.ofNat 64 ((rd rem 7 >>> 31).toNat * 19)) 0).length = rem1.length :=
    length_addKernel _ _ _ _ _
  change (adds rem1.length rem1 (BitVec.ofNat 64 ((rd rem 7 >>> 31).toNat * 19)) 0).length = _ ∧
    val (adds rem1.length rem1 (BitVec.ofNat 64 ((rd rem 7 >>> 31).toNat * 19)) 0) = _
  refine ⟨by rw [hlen, hl1], nat_of_modEq hlen ?_ ?_⟩
  · refine hadd.trans (modEq_of_eq ?_)
    rw [hz, hmv]; push_cast; ring
  · have h1 : (2:Nat) ^ 256 ≤ 2 ^ (32 * rem1.length) := Nat.pow_le_pow_right (by decide) (by omega)
    have h2 := Nat.mod_lt (val rem) (show 0 < 2 ^ 255 by positivity)
    have h3 : (2:Nat) ^ 256 = 2 * 2 ^ 255 := by norm_num
    omega

/-! ### The five reductions -/

/-- What the curve code needs from a reduction callback on `c`-word objects: congruence modulo the
modulus, and a result of at most the modulus (not necessarily below it), for every input below `B`. -/
structure RedOk (f : List W → List W) (p c B : Nat) : Prop where
  len : ∀ l : List W, l.length = c → (f l).length = c
  mod : ∀ l : List W, l.length = c → val l < B → val (f l) ≡ val l [MOD p]
  le : ∀ l : List W, l.length = c → val l < B → val (f l) ≤ p

theorem condSub_le {v p : Nat} (h : v ≤ 2 * p) : (if p < v then v - p else v) ≤ p := by
  split <;> omega

theorem condSub_mod (v p : Nat) : (if p < v then v - p else v) ≡ v [MOD p] := by
  split
  · rename_i h
    have : v = (v - p) + p := by omega
    conv_rhs => rw [this]
    exact (Nat.add_modEq_right).symm
  · exact Nat.ModEq.refl _

theorem length_foldLoop (tbl : List (Int × Nat)) (n k : Nat) (rem : List W)
    (h : ∀ ko ∈ tbl, -2 ^ 29 < ko.1 ∧ ko.1 < 2 ^ 29) : (foldLoop tbl n k rem).length = rem.length := by
  induction k generalizing rem with
  | zero => rfl
  | succ k ih =>
    rw [foldLoop, ih, foldOnce, (addsTable_val _ _ _ _ h).1, List.length_set, foldOnce,
      (addsTable_val _ _ _ _ h).1, List.length_set]

/-- The three reductions without an extra step: the callback shape is shared. -/
theorem redOk_of_fold {tbl : List (Int × Nat)} {n K : Nat} {pw : List W} (ht : TblOk tbl n K)
    (hpl : pw.length = n) (hp : 2 ^ (32 * n) ≡ K [MOD val pw]) (hK : K * 2 ^ 32 ≤ 2 ^ (32 * n))
    (h2p : 2 ^ (32 * n) ≤ 2 * val pw) (hn : 0 < n) (hsm : 2 ^ (32 * (n - 1)) ≤ val pw)
    (l : List W) :
    let f := fun rem : List W => if rem.length < n then rem else finSub (foldLoop tbl n (rem.length - n) rem) pw
    (f l).length = l.length ∧ val (f l) ≡ val l [MOD val pw] ∧ val (f l) ≤ val pw := by
  intro f
  by_cases hl : l.length < n
  · simp only [f, if_pos hl]
    refine ⟨trivial, Nat.ModEq.refl _, ?_⟩
    have := val_lt l
    have h1 : 2 ^ (32 * l.length) ≤ 2 ^ (32 * (n - 1)) := Nat.pow_le_pow_right (by decide) (by omega)
    omega
  · simp only [f, if_neg hl]
    have hV := val_lt l
    have e : l.length = n + (l.length - n) := by omega
    obtain ⟨h1, h2, h3⟩ := foldLoop_val ht hp hK (l.length - n) l (by omega) (by rw [← e]; exact hV)
    obtain ⟨g1, g2⟩ := finSub_val (foldLoop tbl n (l.length - n) l) pw (by omega)
    refine ⟨by rw [g1, h1], ?_, ?_⟩
    · rw [g2]; exact (condSub_mod _ _).trans h3
    · rw [g2]; exact condSub_le (by omega)

def K256 : Nat := 2 ^ 224 - 2 ^ 192 - 2 ^ 96 + 1
def K384 : Nat := 2 ^ 128 + 2 ^ 96 - 2 ^ 32 + 1
def KSM2 : Nat := 2 ^ 224 + 2 ^ 96 - 2 ^ 64 + 1
def K448 : Nat := 2 ^ 224 + 1

theorem val_p256 : val p256 = 2 ^ 256 - 2 ^ 224 + 2 ^ 192 + 2 ^ 96 - 1 := by decide +kernel
theorem val_p384 : val p384 = 2 ^ 384 - 2 ^ 128 - 2 ^ 96 + 2 ^ 32 - 1 := by decide +kernel
theorem val_pSM2 : val pSM2 = 2 ^ 256 - 2 ^ 224 - 2 ^ 96 + 2 ^ 64 - 1 := by decide +kernel
theorem val_p25519 : val p25519 = 2 ^ 255 - 19 := by decide +kernel
theorem val_p448 : val p448 = 2 ^ 448 - 2 ^ 224 - 1 := by decide +kernel

theorem tbl256_ok : TblOk tbl256 8 K256 := ⟨by decide, by decide, by decide +kernel⟩
theorem tbl384_ok : TblOk tbl384 12 K384 := ⟨by decide, by decide, by decide +kernel⟩
theorem tblSM2_ok : TblOk tblSM2 8 KSM2 := ⟨by decide, by decide, by decide +kernel⟩
theorem tbl25519_ok : TblOk tbl25519 8 38 := ⟨by decide, by decide, by decide +kernel⟩
theorem tbl448_ok : TblOk tbl448 14 K448 := ⟨by decide, by decide, by decide +kernel⟩

theorem remv256_val (l : List W) : (remv256 l).length = l.length ∧
    val (remv256 l) ≡ val l [MOD val p256] ∧ val (remv256 l) ≤ val p256 :=
  redOk_of_fold (n := 8) (pw := p256) tbl256_ok rfl (by decide +kernel) (by decide +kernel)
    (by decide +kernel) (by decide) (by decide +kernel) l

theorem remv384_val (l : List W) : (remv384 l).length = l.length ∧
    val (remv384 l) ≡ val l [MOD val p384] ∧ val (remv384 l) ≤ val p384 :=
  redOk_of_fold (n := 12) (pw := p384) tbl384_ok rfl (by decide +kernel) (by decide +kernel)
    (by decide +kernel) (by decide) (by decide +kernel) l

theorem remv448_val (l : List W) : (remv448 l).length = l.length ∧
    val (remv448 l) ≡ val l [MOD val p448] ∧ val (remv448 l) ≤ val p448 :=
  redOk_of_fold (n := 14) (pw := p448) tbl448_ok rfl (by decide +kernel) (by decide +kernel)
    (by decide +kernel) (by decide) (by decide +kernel) l

theorem top_mod (V : Nat) : V % 2 ^ 255 + V / 2 ^ 255 * 19 ≡ V [MOD val p25519] := by
  have h : (2:Nat) ^ 255 ≡ 19 [MOD val p25519] := by rw [val_p25519]; decide +kernel
  have h2 := (Nat.ModEq.mul_left (V / 2 ^ 255) h.symm).add_left (V % 2 ^ 255)
  have e : V % 2 ^ 255 + V / 2 ^ 255 * 2 ^ 255 = V := by rw [Nat.mul_comm]; exact Nat.mod_add_div _ _
  rw [e] at h2; exact h2

theorem remv25519_val (l : List W) : (remv25519 l).length = l.length ∧
    val (remv25519 l) ≡ val l [MOD val p25519] ∧ val (remv25519 l) ≤ val p25519 := by
  unfold remv25519
  by_cases hl : l.length < 8
  · rw [if_pos hl]
    refine ⟨rfl, Nat.ModEq.refl _, ?_⟩
    have := val_lt l
    have h1 : 2 ^ (32 * l.length) ≤ 2 ^ (32 * 7) := Nat.pow_le_pow_right (by decide) (by omega)
    have h2 : 2 ^ (32 * 7) ≤ val p25519 := by decide +kernel
    omega
  · rw [if_neg hl]
    have hV := val_lt l
    have e : l.length = 8 + (l.length - 8) := by omega
    obtain ⟨h1, h2, h3⟩ := foldLoop_val (p := val p25519) tbl25519_ok (by decide +kernel) (by decide +kernel)
      (l.length - 8) l (by omega) (by rw [← e]; exact hV)
    set r0 := foldLoop tbl25519 8 (l.length - 8) l
    obtain ⟨a1, a2⟩ := foldTop_val r0 (by omega) h2
    have m1 := top_mod (val r0)
    rw [← a2] at m1
    have hd : val r0 / 2 ^ 255 < 2 := by
      rw [Nat.div_lt_iff_lt_mul (by positivity)]; norm_num at h2 ⊢; omega
    have hb1 := Nat.mod_lt (val r0) (show 0 < 2 ^ 255 by positivity)
    have hlt1 : val (foldTop25519 r0) < 2 ^ 255 + 19 := by
      rw [a2]; norm_num at hb1 hd ⊢; omega
    set r1 := foldTop25519 r0
    obtain ⟨c1, c2⟩ := foldTop_val r1 (by omega) (by norm_num at hlt1 ⊢; omega)
    have m2 := top_mod (val r1)
    rw [← c2] at m2
    have hlt2 : val (foldTop25519 r1) < 2 ^ 255 := by
      rw [c2]; norm_num at hlt1 ⊢; omega
    set r2 := foldTop25519 r1
    obtain ⟨g1, g2⟩ := finSub_val r2 p25519 (by rw [show p25519.length = 8 from rfl]; omega)
    refine ⟨by rw [g1, c1, a1, h1], ?_, ?_⟩
    · rw [g2]; exact (condSub_mod _ _).trans (m2.trans (m1.trans h3))
    · rw [g2]; exact condSub_le (by rw [val_p25519]; norm_num at hlt2 ⊢; omega)

/-! ### SM2: two folds may leave a word behind -/

theorem sm2_folds8 {V : Nat} (hV : V < 2 ^ 288) :
    V % 2 ^ 256 + V / 2 ^ 256 * KSM2 < 2 * 2 ^ 256 ∧
      (V % 2 ^ 256 + V / 2 ^ 256 * KSM2) % 2 ^ 256 + (V % 2 ^ 256 + V / 2 ^ 256 * KSM2) / 2 ^ 256 * KSM2 <
        2 ^ 256 + 2 ^ 128 := by
  unfold KSM2
  norm_num at hV ⊢
  omega

theorem sm2_folds9 {V : Nat} (hV : V < 2 ^ 318) :
    V % 2 ^ 288 + V / 2 ^ 288 * (KSM2 * 2 ^ 32) < 2 * 2 ^ 288 ∧
      (V % 2 ^ 288 + V / 2 ^ 288 * (KSM2 * 2 ^ 32)) % 2 ^ 288 +
        (V % 2 ^ 288 + V / 2 ^ 288 * (KSM2 * 2 ^ 32)) / 2 ^ 288 * (KSM2 * 2 ^ 32) < 2 ^ 288 := by
  unfold KSM2
  norm_num at hV ⊢
  omega

theorem modSM2 : 2 ^ (32 * 8) ≡ KSM2 [MOD val pSM2] := by decide +kernel

theorem sm2_loop1 (l : List W) (hl : 9 ≤ l.length) (hV : val l < 2 ^ 288) :
    (foldLoop tblSM2 8 1 l).length = l.length ∧ val (foldLoop tblSM2 8 1 l) < 2 ^ 256 + 2 ^ 128 ∧
      val (foldLoop tblSM2 8 1 l) ≡ val l [MOD val pSM2] := by
  have hbig : (2:Nat) ^ 288 ≤ 2 ^ (32 * l.length) := Nat.pow_le_pow_right (by decide) (by omega)
  have h0 : 2 * 2 ^ 256 ≤ (2:Nat) ^ 288 := by decide +kernel
  have h00 : 2 ^ 256 + 2 ^ 128 ≤ (2:Nat) ^ 288 := by decide +kernel
  have hx : (2:Nat) ^ (32 * (8 + 0 + 1)) = 2 ^ 288 := by rw [show 32 * (8 + 0 + 1) = 288 from rfl]
  obtain ⟨b1, b2⟩ := sm2_folds8 hV
  have e1 : ∀ v : Nat, v % 2 ^ (32 * (8 + 0)) + v / 2 ^ (32 * (8 + 0)) * (KSM2 * 2 ^ (32 * 0)) =
      v % 2 ^ 256 + v / 2 ^ 256 * KSM2 := by intro v; simp
  obtain ⟨l1, v1⟩ := foldOnce_val tblSM2_ok 0 l (by rw [hx]; exact hV) (by rw [e1]; omega)
  have m1 := fold_modEq modSM2 (val l) 0
  rw [← v1] at m1
  rw [e1] at v1
  rw [← v1] at b1 b2
  obtain ⟨l2, v2⟩ := foldOnce_val tblSM2_ok 0 (foldOnce tblSM2 (8 + 0) l)
    (by rw [hx]; exact lt_of_lt_of_le b1 h0) (by rw [e1, l1]; omega)
  have m2 := fold_modEq modSM2 (val (foldOnce tblSM2 (8 + 0) l)) 0
  rw [← v2] at m2
  rw [e1] at v2
  rw [← v2] at b2
  exact ⟨by rw [foldLoop, foldLoop, l2, l1], b2, m2.trans m1⟩

theorem sm2_loop2 (l : List W) (hl : 10 ≤ l.length) (hV : val l < 2 ^ 318) :
    (foldLoop tblSM2 8 2 l).length = l.length ∧ val (foldLoop tblSM2 8 2 l) < 2 ^ 256 + 2 ^ 128 ∧
      val (foldLoop tblSM2 8 2 l) ≡ val l [MOD val pSM2] := by
  have hbig : (2:Nat) ^ 320 ≤ 2 ^ (32 * l.length) := Nat.pow_le_pow_right (by decide) (by omega)
  have h0 : 2 * 2 ^ 288 ≤ (2:Nat) ^ 320 := by decide +kernel
  have h1 : 2 ^ 318 ≤ (2:Nat) ^ 320 := Nat.pow_le_pow_right (by decide) (by decide)
  have hx : (2:Nat) ^ (32 * (8 + 1 + 1)) = 2 ^ 320 := by rw [show 32 * (8 + 1 + 1) = 320 from rfl]
  obtain ⟨b1, b2⟩ := sm2_folds9 hV
  have e1 : ∀ v : Nat, v % 2 ^ (32 * (8 + 1)) + v / 2 ^ (32 * (8 + 1)) * (KSM2 * 2 ^ (32 * 1)) =
      v % 2 ^ 288 + v / 2 ^ 288 * (KSM2 * 2 ^ 32) := by
    intro v; rw [show 32 * (8 + 1) = 288 from rfl, show 32 * 1 = 32 from rfl]
  obtain ⟨l1, v1⟩ := foldOnce_val tblSM2_ok 1 l (by rw [hx]; exact lt_of_lt_of_le hV h1)
    (by rw [e1]; exact lt_of_lt_of_le b1 (h0.trans hbig))
  have m1 := fold_modEq modSM2 (val l) 1
  rw [← v1] at m1
  rw [e1] at v1
  rw [← v1] at b1 b2
  obtain ⟨l2, v2⟩ := foldOnce_val tblSM2_ok 1 (foldOnce tblSM2 (8 + 1) l)
    (by rw [hx]; exact lt_of_lt_of_le b1 h0) (by
      rw [e1, l1]
      exact lt_of_lt_of_le b2 ((Nat.pow_le_pow_right (by decide) (by decide)).trans hbig))
  have m2 := fold_modEq modSM2 (val (foldOnce tblSM2 (8 + 1) l)) 1
  rw [← v2] at m2
  rw [e1] at v2
  rw [← v2] at b2
  obtain ⟨g1, g2, g3⟩ := sm2_loop1 (foldOnce tblSM2 (8 + 1) (foldOnce tblSM2 (8 + 1) l))
    (by rw [l2, l1]; omega) b2
  exact ⟨by rw [foldLoop, g1, l2, l1], g2, g3.trans (m2.trans m1)⟩

theorem sm2_loop (l : List W) (hl : 8 ≤ l.length) (hV : val l < 2 ^ 318) :
    (foldLoop tblSM2 8 (l.length - 8) l).length = l.length ∧
      val (foldLoop tblSM2 8 (l.length - 8) l) < 2 ^ 256 + 2 ^ 128 ∧
      val (foldLoop tblSM2 8 (l.length - 8) l) ≡ val l [MOD val pSM2] := by
  by_cases h8 : l.length = 8
  · have hv := val_lt l
    rw [show 32 * l.length = 256 by omega] at hv
    have e : l.length - 8 = 0 := by omega
    rw [e]
    refine ⟨rfl, ?_, Nat.ModEq.refl _⟩
    exact lt_of_lt_of_le hv (Nat.le_add_right _ _)
  · by_cases h9 : l.length = 9
    · have hv := val_lt l
      rw [show 32 * l.length = 288 by omega] at hv
      have e : l.length - 8 = 1 := by omega
      rw [e]
      exact sm2_loop1 l (by omega) hv
    · have e : l.length - 8 = 2 + (l.length - 10) := by omega
      have h1 : 2 ^ 318 ≤ (2:Nat) ^ (32 * (8 + 2)) := Nat.pow_le_pow_right (by decide) (by decide)
      rw [e, foldLoop_skip tblSM2_ok (l.length - 10) 2 l (by omega) (lt_of_lt_of_le hV h1)]
      exact sm2_loop2 l (by omega) hV

theorem remvSM2_val (l : List W) (hV : val l < 2 ^ 318) : (remvSM2 l).length = l.length ∧
    val (remvSM2 l) ≡ val l [MOD val pSM2] ∧ val (remvSM2 l) ≤ val pSM2 := by
  unfold remvSM2
  by_cases hl : l.length < 8
  · rw [if_pos hl]
    refine ⟨rfl, Nat.ModEq.refl _, ?_⟩
    have := val_lt l
    have h1 : 2 ^ (32 * l.length) ≤ 2 ^ (32 * 7) := Nat.pow_le_pow_right (by decide) (by omega)
    have h2 : 2 ^ (32 * 7) ≤ val pSM2 := by decide +kernel
    omega
  · rw [if_neg hl]
    obtain ⟨h1, h2, h3⟩ := sm2_loop l (by omega) hV
    obtain ⟨g1, g2⟩ := finSub_val (foldLoop tblSM2 8 (l.length - 8) l) pSM2
      (by rw [show pSM2.length = 8 from rfl]; omega)
    refine ⟨by rw [g1, h1], ?_, ?_⟩
    · rw [g2]; exact (condSub_mod _ _).trans h3
    · rw [g2]
      have : 2 ^ 256 + 2 ^ 128 ≤ 2 * val pSM2 := by decide +kernel
      exact condSub_le (by omega)

/-! ### As callbacks of the curve code -/

theorem remvSM2_len (l : List W) : (remvSM2 l).length = l.length := by
  unfold remvSM2
  split
  · rfl
  · unfold finSub
    simp only
    rw [subv, length_addKernel, length_foldLoop _ _ _ _ tblSM2_ok.small]

theorem redOk256 (c B : Nat) : RedOk remv256 (val p256) c B :=
  ⟨fun l h => by rw [(remv256_val l).1, h], fun l _ _ => (remv256_val l).2.1, fun l _ _ => (remv256_val l).2.2⟩
theorem redOk384 (c B : Nat) : RedOk remv384 (val p384) c B :=
  ⟨fun l h => by rw [(remv384_val l).1, h], fun l _ _ => (remv384_val l).2.1, fun l _ _ => (remv384_val l).2.2⟩
theorem redOk448 (c B : Nat) : RedOk remv448 (val p448) c B :=
  ⟨fun l h => by rw [(remv448_val l).1, h], fun l _ _ => (remv448_val l).2.1, fun l _ _ => (remv448_val l).2.2⟩
theorem redOk25519 (c B : Nat) : RedOk remv25519 (val p25519) c B :=
  ⟨fun l h => by rw [(remv25519_val l).1, h], fun l _ _ => (remv25519_val l).2.1,
    fun l _ _ => (remv25519_val l).2.2⟩
theorem redOkSM2 (c B : Nat) (hB : B ≤ 2 ^ 318) : RedOk remvSM2 (val pSM2) c B :=
  ⟨fun l h => by rw [remvSM2_len l, h], fun l _ h => (remvSM2_val l (by omega)).2.1,
    fun l _ h => (remvSM2_val l (by omega)).2.2⟩

end Ec
