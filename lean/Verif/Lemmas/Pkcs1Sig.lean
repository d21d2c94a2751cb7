import Verif.Lemmas.Pkcs1Block

/-! # Lemmas about the PKCS #1 model: the encoded messages of the two signature schemes -/

namespace Pkcs1
open Vlong Spec.Pkcs1

theorem maskTop_eq : ∀ t : Fin 8, ∀ b : Byte, b &&& BitVec.ofNat 8 (0xff / 2 ^ t.val) = BitVec.ofNat 8 (b.toNat % 2 ^ (8 - t.val)) := by
  decide +kernel

theorem topClear_iff : ∀ t : Fin 8, ∀ b : Byte, (b.toNat &&& (0xff - 0xff / 2 ^ t.val) = 0) ↔ BitVec.ofNat 8 (b.toNat % 2 ^ (8 - t.val)) = b := by
  decide +kernel

theorem clearTop_cons (t : Nat) (b : Byte) (l : List Byte) : clearTop t (b :: l) = BitVec.ofNat 8 (b.toNat % 2 ^ (8 - t)) :: l := rfl

theorem clearTop_idem (t : Nat) (l : List Byte) : clearTop t (clearTop t l) = clearTop t l := by
  cases l with
  | nil => rfl
  | cons b l =>
    simp only [clearTop_cons]
    congr 1
    apply BitVec.eq_of_toNat_eq
    simp only [BitVec.toNat_ofNat]
    have h1 := b.isLt
    have h2 : b.toNat % 2 ^ (8 - t) ≤ b.toNat := Nat.mod_le _ _
    have h3 : b.toNat % 2 ^ (8 - t) < 2 ^ 8 := by omega
    rw [Nat.mod_eq_of_lt h3, Nat.mod_mod, Nat.mod_eq_of_lt h3]

theorem length_clearTop (t : Nat) (l : List Byte) : (clearTop t l).length = l.length := by
  cases l <;> simp [clearTop]

/-- `b0 = ptr[0]; ptr[0] = b0 & (0xFF >> t)`. -/
theorem maskTop_step (t : Nat) (ht : t < 8) (l tail : List Byte) (hl : 0 < l.length) :
    ((rdAt (l ++ tail) 0 1).bind fun b0 => wrAt (l ++ tail) 0 [b0.getD 0 0 &&& BitVec.ofNat 8 (0xff / 2 ^ t)])
      = some (clearTop t l ++ tail) := by
  obtain ⟨b, l, rfl⟩ : ∃ b l', l = b :: l' := by
    cases l with
    | nil => simp at hl
    | cons b l => exact ⟨b, l, rfl⟩
  have g : rdAt (b :: l ++ tail) 0 1 = some [b] := rdAt_mid [] [b] (l ++ tail) 0 1 rfl rfl
  have w : ∀ c : Byte, wrAt (b :: l ++ tail) 0 [c] = some (c :: l ++ tail) := fun c =>
    wrAt_mid [] [b] (l ++ tail) [c] 0 rfl rfl
  rw [g]
  simp only [Option.bind_some]
  rw [w, List.getD_cons_zero, maskTop_eq ⟨t, ht⟩ b]
  rfl

theorem topPad (emBits : Nat) : 8 * ((emBits + 7) / 8) - emBits < 8 := by omega

theorem split6 (l : List Byte) (a h s n : Nat) (hn : n = a + 1 + s + h + 1) (hl : n ≤ l.length) :
    ∃ A o S H x tail, l = A ++ ([o] ++ (S ++ (H ++ ([x] ++ tail)))) ∧ A.length = a ∧ S.length = s ∧ H.length = h ∧
      tail = l.drop n := by
  have one : ∀ m : List Byte, 0 < m.length → ∃ x r, m = [x] ++ r := by
    intro m hm
    cases m with
    | nil => simp at hm
    | cons x r => exact ⟨x, r, rfl⟩
  obtain ⟨A, r1, e1, a1⟩ : ∃ A r, l = A ++ r ∧ A.length = a := ⟨l.take a, l.drop a, by simp, by simp; omega⟩
  have hr1 : r1.length = l.length - a := by rw [e1, List.length_append]; omega
  obtain ⟨o, r2, e2⟩ := one r1 (by omega)
  have hr2 : r2.length = l.length - a - 1 := by rw [e2] at hr1; simp at hr1; omega
  obtain ⟨S, r3, e3, a3⟩ : ∃ S r, r2 = S ++ r ∧ S.length = s := ⟨r2.take s, r2.drop s, by simp, by simp; omega⟩
  have hr3 : r3.length = l.length - a - 1 - s := by rw [e3, List.length_append] at hr2; omega
  obtain ⟨H, r4, e4, a4⟩ : ∃ S r, r3 = S ++ r ∧ S.length = h := ⟨r3.take h, r3.drop h, by simp, by simp; omega⟩
  have hr4 : r4.length = l.length - a - 1 - s - h := by rw [e4, List.length_append] at hr3; omega
  obtain ⟨x, tail, e5⟩ := one r4 (by omega)
  refine ⟨A, o, S, H, x, tail, by rw [e1, e2, e3, e4, e5], a1, a3, a4, ?_⟩
  rw [e1, e2, e3, e4, e5]
  have : A ++ ([o] ++ (S ++ (H ++ ([x] ++ tail)))) = (A ++ ([o] ++ (S ++ (H ++ [x])))) ++ tail := by simp
  rw [this, List.drop_left' (by simp; omega)]

/-- The hash function of a `Hash` with its full output. -/
def Hash.full (h : Hash) (m : List Byte) : List Byte := h.digest m h.hlen

theorem pssBuild_eq (P : Padding) (hm : P.hmgf.xof = false → 0 < P.hmgf.hlen) (emBits : Nat) (msg salt buf : List Byte)
    (hs : salt.length = P.slen) (hk : P.hmsg.hlen + P.slen + 2 ≤ (emBits + 7) / 8) (hb : (emBits + 7) / 8 ≤ buf.length) :
    pssBuild P emBits msg salt buf
      = some (pssEncode P.hmsg.full P.hmgf.mgf P.hmsg.hlen emBits (P.hmsg.full msg) salt ++ buf.drop ((emBits + 7) / 8)) := by
  have htp := topPad emBits
  unfold pssBuild pssEncode
  simp only [Option.bind_eq_bind]
  obtain ⟨E, hE⟩ : ∃ E, E = (emBits + 7) / 8 := ⟨_, rfl⟩
  obtain ⟨h, hh⟩ : ∃ h, h = P.hmsg.hlen := ⟨_, rfl⟩
  simp only [← hE, ← hh, ← hs] at hk hb htp ⊢
  obtain ⟨tp, htpe⟩ : ∃ t, t = 8 * E - emBits := ⟨_, rfl⟩
  simp only [← htpe] at htp ⊢
  obtain ⟨A, o, S, H, x, tail, e, a1, a2, a3, a4⟩ := split6 buf (E - h - salt.length - 2) h salt.length E (by omega) hb
  rw [← a4, e]
  have c1 := wrAt_mid (A ++ ([o] ++ (S ++ H))) [x] tail [0xbc] (E - 1) (by simp; omega) rfl
  simp only [List.append_assoc] at c1
  rw [c1, Option.bind_some]
  have c2 := wrAt_mid (A ++ [o]) S (H ++ ([0xbc] ++ tail)) salt (E - h - salt.length - 1) (by simp; omega) a2
  simp only [List.append_assoc] at c2
  rw [c2, Option.bind_some]
  obtain ⟨mh, hmh⟩ : ∃ mh, mh = P.hmsg.digest msg h := ⟨_, rfl⟩
  have hmhl : mh.length = h := by rw [hmh, length_digest]
  rw [← hmh]
  have c3 := wrAt_mid (A ++ ([o] ++ salt)) H ([0xbc] ++ tail) mh (E - h - 1) (by simp; omega) (by omega)
  simp only [List.append_assoc] at c3
  rw [c3, Option.bind_some]
  have g1 := rdAt_mid (A ++ ([o] ++ salt)) mh ([0xbc] ++ tail) (E - h - 1) h (by simp; omega) hmhl
  simp only [List.append_assoc] at g1
  rw [g1, Option.bind_some]
  have g2 := rdAt_mid (A ++ [o]) salt (mh ++ ([0xbc] ++ tail)) (E - h - salt.length - 1) salt.length (by simp; omega) rfl
  simp only [List.append_assoc] at g2
  rw [g2, Option.bind_some]
  obtain ⟨HH, hHH⟩ : ∃ HH, HH = P.hmsg.digest (List.replicate 8 0 ++ mh ++ salt) h := ⟨_, rfl⟩
  have hHHl : HH.length = h := by rw [hHH, length_digest]
  rw [← hHH]
  have c4 := wrAt_mid (A ++ ([o] ++ salt)) mh ([0xbc] ++ tail) HH (E - h - 1) (by simp; omega) (by omega)
  simp only [List.append_assoc] at c4
  rw [c4, Option.bind_some]
  have c5 := wrAt_mid [] A ([o] ++ (salt ++ (HH ++ ([0xbc] ++ tail)))) (List.replicate (E - h - salt.length - 2) 0) 0 rfl (by simp; omega)
  simp only [List.nil_append] at c5
  rw [c5, Option.bind_some]
  rw [wrAt_mid (List.replicate (E - h - salt.length - 2) 0) [o] _ [0x01] (E - h - salt.length - 2) (by simp) rfl, Option.bind_some]
  obtain ⟨DB, hDB⟩ : ∃ DB, DB = List.replicate (E - h - salt.length - 2) 0 ++ ([0x01] ++ salt) := ⟨_, rfl⟩
  have hDBl : DB.length = E - h - 1 := by rw [hDB]; simp; omega
  have r : List.replicate (E - h - salt.length - 2) (0 : Byte) ++ ([0x01] ++ (salt ++ (HH ++ ([0xbc] ++ tail))))
      = DB ++ (HH ++ ([0xbc] ++ tail)) := by rw [hDB]; simp
  rw [r]
  have g3 := rdAt_mid DB HH ([0xbc] ++ tail) (E - h - 1) h hDBl hHHl
  have g4 := rdAt_mid [] DB (HH ++ ([0xbc] ++ tail)) 0 (E - h - 1) rfl hDBl
  rw [List.nil_append] at g4
  rw [mgfAt_eq _ hm _ _ _ _ _ _ _ g3 g4 hDBl]
  obtain ⟨MD, hMD⟩ : ∃ MD, MD = xorBytes DB (P.hmgf.mgf HH (E - h - 1)) := ⟨_, rfl⟩
  have hMDl : MD.length = E - h - 1 := by
    rw [hMD, length_xorBytes _ _ (by rw [length_mgf _ hm]; omega)]; exact hDBl
  rw [← hMD]
  have c6 := wrAt_mid [] DB (HH ++ ([0xbc] ++ tail)) MD 0 rfl (by omega)
  simp only [List.nil_append] at c6
  rw [c6, Option.bind_some, maskTop_step tp htp MD _ (by omega)]
  have e1 : List.replicate (E - salt.length - h - 2) (0 : Byte) ++ [0x01] ++ salt = DB := by
    rw [hDB, Nat.sub_right_comm E salt.length h]; simp
  have e2 : P.hmsg.full (List.replicate 8 0 ++ P.hmsg.full msg ++ salt) = HH := by
    rw [hHH, hmh, hh]; rfl
  rw [e1, e2, ← hMD]
  simp

theorem length_pssEncode (P : Padding) (hm : P.hmgf.xof = false → 0 < P.hmgf.hlen) (emBits : Nat) (mHash salt : List Byte)
    (hk : P.hmsg.hlen + salt.length + 2 ≤ (emBits + 7) / 8) :
    (pssEncode P.hmsg.full P.hmgf.mgf P.hmsg.hlen emBits mHash salt).length = (emBits + 7) / 8 := by
  unfold pssEncode
  simp only [List.length_append, length_clearTop, xorBytes, List.length_zipWith, length_mgf _ hm, Hash.full, length_digest]
  simp; omega

theorem any_ne_zero (l : List Byte) : l.any (· != 0) = false ↔ l = List.replicate l.length 0 := by
  induction l with
  | nil => simp
  | cons b l ih =>
    rw [List.any_cons, Bool.or_eq_false_iff, ih, List.length_cons, List.replicate_succ, List.cons.injEq]
    simp

/-- `pssCheck` accepts exactly the consistent encoded messages. -/
theorem pssCheck_iff (P : Padding) (hm : P.hmgf.xof = false → 0 < P.hmgf.hlen) (emBits : Nat) (mHash EM tail : List Byte)
    (hk : P.hmsg.hlen + P.slen + 2 ≤ (emBits + 7) / 8) (hE : EM.length = (emBits + 7) / 8) :
    ∃ b, pssCheck P emBits mHash (EM ++ tail) = some b ∧
      (b = true ↔ PssConsistent P.hmsg.full P.hmgf.mgf P.hmsg.hlen P.slen emBits mHash EM) := by
  have htp := topPad emBits
  unfold pssCheck PssConsistent
  simp only [Option.bind_eq_bind]
  obtain ⟨E, hEe⟩ : ∃ E, E = (emBits + 7) / 8 := ⟨_, rfl⟩
  obtain ⟨h, hh⟩ : ∃ h, h = P.hmsg.hlen := ⟨_, rfl⟩
  obtain ⟨s, hs⟩ : ∃ s, s = P.slen := ⟨_, rfl⟩
  simp only [← hEe, ← hh, ← hs] at hk hE htp ⊢
  obtain ⟨tp, htpe⟩ : ∃ t, t = 8 * E - emBits := ⟨_, rfl⟩
  simp only [← htpe] at htp ⊢
  -- EM = md ++ H ++ [x]
  obtain ⟨md, H, x, e, l1, l2⟩ : ∃ md H x, EM = md ++ (H ++ [x]) ∧ md.length = E - h - 1 ∧ H.length = h := by
    obtain ⟨A, o, S, H, x, tl, e, a1, a2, a3, a4⟩ := split6 EM (E - h - s - 2) h s E (by omega) (by omega)
    have : tl = [] := by rw [a4]; simp; omega
    subst this
    exact ⟨A ++ ([o] ++ S), H, x, by rw [e]; simp, by simp; omega, a3⟩
  subst e
  have uniq : ∀ md' H' x', md ++ (H ++ [x]) = md' ++ (H' ++ [x']) → H'.length = h → md' = md ∧ H' = H ∧ x' = x := by
    intro md' H' x' e1 e2
    have hl : md.length = md'.length := by
      have := congrArg List.length e1
      simp at this; omega
    obtain ⟨u1, u2⟩ := List.append_inj e1 hl
    obtain ⟨u3, u4⟩ := List.append_inj u2 (by omega)
    exact ⟨u1.symm, u3.symm, by simpa using u4.symm⟩
  have spec_iff : ∀ Q : List Byte → List Byte → Prop,
      (h + s + 2 ≤ E ∧ ∃ maskedDB H0 salt, md ++ (H ++ [x]) = maskedDB ++ H0 ++ [0xbc] ∧ (md ++ (H ++ [x])).length = E ∧ H0.length = h ∧
        salt.length = s ∧ clearTop tp maskedDB = maskedDB ∧
        clearTop tp (xorBytes maskedDB (P.hmgf.mgf H0 (E - h - 1))) = List.replicate (E - h - s - 2) 0 ++ [0x01] ++ salt ∧ Q H0 salt) ↔
      (x = 0xbc ∧ clearTop tp md = md ∧ ∃ salt, salt.length = s ∧
        clearTop tp (xorBytes md (P.hmgf.mgf H (E - h - 1))) = List.replicate (E - h - s - 2) 0 ++ [0x01] ++ salt ∧ Q H salt) := by
    intro Q
    constructor
    · rintro ⟨-, md', H', salt, b1, b2, b3, b4, b5, b6, b7⟩
      rw [List.append_assoc] at b1
      obtain ⟨u1, u2, u3⟩ := uniq _ _ _ b1 b3
      subst u1 u2
      exact ⟨u3.symm, b5, salt, b4, b6, b7⟩
    · rintro ⟨b1, b2, salt, b3, b4, b5⟩
      exact ⟨hk, md, H, salt, by rw [b1]; simp, hE, l2, b3, b2, b4, b5⟩
  have sp := spec_iff fun H0 salt => P.hmsg.full (List.replicate 8 0 ++ mHash ++ salt) = H0
  rw [sp]
  clear sp spec_iff uniq
  have g0 := rdAt_mid (md ++ H) [x] tail (E - 1) 1 (by simp; omega) rfl
  simp only [List.append_assoc] at g0
  simp only [List.append_assoc]
  rw [g0, Option.bind_some, List.getD_cons_zero]
  by_cases hx : x ≠ 0xbc
  · rw [if_pos hx]
    exact ⟨false, rfl, by simp; intro h; exact absurd h hx⟩
  rw [if_neg hx]
  simp only [ne_eq, not_not] at hx
  subst hx
  obtain ⟨b, md', rfl⟩ : ∃ b l', md = b :: l' := by
    cases md with
    | nil => simp at l1; omega
    | cons b l => exact ⟨b, l, rfl⟩
  have g1 : rdAt (b :: md' ++ (H ++ ([0xbc] ++ tail))) 0 1 = some [b] := rdAt_mid [] [b] _ 0 1 rfl rfl
  rw [g1, Option.bind_some, List.getD_cons_zero]
  by_cases hb : b.toNat &&& (255 - 255 / 2 ^ tp) ≠ 0
  · rw [if_pos hb]
    refine ⟨false, rfl, ?_⟩
    simp only [Bool.false_eq_true, false_iff]
    rintro ⟨-, c, -⟩
    rw [clearTop_cons, List.cons.injEq] at c
    exact hb ((topClear_iff ⟨tp, htp⟩ b).mpr c.1)
  rw [if_neg hb]
  simp only [ne_eq, not_not] at hb
  have hclear : clearTop tp (b :: md') = b :: md' := by
    rw [clearTop_cons, (topClear_iff ⟨tp, htp⟩ b).mp hb]
  have g3 := rdAt_mid (b :: md') H ([0xbc] ++ tail) (E - h - 1) h l1 l2
  have g4 : rdAt (b :: md' ++ (H ++ ([0xbc] ++ tail))) 0 (E - h - 1) = some (b :: md') :=
    rdAt_mid [] (b :: md') (H ++ ([0xbc] ++ tail)) 0 (E - h - 1) rfl l1
  rw [mgfAt_eq _ hm _ _ _ _ _ _ _ g3 g4 l1]
  obtain ⟨D, hD⟩ : ∃ D, D = xorBytes (b :: md') (P.hmgf.mgf H (E - h - 1)) := ⟨_, rfl⟩
  have hDl : D.length = E - h - 1 := by
    rw [hD, length_xorBytes _ _ (by rw [length_mgf _ hm]; omega)]; exact l1
  rw [← hD]
  have c6 : wrAt (b :: md' ++ (H ++ ([0xbc] ++ tail))) 0 D = some (D ++ (H ++ ([0xbc] ++ tail))) :=
    wrAt_mid [] (b :: md') (H ++ ([0xbc] ++ tail)) D 0 rfl (by omega)
  rw [c6, Option.bind_some]
  have mt := maskTop_step tp htp D (H ++ ([0xbc] ++ tail)) (by omega)
  rw [← Option.bind_assoc, mt, Option.bind_some]
  obtain ⟨DB, hDB⟩ : ∃ DB, DB = clearTop tp D := ⟨_, rfl⟩
  have hDBl : DB.length = E - h - 1 := by rw [hDB, length_clearTop]; exact hDl
  rw [← hDB]
  obtain ⟨A, o, S, Hx, y, tl, e, a1, a2, a3, a4⟩ := split6 (DB ++ (H ++ [0xbc])) (E - h - s - 2) h s E (by omega) (by simp; omega)
  obtain ⟨eDB, -⟩ := List.append_inj (show DB ++ (H ++ [0xbc]) = (A ++ ([o] ++ S)) ++ (Hx ++ ([y] ++ tl)) by rw [e]; simp) (by simp; omega)
  rw [eDB]
  have g5 : rdAt (A ++ ([o] ++ S) ++ (H ++ ([0xbc] ++ tail))) 0 (E - h - s - 2) = some A := by
    have := rdAt_mid [] A (([o] ++ S) ++ (H ++ ([0xbc] ++ tail))) 0 (E - h - s - 2) rfl a1
    simpa using this
  rw [g5, Option.bind_some]
  by_cases hA : A.any (· != 0) = true
  · rw [if_pos hA]
    refine ⟨false, rfl, ?_⟩
    simp only [Bool.false_eq_true, false_iff]
    rintro ⟨-, -, salt, -, c, -⟩
    try rw [List.append_assoc] at c
    obtain ⟨c1, -⟩ := List.append_inj c (by simp; omega)
    rw [c1] at hA
    have : (List.replicate (E - h - s - 2) (0 : Byte)).any (· != 0) = false := by
      rw [any_ne_zero]; simp
    rw [this] at hA; cases hA
  rw [if_neg hA]
  have hA' : A = List.replicate (E - h - s - 2) 0 := by
    have := (any_ne_zero A).mp (by simpa using hA)
    rw [a1] at this; exact this
  have g6 : rdAt (A ++ ([o] ++ S) ++ (H ++ ([0xbc] ++ tail))) (E - h - s - 2) 1 = some [o] := by
    have := rdAt_mid A [o] (S ++ (H ++ ([0xbc] ++ tail))) (E - h - s - 2) 1 a1 rfl
    simpa using this
  rw [g6, Option.bind_some, List.getD_cons_zero]
  by_cases ho : o ≠ 0x01
  · rw [if_pos ho]
    refine ⟨false, rfl, ?_⟩
    simp only [Bool.false_eq_true, false_iff]
    rintro ⟨-, -, salt, -, c, -⟩
    try rw [List.append_assoc] at c
    obtain ⟨-, c2⟩ := List.append_inj c (by simp; omega)
    obtain ⟨c3, -⟩ := List.append_inj c2 rfl
    exact ho (by simpa using c3)
  rw [if_neg ho]
  simp only [ne_eq, not_not] at ho
  have g7 : rdAt (A ++ ([o] ++ S) ++ (H ++ ([0xbc] ++ tail))) (E - h - s - 1) s = some S := by
    have := rdAt_mid (A ++ [o]) S (H ++ ([0xbc] ++ tail)) (E - h - s - 1) s (by simp; omega) a2
    simpa using this
  have g8 : rdAt (A ++ ([o] ++ S) ++ (H ++ ([0xbc] ++ tail))) (E - h - 1) h = some H := by
    have := rdAt_mid (A ++ ([o] ++ S)) H ([0xbc] ++ tail) (E - h - 1) h (by simp; omega) l2
    exact this
  rw [g7, Option.bind_some, g8, Option.bind_some]
  refine ⟨_, rfl, ?_⟩
  rw [beq_iff_eq]
  constructor
  · intro hq
    refine ⟨rfl, hclear, S, a2, by rw [hA', ho], ?_⟩
    rw [hq, hh]; rfl
  · rintro ⟨-, -, salt, q1, q2, q3⟩
    try rw [List.append_assoc] at q2
    obtain ⟨-, c2⟩ := List.append_inj q2 (by simp; omega)
    obtain ⟨-, c4⟩ := List.append_inj c2 rfl
    rw [c4, ← q3, hh]; rfl

/-! ## EMSA-PKCS1-v1_5 -/

theorem ffLoop_eq (tl E : Nat) (fuel t : Nat) (A B tail : List Byte) (hA : A.length = t) (ht : t + tl + 1 ≤ E)
    (hB : B.length = E - tl - t) (hf : E - tl - t ≤ fuel) :
    ffLoop tl E fuel t (A ++ (B ++ tail)) = some (A ++ (List.replicate (E - tl - t - 1) 0xff ++ ([0x00] ++ tail))) := by
  induction fuel generalizing t A B with
  | zero => omega
  | succ f ih =>
    obtain ⟨b, B', rfl⟩ : ∃ b l', B = b :: l' := by
      cases B with
      | nil => simp at hB; omega
      | cons b l => exact ⟨b, l, rfl⟩
    simp only [List.length_cons] at hB
    rw [ffLoop]
    have w : ∀ c : Byte, wrAt (A ++ (b :: B' ++ tail)) t [c] = some (A ++ ([c] ++ (B' ++ tail))) := fun c =>
      wrAt_mid A [b] (B' ++ tail) [c] t hA rfl
    by_cases hc : tl + t + 1 ≥ E
    · rw [if_pos hc, w]
      have : B' = [] := List.length_eq_zero_iff.mp (by omega)
      subst this
      rw [show E - tl - t - 1 = 0 by omega]
      simp
    · rw [if_neg hc, w]
      simp only [Option.bind_eq_bind, Option.bind_some]
      have := ih (t + 1) (A ++ [0xff]) B' (by simp; omega) (by omega) (by omega) (by omega)
      rw [List.append_assoc] at this
      rw [this]
      obtain ⟨m, hm⟩ : ∃ m, E - tl - t - 1 = m + 1 := ⟨E - tl - t - 2, by omega⟩
      rw [hm, show E - tl - (t + 1) - 1 = m by omega, List.replicate_succ]
      simp

theorem v15Build_eq (P : Padding) (o : HashOid) (E : Nat) (msg buf : List Byte)
    (hk : o.pre.length + o.dlen + 11 ≤ E) (hb : E ≤ buf.length) :
    v15Build P o E msg buf = some (emsaPkcs1 E (o.pre ++ P.hmsg.digest msg o.dlen) ++ buf.drop E) := by
  unfold v15Build
  simp only [Option.bind_eq_bind]
  obtain ⟨tail, htail⟩ : ∃ t, t = buf.drop E := ⟨_, rfl⟩
  obtain ⟨a, r, e⟩ : ∃ a r, buf = a :: r := by
    cases buf with
    | nil => simp at hb; omega
    | cons b l => exact ⟨b, l, rfl⟩
  obtain ⟨b, r2, e2⟩ : ∃ a r2, r = a :: r2 := by
    cases r with
    | nil => rw [e] at hb; simp at hb; omega
    | cons b l => exact ⟨b, l, rfl⟩
  have hr2 : r2.length + 2 = buf.length := by rw [e, e2]; simp
  obtain ⟨tl, htl⟩ : ∃ tl, tl = o.pre.length + o.dlen := ⟨_, rfl⟩
  obtain ⟨B, C, D, e3, b1, b2, b3⟩ : ∃ B C D, r2 = B ++ (C ++ (D ++ tail)) ∧ B.length = E - tl - 2 ∧ C.length = o.pre.length ∧ D.length = o.dlen := by
    refine ⟨r2.take (E - tl - 2), (r2.drop (E - tl - 2)).take o.pre.length, ((r2.drop (E - tl - 2)).drop o.pre.length).take o.dlen, ?_,
      by simp; omega, by simp; omega, by simp; omega⟩
    have : tail = ((r2.drop (E - tl - 2)).drop o.pre.length).drop o.dlen := by
      rw [htail, e, e2, List.drop_drop, List.drop_drop, show E = (o.dlen + o.pre.length + (E - tl - 2)) + 1 + 1 by omega]
      simp only [List.drop_succ_cons]
      congr 1; omega
    rw [this, List.take_append_drop, List.take_append_drop, List.take_append_drop]
  rw [← htail]
  rw [e, e2, e3]
  have c1 := wrAt_mid [] [a] (b :: (B ++ (C ++ (D ++ tail)))) [0x00] 0 rfl rfl
  simp only [List.nil_append, List.cons_append] at c1
  rw [c1, Option.bind_some]
  have c2 := wrAt_mid [0x00] [b] (B ++ (C ++ (D ++ tail))) [0x01] 1 rfl rfl
  simp only [List.nil_append, List.cons_append] at c2
  rw [c2, Option.bind_some]
  have c3 := ffLoop_eq tl E (E + 1) 2 [0x00, 0x01] B (C ++ (D ++ tail)) rfl (by omega) b1 (by omega)
  simp only [List.nil_append, List.cons_append] at c3
  rw [← htl, c3, Option.bind_some]
  have c4 := wrAt_mid ([0x00, 0x01] ++ (List.replicate (E - tl - 2 - 1) 0xff ++ [0x00])) C (D ++ tail) o.pre (E - o.dlen - o.pre.length)
    (by simp; omega) b2
  simp only [List.append_assoc, List.nil_append, List.cons_append] at c4
  rw [c4, Option.bind_some]
  have c5 := wrAt_mid ([0x00, 0x01] ++ (List.replicate (E - tl - 2 - 1) 0xff ++ ([0x00] ++ o.pre))) D tail (P.hmsg.digest msg o.dlen) (E - o.dlen)
    (by simp; omega) (by simp; omega)
  simp only [List.append_assoc, List.nil_append, List.cons_append] at c5
  rw [c5]
  unfold emsaPkcs1
  simp only [List.length_append, length_digest]
  rw [← htl, show E - tl - 2 - 1 = E - tl - 3 by omega]
  simp

end Pkcs1
