import Verif.Lemmas.Pkcs1Ops

/-! # Lemmas about the PKCS #1 model: whole v1.5 encryption operations, and the signers -/

namespace Pkcs1
open Vlong Spec Spec.Pkcs1

/-! ## RSAES-PKCS1-v1_5 -/

theorem es15Enc_spec (x : Pub) (hx : PubOk x) (sslen : Nat) (rng : Nat → Nat → List Byte) (hr : ∀ i n, (rng i n).length = n) (fuel : Nat)
    (hk : sslen + 11 ≤ x.bits / 8) (out ss : List Byte) (hblk : es15Block (x.bits / 8) sslen rng fuel x.w2 = some (out, ss)) :
    ∃ C w1 PS, es15Enc x sslen rng fuel = some ({ x with status := 1, w1 := w1, w2 := octets C }, some ss) ∧
      EmePkcs1 (out.take (x.bits / 8)) PS ss ∧ (out.take (x.bits / 8)).length = x.bits / 8 ∧ ss.length = sslen ∧
      C.length = x.w2.length / 4 ∧ val C = beNat (out.take (x.bits / 8)) ^ val x.e % val x.n := by
  have hb := bytes_of_bits x.bits x.w2.length (val x.n) hx.lo hx.fits (by omega)
  obtain ⟨k, hke⟩ : ∃ k, k = x.bits / 8 := ⟨_, rfl⟩
  simp only [← hke] at hk hblk ⊢
  obtain ⟨PS, p1, p2, p3, p4⟩ := es15Block_sound k sslen rng hr fuel x.w2 out ss hk (by omega) hblk
  obtain ⟨EM, hEM⟩ : ∃ EM, EM = out.take k := ⟨_, rfl⟩
  rw [← hEM] at p1 ⊢
  have hEl : EM.length = k := by rw [hEM]; simp; omega
  have hlt : beNat EM < val x.n := repr_lt EM x.bits _ _ p1.1 (by rw [hEl]; omega) hx.lo
  have hv : val (words (loadW1 x.w1 EM)) = beNat EM := by
    rw [val_loadW1, hx.w1, Nat.mod_eq_of_lt (Nat.lt_trans hlt hx.fits)]
  obtain ⟨C, c1, c2, c3⟩ := rsaEnc_val x hx (loadW1 x.w1 EM) out p4 x.status (by rw [hv]; exact hlt)
  refine ⟨C, loadW1 x.w1 EM, PS, ?_, p1, hEl, p3, c2, by rw [c3, hv]⟩
  unfold es15Enc
  simp only [← hke]
  rw [if_neg (by omega), hblk]
  simp only [Option.bind_eq_bind, Option.bind_some]
  have : rdAt out 0 k = some EM := by
    rw [rdAt, if_pos (by omega), hEM]; simp
  rw [this, Option.bind_some, c1]; rfl

theorem emePkcs1_iff (b0 b1 : Byte) (rest M : List Byte) :
    (∃ PS, EmePkcs1 ([b0, b1] ++ rest) PS M) ↔
      (b0 = 0 ∧ b1 = 2 ∧ 8 ≤ zeroLoop rest ∧ zeroLoop rest < rest.length) ∧ M = rest.drop (zeroLoop rest + 1) := by
  constructor
  · rintro ⟨PS, e, h8, hnz⟩
    simp only [List.append_assoc] at e
    have := List.append_inj e rfl
    obtain ⟨e1, e2⟩ := this
    simp only [List.cons.injEq, and_true] at e1
    have hz := zeroLoop_eq PS M hnz
    rw [← e2] at hz
    refine ⟨⟨e1.1, e1.2, by omega, ?_⟩, ?_⟩
    · rw [hz, e2]; simp
    · rw [hz, e2, ← List.append_assoc, List.drop_left' (by simp)]
  · rintro ⟨⟨rfl, rfl, h8, hl⟩, rfl⟩
    obtain ⟨s1, s2, s3⟩ := zeroLoop_spec rest
    refine ⟨rest.take (zeroLoop rest), ?_, by simp; omega, s2⟩
    rw [List.append_assoc, List.append_assoc]
    congr 1
    conv_lhs => rw [← List.take_append_drop (zeroLoop rest) rest, List.drop_eq_getElem_cons hl, s3 hl]
    rfl

theorem es15Dec_spec (e : Nat) (y : Priv) (hy : PrivOk e y) (hst : y.status = 0)
    (hk : 2 ≤ y.bits / 8) (hC : val (words y.w1) ≤ val y.n) (req : Option Nat) :
    ∃ m y' r, m < val y.n ∧ (val (words y.w1) < val y.n → m ^ e % val y.n = val (words y.w1)) ∧
      es15Dec y req = some (y', r) ∧ y'.bits = y.bits ∧
      (∀ PS M, EmePkcs1 (beN (y.bits / 8) m) PS M →
        y'.status = M.length ∧ r.ok = true ∧ (req = none → r.len = some (M.length : Int)) ∧
        (∀ n, req = some n → r.ss = M.take n ++ List.replicate (n - M.length) 0) ∧
        ∃ A tail, y'.w1 = A ++ (M ++ tail) ∧ A.length + M.length = y.bits / 8) ∧
      ((¬ ∃ PS M, EmePkcs1 (beN (y.bits / 8) m) PS M) →
        y'.status = -1 ∧ r.ok = false ∧ r.ss = List.replicate (req.getD 0) 0 ∧ r.len = if req = none then some (-1) else none) := by
  obtain ⟨M, f1, f2, f3, f4, f5⟩ := fastdec_val e y hy y.w1 y.w2 rfl 0
  have hb := bytes_of_bits y.bits y.w2.length (val y.n) hy.lo hy.w (by omega)
  have hbs := hy.small
  obtain ⟨k, hke⟩ : ∃ k, k = y.bits / 8 := ⟨_, rfl⟩
  simp only [← hke] at hk ⊢
  have hw1 := hy.w1
  obtain ⟨EM, hEM⟩ : ∃ EM, EM = beN k (val M) := ⟨_, rfl⟩
  have hEl : EM.length = k := by rw [hEM, length_beN]
  obtain ⟨b0, b1, rest, hdec, hrl⟩ : ∃ b0 b1 rest, EM = [b0, b1] ++ rest ∧ rest.length = k - 2 := by
    rcases EM with _ | ⟨a, _ | ⟨b, l⟩⟩
    · simp at hEl; omega
    · simp at hEl; omega
    · exact ⟨a, b, l, rfl, by simp at hEl; omega⟩
  have hparse := es15Parse_eq k b0 b1 rest (y.w1.drop k) hrl hk (by omega)
  have hiff := emePkcs1_iff b0 b1 rest
  obtain ⟨z, hz⟩ : ∃ z, z = zeroLoop rest := ⟨_, rfl⟩
  simp only [← hz] at hparse hiff
  obtain ⟨st, hste⟩ : ∃ st : Int, st = if b0 = 0 ∧ b1 = 2 ∧ 8 ≤ z ∧ z < rest.length then ((rest.length - z - 1 : Nat) : Int) else -1 := ⟨_, rfl⟩
  rw [← hste] at hparse
  have hdecomp : es15Dec y req
      = (decFinish k st ([b0, b1] ++ (rest ++ y.w1.drop k)) req).bind fun r =>
          some ({ y with w1 := [b0, b1] ++ (rest ++ y.w1.drop k), w2 := octets M, status := st }, r) := by
    unfold es15Dec
    simp only [← hke]
    rw [if_neg (by rw [hst]; simp), notAbove_eq, if_neg (by simp; omega)]
    rw [show y.fastdec = some { y with status := 0, w1 := y.w1, w2 := octets M } by rw [← f1, ← hst]]
    simp only [Option.bind_eq_bind, Option.bind_some, words_octets]
    rw [i2osp_beN, ← hEM, take_wr _ _ (by rw [hEl]; omega)]
    simp only [Option.bind_some]
    rw [hEl, hdec, List.append_assoc, hparse]
    simp only [Option.bind_some]
  by_cases hc : b0 = 0 ∧ b1 = 2 ∧ 8 ≤ z ∧ z < rest.length
  · rw [if_pos hc] at hste
    obtain ⟨Mm, hMm⟩ : ∃ Mm, Mm = rest.drop (z + 1) := ⟨_, rfl⟩
    have hMl : Mm.length = rest.length - z - 1 := by rw [hMm]; simp; omega
    obtain ⟨A, hA⟩ : ∃ A, A = [b0, b1] ++ rest.take (z + 1) := ⟨_, rfl⟩
    have hform : [b0, b1] ++ (rest ++ y.w1.drop k) = A ++ (Mm ++ y.w1.drop k) := by
      rw [hA, hMm, List.append_assoc, ← List.append_assoc (rest.take _), List.take_append_drop]
    have hAl : A.length + Mm.length = k := by
      rw [hA]; simp; omega
    obtain ⟨r, r1, r2, r3, r4⟩ := decFinish_ok k A Mm (y.w1.drop k) req hAl (by omega)
    have hst' : st = (Mm.length : Int) := by rw [hste, hMl]
    rw [hst', hform, r1, Option.bind_some] at hdecomp
    refine ⟨val M, _, r, f3, f5, hdecomp, rfl, ?_, ?_⟩
    · intro PS M' hd'
      rw [← hEM, hdec] at hd'
      have := ((hiff M').mp ⟨PS, hd'⟩).2
      rw [← hMm] at this
      subst this
      exact ⟨rfl, r2, r4, r3, A, y.w1.drop k, rfl, hAl⟩
    · intro hno
      obtain ⟨PS, hPS⟩ := (hiff Mm).mpr ⟨hc, hMm⟩
      exact absurd ⟨PS, Mm, by rw [← hEM, hdec]; exact hPS⟩ hno
  · rw [if_neg hc] at hste
    obtain ⟨r, r1, r2, r3, r4⟩ := decFinish_fail k ([b0, b1] ++ (rest ++ y.w1.drop k)) req (by simp; omega)
    rw [hste, r1, Option.bind_some] at hdecomp
    refine ⟨val M, _, r, f3, f5, hdecomp, rfl, ?_, ?_⟩
    · intro PS M' hd'
      rw [← hEM, hdec] at hd'
      exact absurd ((hiff M').mp ⟨PS, hd'⟩).1 hc
    · intro _
      exact ⟨rfl, r2, r3, r4⟩

/-! ## Signing -/

theorem encByte_eq (v : List W) (i : Nat) (n : Nat) (h : i < n) : encByte v i = (encLSB v n).getD i 0 := by
  unfold encLSB
  simp [h]

/-- Both signers, from the encoded message on: the representative `s` satisfies `s^e = EM`, and the first `emLen` octets of
`w1` are its `emLen` low octets, the rest of `w1` being as `vlong_OS2IP` left it. -/
theorem sign_tail (e : Nat) (y : Priv) (hy : PrivOk e y) (EM tail : List Byte) (hlt : beNat EM < val y.n) (hb : 0 < y.bits)
    (hl : EM.length = (y.bits - 1 + 7) / 8) (ht : tail.length + EM.length = y.w2.length) :
    ∃ S, val S < val y.n ∧ val S ^ e % val y.n = beNat EM ∧
      (do
        let em ← rdAt (EM ++ tail) 0 ((y.bits - 1 + 7) / 8)
        let x ← ({ y with w2 := EM ++ tail, w1 := loadW1 y.w1 em } : Priv).fastdec
        let w1 ← wrAt x.w1 0 (i2osp (words x.w2) ((y.bits - 1 + 7) / 8))
        some (({ x with w1 := w1, status := 1 } : Priv), true))
      = some ({ y with status := 1, w2 := octets S, w1 := beN EM.length (val S) ++ (loadW1 y.w1 EM).drop EM.length }, true) := by
  have hbb := bytes_of_bits y.bits y.w2.length (val y.n) hy.lo hy.w hb
  have hv : val (words (loadW1 y.w1 EM)) = beNat EM := by
    rw [val_loadW1, hy.w1, Nat.mod_eq_of_lt (Nat.lt_trans hlt hy.w)]
  obtain ⟨S, f1, f2, f3, f4, f5⟩ := fastdec_val e y hy (loadW1 y.w1 EM) (EM ++ tail) (by simp; omega) y.status
  refine ⟨S, f3, by rw [f5 (by rw [hv]; exact hlt), hv], ?_⟩
  rw [rdAt_zero EM tail _ hl]
  simp only [Option.bind_eq_bind, Option.bind_some]
  rw [f1]
  simp only [Option.bind_some, words_octets]
  rw [i2osp_beN, take_wr _ _ (by rw [length_beN, length_loadW1, hy.w1]; omega)]
  simp only [Option.bind_some, length_beN]
  rw [hl]

theorem getD_octets (v : List W) (i : Nat) (h : i < 4 * v.length) : (octets v).getD i 0 = BitVec.ofNat 8 (val v / 256 ^ i) := by
  have key : ∀ (l : List (BitVec 8)) (i : Nat), i < l.length → l.getD i 0 = BitVec.ofNat 8 (leNat l / 256 ^ i) := by
    intro l
    induction l with
    | nil => intro i h; simp at h
    | cons b l ih =>
      intro i h
      cases i with
      | zero =>
        rw [List.getD_cons_zero, leNat, Nat.pow_zero, Nat.div_one]
        apply BitVec.eq_of_toNat_eq
        rw [BitVec.toNat_ofNat]; omega
      | succ i =>
        rw [List.getD_cons_succ, ih i (by simpa using h), leNat, Nat.pow_succ', ← Nat.div_div_eq_div_mul,
          show (b.toNat + 256 * leNat l) / 256 = leNat l by have := b.isLt; omega]
  rw [key _ _ (by rw [length_octets]; exact h)]
  unfold octets
  rw [(Props.C06_enclsb _ _).2, Nat.mod_eq_of_lt]
  have := val_lt v
  rw [pow256, show 8 * (4 * v.length) = 32 * v.length by omega]; exact this

/-- What `Encode_Signature` returns after `sign_tail`. -/
theorem encodeSig_full (y' : Priv) (s emLen : Nat) (T : List Byte) (hw : y'.w1 = beN emLen s ++ T) (hl : emLen = (y'.bits - 1 + 7) / 8)
    (hb : (y'.bits + 7) / 8 = emLen) (siglen : Nat) (hs : emLen ≤ siglen) :
    encodeSig y' siglen = some (some (beN emLen s)) := by
  unfold encodeSig
  simp only [hb]
  rw [if_neg (by omega), hw, rdAt_zero _ _ _ (length_beN _ _)]; rfl

theorem encodeSig_one (y' : Priv) (s emLen : Nat) (c : Byte) (T : List Byte) (hw : y'.w1 = beN emLen s ++ (c :: T))
    (hb : (y'.bits + 7) / 8 = emLen + 1) (siglen : Nat) (hs : emLen + 1 ≤ siglen) :
    encodeSig y' siglen = some (some (beN emLen s ++ [c])) := by
  unfold encodeSig
  simp only [hb]
  rw [if_neg (by omega), hw, show beN emLen s ++ (c :: T) = (beN emLen s ++ [c]) ++ T by simp,
    rdAt_zero _ _ _ (by simp [length_beN])]; rfl

/-- The octet of `w1` after the encoded message is zero. -/
theorem loadW1_drop (w EM : List Byte) (h : EM.length < 4 * (w.length / 4)) :
    ∃ T, (loadW1 w EM).drop EM.length = 0 :: T := by
  have hl := length_loadW1 w EM
  refine ⟨(loadW1 w EM).drop (EM.length + 1), ?_⟩
  rw [List.drop_eq_getElem_cons (by omega)]
  congr 1
  have h1 : (loadW1 w EM).getD EM.length 0 = (loadW1 w EM)[EM.length] := by simp [hl, h]
  rw [← h1]
  unfold loadW1
  rw [getD_octets _ _ (by rw [(Props.C06_os2ip _ _).1]; exact h), (Props.C06_os2ip _ _).2]
  have := beNat_lt EM
  have h2 : beNat EM % 2 ^ (32 * (w.length / 4)) / 256 ^ EM.length = 0 :=
    Nat.div_eq_of_lt (Nat.lt_of_le_of_lt (Nat.mod_le _ _) this)
  rw [h2]; rfl

/-- The PSS block is below the modulus. -/
theorem pssEncode_lt (P : Padding) (hm : P.hmgf.xof = false → 0 < P.hmgf.hlen) (emBits : Nat) (mHash salt : List Byte)
    (hs : salt.length = P.slen) (hk : P.hmsg.hlen + P.slen + 2 ≤ (emBits + 7) / 8) :
    beNat (pssEncode P.hmsg.full P.hmgf.mgf P.hmsg.hlen emBits mHash salt) < 2 ^ emBits := by
  have htp := topPad emBits
  have hl := length_pssEncode P hm emBits mHash salt (by omega)
  obtain ⟨EM, hEM⟩ : ∃ EM, EM = pssEncode P.hmsg.full P.hmgf.mgf P.hmsg.hlen emBits mHash salt := ⟨_, rfl⟩
  rw [← hEM] at hl ⊢
  unfold pssEncode at hEM
  simp only at hEM
  obtain ⟨D, hD⟩ : ∃ D, D = Spec.Pkcs1.xorBytes (List.replicate ((emBits + 7) / 8 - salt.length - P.hmsg.hlen - 2) 0 ++ [0x01] ++ salt)
      (P.hmgf.mgf (P.hmsg.full (List.replicate 8 0 ++ mHash ++ salt)) ((emBits + 7) / 8 - P.hmsg.hlen - 1)) := ⟨_, rfl⟩
  rw [← hD] at hEM
  cases D with
  | nil =>
    have := congrArg List.length hD
    simp [Spec.Pkcs1.xorBytes, length_mgf _ hm] at this
    omega
  | cons b l =>
    rw [clearTop_cons] at hEM
    rw [List.cons_append, List.cons_append] at hEM
    obtain ⟨r, hr⟩ : ∃ r, r = l ++ P.hmsg.full (List.replicate 8 0 ++ mHash ++ salt) ++ [0xbc] := ⟨_, rfl⟩
    rw [← hr] at hEM
    rw [hEM, List.length_cons] at hl
    rw [hEM, beNat_cons, BitVec.toNat_ofNat]
    obtain ⟨t, ht⟩ : ∃ t, t = 8 * ((emBits + 7) / 8) - emBits := ⟨_, rfl⟩
    rw [← ht] at htp ⊢
    have h1 := beNat_lt r
    have h2 : b.toNat % 2 ^ (8 - t) < 2 ^ (8 - t) := Nat.mod_lt _ (Nat.pow_pos (by decide))
    have h3 : (2 : Nat) ^ (8 - t) ≤ 2 ^ 8 := Nat.pow_le_pow_right (by decide) (by omega)
    rw [Nat.mod_eq_of_lt (by omega : b.toNat % 2 ^ (8 - t) < 2 ^ 8)]
    have h4 : (2 : Nat) ^ emBits = 2 ^ (8 - t) * 256 ^ r.length := by
      rw [pow256, ← Nat.pow_add]; congr 1; omega
    rw [h4]
    have : (b.toNat % 2 ^ (8 - t) + 1) * 256 ^ r.length ≤ 2 ^ (8 - t) * 256 ^ r.length := Nat.mul_le_mul_right _ h2
    rw [Nat.add_mul] at this
    omega

/-- Unmasking the PSS data block. -/
theorem pss_unmask (P : Padding) (hm : P.hmgf.xof = false → 0 < P.hmgf.hlen) (emBits : Nat) (H salt : List Byte)
    (hs : salt.length = P.slen) (hk : P.hmsg.hlen + P.slen + 2 ≤ (emBits + 7) / 8) :
    clearTop (8 * ((emBits + 7) / 8) - emBits) (Spec.Pkcs1.xorBytes (clearTop (8 * ((emBits + 7) / 8) - emBits)
      (Spec.Pkcs1.xorBytes (List.replicate ((emBits + 7) / 8 - salt.length - P.hmsg.hlen - 2) 0 ++ [0x01] ++ salt)
        (P.hmgf.mgf H ((emBits + 7) / 8 - P.hmsg.hlen - 1)))) (P.hmgf.mgf H ((emBits + 7) / 8 - P.hmsg.hlen - 1)))
      = List.replicate ((emBits + 7) / 8 - P.hmsg.hlen - P.slen - 2) 0 ++ [0x01] ++ salt := by
  obtain ⟨DB, hDB⟩ : ∃ DB, DB = List.replicate ((emBits + 7) / 8 - salt.length - P.hmsg.hlen - 2) 0 ++ [0x01] ++ salt := ⟨_, rfl⟩
  rw [← hDB]
  have hDl : DB.length = (emBits + 7) / 8 - P.hmsg.hlen - 1 := by rw [hDB]; simp; omega
  obtain ⟨mk, hmk⟩ : ∃ mk, mk = P.hmgf.mgf H ((emBits + 7) / 8 - P.hmsg.hlen - 1) := ⟨_, rfl⟩
  rw [← hmk]
  have hml : mk.length = DB.length := by rw [hmk, length_mgf _ hm, hDl]
  rw [show List.replicate ((emBits + 7) / 8 - P.hmsg.hlen - P.slen - 2) 0 ++ [0x01] ++ salt = DB by
    rw [hDB]; congr 3; omega]
  have htp := topPad emBits
  have h0 : ∃ b l, DB = b :: l ∧ b.toNat < 2 ^ (8 - (8 * ((emBits + 7) / 8) - emBits)) := by
    by_cases hz : (emBits + 7) / 8 - salt.length - P.hmsg.hlen - 2 = 0
    · refine ⟨0x01, salt, by rw [hDB, hz]; simp, ?_⟩
      have : 2 ^ 1 ≤ 2 ^ (8 - (8 * ((emBits + 7) / 8) - emBits)) := Nat.pow_le_pow_right (by decide) (by omega)
      rw [show ((0x01 : BitVec 8)).toNat = 1 from rfl]; omega
    · obtain ⟨z, hz'⟩ : ∃ z, (emBits + 7) / 8 - salt.length - P.hmsg.hlen - 2 = z + 1 := ⟨_, (Nat.succ_pred hz).symm⟩
      refine ⟨0x00, List.replicate z 0 ++ [0x01] ++ salt, by rw [hDB, hz', List.replicate_succ]; rfl, ?_⟩
      rw [show ((0x00 : BitVec 8)).toNat = 0 from rfl]; exact Nat.pow_pos (by decide)
  obtain ⟨b, l, hbl, hbt⟩ := h0
  rw [hbl] at hml ⊢
  cases mk with
  | nil => simp at hml
  | cons c mk =>
    simp only [List.length_cons, Nat.add_right_cancel_iff] at hml
    have hxs := xorBytes_self l mk hml.symm
    generalize 8 * ((emBits + 7) / 8) - emBits = tp at htp hbt
    unfold Spec.Pkcs1.xorBytes at hxs ⊢
    simp only [List.zipWith_cons_cons, clearTop_cons]
    rw [hxs]
    congr 1
    have key := fun tp => maskTop_eq tp
    have e1 := key ⟨tp, htp⟩ (b ^^^ c)
    have e3 := key ⟨tp, htp⟩ b
    have e2 := key ⟨tp, htp⟩ (BitVec.ofNat 8 ((b ^^^ c).toNat % 2 ^ (8 - tp)) ^^^ c)
    simp only at e1 e2 e3
    rw [← e2, ← e1]
    rw [Nat.mod_eq_of_lt hbt, BitVec.ofNat_toNat, BitVec.setWidth_eq] at e3
    generalize BitVec.ofNat 8 (255 / 2 ^ tp) = M at e3 ⊢
    rw [← e3]
    apply BitVec.eq_of_getLsbD_eq
    intro i hi
    simp only [BitVec.getLsbD_and, BitVec.getLsbD_xor]
    cases M.getLsbD i <;> cases b.getLsbD i <;> cases c.getLsbD i <;> rfl

theorem orFold (l : List Byte) (c : BitVec 8) :
    l.foldl (fun (c : BitVec 16) d => c ||| d.setWidth 16) (c.setWidth 16) = (l.foldl (· ||| ·) c).setWidth 16 := by
  induction l generalizing c with
  | nil => rfl
  | cons d l ih =>
    rw [List.foldl_cons, List.foldl_cons, ← BitVec.setWidth_or, ih]

theorem orFold_zero (l : List Byte) (c : BitVec 8) : l.foldl (· ||| ·) c = 0 ↔ c = 0 ∧ ∀ b ∈ l, b = 0 := by
  induction l generalizing c with
  | nil => simp
  | cons d l ih =>
    rw [List.foldl_cons, ih, show c ||| d = 0 ↔ c = 0 ∧ d = 0 from BitVec.or_eq_zero_iff]
    simp only [List.mem_cons, forall_eq_or_imp, and_assoc]

theorem labelFold : ∀ c : BitVec 8,
    (let c : BitVec 16 := c.setWidth 16
     let c := c ||| c >>> 4
     let c := c ||| c >>> 2
     let c := c ||| c >>> 1
     (c &&& 1).setWidth 32) = if c = 0 then 0#32 else 1#32 := by decide +kernel

theorem zip_zero (a b : List Byte) (h : a.length = b.length) : (∀ x ∈ List.zipWith (· ^^^ ·) a b, x = 0) ↔ a = b := by
  induction a generalizing b with
  | nil => cases b with
    | nil => simp
    | cons _ _ => simp at h
  | cons x a ih => cases b with
    | nil => simp at h
    | cons z b =>
      rw [List.zipWith_cons_cons, List.cons.injEq, ← ih b (by simpa using h)]
      simp only [List.mem_cons, forall_eq_or_imp]
      have : x ^^^ z = 0 ↔ x = z := BitVec.xor_eq_zero_iff
      rw [this]

/-- The comparison of the label hash in `oaepTestLabel`. -/
theorem labelBit_eq (a b : List Byte) (h : a.length = b.length) :
    (let c : BitVec 16 := (List.zipWith (· ^^^ ·) a b).foldl (fun c d => c ||| d.setWidth 16) 0
     let c := c ||| c >>> 4
     let c := c ||| c >>> 2
     let c := c ||| c >>> 1
     (c &&& 1).setWidth 32) = if a = b then 0#32 else 1#32 := by
  have e := orFold (List.zipWith (· ^^^ ·) a b) 0
  rw [show (BitVec.setWidth 16 (0 : BitVec 8)) = 0 from rfl] at e
  simp only [e]
  have := labelFold ((List.zipWith (· ^^^ ·) a b).foldl (· ||| ·) 0)
  simp only at this
  rw [this]
  have iff : (List.zipWith (· ^^^ ·) a b).foldl (· ||| ·) (0 : Byte) = 0 ↔ a = b := by
    rw [orFold_zero]
    simp only [true_and]
    exact zip_zero a b h
  simp only [iff]

end Pkcs1
