import Verif.Lemmas.Pkcs1Key

/-! # Lemmas about the PKCS #1 model: whole operations -/

namespace Pkcs1
open Vlong Spec Spec.Pkcs1

theorem i2osp_beN (v : List W) (k : Nat) : i2osp v k = beN k (val v) := by
  apply beNat_inj
  · rw [(Props.C06_i2osp _ _).1, length_beN]
  · rw [(Props.C06_i2osp _ _).2, beNat_beN]

theorem bytes_of_bits (b w n : Nat) (hlo : 2 ^ (b - 1) ≤ n) (hw : n < 2 ^ (32 * (w / 4))) (hb : 0 < b) : b ≤ 8 * (4 * (w / 4)) := by
  have : b - 1 < 32 * (w / 4) := (Nat.pow_lt_pow_iff_right (by decide)).mp (Nat.lt_of_le_of_lt hlo hw)
  omega

theorem PubOk.fits {x : Pub} (hx : PubOk x) : val x.n < 2 ^ (32 * (x.w2.length / 4)) := by
  have h := hx.room
  have hp : 0 < val x.n := Nat.lt_of_lt_of_le (Nat.pow_pos (by decide)) hx.lo
  omega

theorem take_wr (l : List Byte) (bs : List Byte) (h : bs.length ≤ l.length) : wrAt l 0 bs = some (bs ++ l.drop bs.length) := by
  unfold wrAt
  rw [if_pos (by omega)]; simp

theorem rdAt_zero (A B : List Byte) (n : Nat) (h : A.length = n) : rdAt (A ++ B) 0 n = some A := by
  have := rdAt_mid [] A B 0 n rfl h
  simpa using this

/-! ## OAEP encryption -/

theorem oaepTooLong_false (h k s : Nat) (hk : s + 2 * h + 2 ≤ k) (hk2 : k < 2 ^ 32) : oaepTooLong h k s = false := by
  unfold oaepTooLong
  rw [decide_eq_false_iff_not]
  have : ((k : Int) - 2 * h - 2) % 2 ^ 32 = (k : Int) - 2 * h - 2 := Int.emod_eq_of_lt (by omega) (by omega)
  omega

/-- The message representative of an encoded block that starts with a zero octet is below the modulus. -/
theorem repr_lt (EM : List Byte) (bits n : Nat) (l : List Byte) (hE : EM = 0x00 :: l) (hl : 8 * EM.length ≤ bits) (hlo : 2 ^ (bits - 1) ≤ n) :
    beNat EM < n := by
  rw [hE, beNat_cons]
  have h1 := beNat_lt l
  rw [pow256] at h1
  have h2 : 2 ^ (8 * l.length) ≤ 2 ^ (bits - 1) := Nat.pow_le_pow_right (by decide) (by rw [hE] at hl; simp at hl; omega)
  simp only [show ((0x00 : BitVec 8)).toNat = 0 from rfl, Nat.zero_mul, Nat.zero_add]
  omega

/-- From a prepared block to the ciphertext. -/
theorem oaepEnc_prepared (P : Padding) (hm : P.hmgf.xof = false → 0 < P.hmgf.hlen) (x0 : Pub) (hx : PubOk x0) (s : Int) (w2 : List Byte)
    (hbits : x0.bits < 2 ^ 31) (sslen : Nat) (rng : Nat → Nat → List Byte)
    (hr : ∀ i n, (rng i n).length = n) (hk : sslen + 2 * P.hmsg.hlen + 2 ≤ x0.bits / 8)
    (lHash s0 tail : List Byte) (hl : lHash.length = P.hmsg.hlen) (hs0 : s0.length = P.hmsg.hlen)
    (htail : tail.length + x0.bits / 8 = x0.w2.length)
    (hst : oaepStart P { x0 with status := s, w2 := w2 } = some ([0] ++ (s0 ++ (lHash ++ (List.replicate (x0.bits / 8 - 2 * P.hmsg.hlen - 1) 0 ++ tail))))) :
    ∃ C w1, oaepEnc P { x0 with status := s, w2 := w2 } sslen rng = some ({ x0 with status := 1, w1 := w1, w2 := octets C }, some (rng 0 sslen)) ∧
      C.length = x0.w2.length / 4 ∧
      val C = beNat (oaepEncode P.hmgf.mgf P.hmsg.hlen (x0.bits / 8) lHash (rng 0 sslen) (rng 1 P.hmsg.hlen)) ^ val x0.e % val x0.n := by
  obtain ⟨k, hke⟩ : ∃ k, k = x0.bits / 8 := ⟨_, rfl⟩
  have hlen := length_oaepEncode P hm k (rng 0 sslen) (rng 1 P.hmsg.hlen) lHash (by rw [hr]; omega) hl (hr _ _)
  obtain ⟨EM, hEM⟩ : ∃ EM, EM = oaepEncode P.hmgf.mgf P.hmsg.hlen k lHash (rng 0 sslen) (rng 1 P.hmsg.hlen) := ⟨_, rfl⟩
  rw [← hEM] at hlen
  have hblk := oaepBlock_eq P hm k (rng 0 sslen) (rng 1 P.hmsg.hlen) lHash s0 tail (by rw [hr]; omega) hl (hr _ _) hs0
  rw [← hEM] at hblk
  have hz : ∃ l, EM = 0x00 :: l := ⟨_, hEM⟩
  obtain ⟨l, hz⟩ := hz
  have hlt : beNat EM < val x0.n := repr_lt EM x0.bits _ l hz (by rw [hlen]; omega) hx.lo
  have hv : val (words (loadW1 x0.w1 EM)) = beNat EM := by
    rw [val_loadW1, hx.w1, Nat.mod_eq_of_lt (Nat.lt_trans hlt hx.fits)]
  obtain ⟨C, c1, c2, c3⟩ := rsaEnc_val x0 hx (loadW1 x0.w1 EM) (EM ++ tail) (by simp; omega) s (by rw [hv]; exact hlt)
  refine ⟨C, loadW1 x0.w1 EM, ?_, c2, by rw [c3, hv, hEM, hke]⟩
  unfold oaepEnc
  simp only [← hke]
  rw [oaepTooLong_false _ _ _ (by omega) (by omega)]
  rw [if_neg (by simp), hst, ← hke]
  simp only [Option.bind_eq_bind, Option.bind_some]
  rw [hblk, Option.bind_some, rdAt_zero EM tail k hlen, Option.bind_some]
  rw [c1]; rfl

theorem oaepEnc_plain (P : Padding) (hm : P.hmgf.xof = false → 0 < P.hmgf.hlen) (x : Pub) (hx : PubOk x) (hst : x.status ≠ 2)
    (hbits : x.bits < 2 ^ 31) (sslen : Nat) (rng : Nat → Nat → List Byte)
    (hr : ∀ i n, (rng i n).length = n) (hk : sslen + 2 * P.hmsg.hlen + 2 ≤ x.bits / 8) :
    ∃ C w1, oaepEnc P x sslen rng = some ({ x with status := 1, w1 := w1, w2 := octets C }, some (rng 0 sslen)) ∧
      C.length = x.w2.length / 4 ∧
      val C = beNat (oaepEncode P.hmgf.mgf P.hmsg.hlen (x.bits / 8) (P.hmsg.full []) (rng 0 sslen) (rng 1 P.hmsg.hlen)) ^ val x.e % val x.n := by
  have hb := bytes_of_bits x.bits x.w2.length (val x.n) hx.lo hx.fits (by omega)
  refine oaepEnc_prepared P hm x hx x.status x.w2 hbits sslen rng hr hk (P.hmsg.full []) (List.replicate P.hmsg.hlen 0) (x.w2.drop (x.bits / 8))
    (by simp [Hash.full]) (by simp) (by simp; omega) ?_
  unfold oaepStart
  rw [if_neg hst, oaepLabel_eq P (x.bits / 8) [] x.w2 (by omega) (by omega)]; rfl

theorem oaepEnc_label (P : Padding) (hm : P.hmgf.xof = false → 0 < P.hmgf.hlen) (x : Pub) (hx : PubOk x)
    (hbits : x.bits < 2 ^ 31) (label : List Byte) (sslen : Nat) (rng : Nat → Nat → List Byte)
    (hr : ∀ i n, (rng i n).length = n) (hk : sslen + 2 * P.hmsg.hlen + 2 ≤ x.bits / 8) :
    ∃ x1 C w1, oaepSetLabel P x label = some x1 ∧
      oaepEnc P x1 sslen rng = some ({ x with status := 1, w1 := w1, w2 := octets C }, some (rng 0 sslen)) ∧
      C.length = x.w2.length / 4 ∧
      val C = beNat (oaepEncode P.hmgf.mgf P.hmsg.hlen (x.bits / 8) (P.hmsg.full label) (rng 0 sslen) (rng 1 P.hmsg.hlen)) ^ val x.e % val x.n := by
  have hb := bytes_of_bits x.bits x.w2.length (val x.n) hx.lo hx.fits (by omega)
  have hl := oaepLabel_eq P (x.bits / 8) label x.w2 (by omega) (by omega)
  obtain ⟨buf, hbuf⟩ : ∃ buf, buf = [0] ++ (List.replicate P.hmsg.hlen 0 ++ (P.hmsg.digest label P.hmsg.hlen ++
      (List.replicate (x.bits / 8 - 2 * P.hmsg.hlen - 1) 0 ++ x.w2.drop (x.bits / 8)))) := ⟨_, rfl⟩
  rw [← hbuf] at hl
  have hbl : buf.length = x.w2.length := by rw [hbuf]; simp; omega
  obtain ⟨C, w1, h1, h2, h3⟩ := oaepEnc_prepared P hm x hx 2 buf hbits sslen rng hr hk (P.hmsg.full label)
    (List.replicate P.hmsg.hlen 0) (x.w2.drop (x.bits / 8)) (by simp [Hash.full]) (by simp) (by simp; omega)
    (by unfold oaepStart; rw [if_pos rfl, hbuf]; rfl)
  refine ⟨_, C, w1, ?_, h1, h2, h3⟩
  unfold oaepSetLabel
  rw [hl]; rfl

/-! ## OAEP decryption -/

theorem oaepDecodes_iff (P : Padding) (hm : P.hmgf.xof = false → 0 < P.hmgf.hlen) (k : Nat) (b0 : Byte) (ms md lHash M : List Byte)
    (hk : 2 * P.hmsg.hlen + 2 ≤ k) (hs : ms.length = P.hmsg.hlen) (hd : md.length = k - P.hmsg.hlen - 1)
    (seed DB rest : List Byte) (t : Nat) (h1 : seed = Spec.Pkcs1.xorBytes ms (P.hmgf.mgf md P.hmsg.hlen))
    (h2 : DB = Spec.Pkcs1.xorBytes md (P.hmgf.mgf seed (k - P.hmsg.hlen - 1))) (h3 : rest = DB.drop P.hmsg.hlen)
    (h4 : t = sepLoop (rest.take (rest.length - 1))) :
    OaepDecodes P.hmgf.mgf P.hmsg.hlen k ([b0] ++ (ms ++ md)) lHash M ↔
      (b0 = 0 ∧ rest.getD t 0 = 1) ∧ lHash = DB.take P.hmsg.hlen ∧ M = rest.drop (t + 1) := by
  have hDl : DB.length = k - P.hmsg.hlen - 1 := by
    rw [h2, length_xorBytes _ _ (by rw [length_mgf _ hm]; omega)]; exact hd
  constructor
  · rintro ⟨ms', md', z, e1, e2, e3, e4⟩
    rw [List.singleton_append, List.cons.injEq] at e1
    obtain ⟨rfl, e1⟩ := e1
    obtain ⟨rfl, rfl⟩ := List.append_inj e1 (by omega)
    rw [← h1, ← h2] at e4
    have hrest : rest = List.replicate z 0 ++ ([0x01] ++ M) := by
      rw [h3, e4, List.append_assoc, List.append_assoc, List.drop_left' e3]
    have hf := sep_found z M
    simp only at hf
    rw [← hrest, ← h4] at hf
    refine ⟨⟨rfl, by rw [hf.1]; exact hf.2⟩, ?_, ?_⟩
    · rw [e4, List.append_assoc, List.append_assoc, List.take_left' e3]
    · rw [hf.1, hrest, ← List.append_assoc, List.drop_left' (by simp)]
  · rintro ⟨⟨rfl, h5⟩, rfl, rfl⟩
    have hrl : 0 < rest.length := by rw [h3]; simp; omega
    have hso := sep_only rest hrl t h4 h5
    refine ⟨ms, md, t, rfl, hs, by simp; omega, ?_⟩
    rw [← h1, ← h2, List.append_assoc, List.append_assoc, ← hso, h3, List.take_append_drop]

/-- Decryption of the integer in `w1`. -/
theorem oaepDec_spec (P : Padding) (hm : P.hmgf.xof = false → 0 < P.hmgf.hlen) (e : Nat) (y : Priv) (hy : PrivOk e y) (hst : y.status = 0)
    (hk : 2 * P.hmsg.hlen + 2 ≤ y.bits / 8) (hC : val (words y.w1) ≤ val y.n) (req : Option Nat) :
    ∃ m y' r, m < val y.n ∧ (val (words y.w1) < val y.n → m ^ e % val y.n = val (words y.w1)) ∧
      oaepDec P y req = some (y', r) ∧ y'.bits = y.bits ∧
      (∀ lHash M, OaepDecodes P.hmgf.mgf P.hmsg.hlen (y.bits / 8) (beN (y.bits / 8) m) lHash M →
        y'.status = M.length ∧ r.ok = true ∧ (req = none → r.len = some (M.length : Int)) ∧
        (∀ n, req = some n → r.ss = M.take n ++ List.replicate (n - M.length) 0) ∧
        rdAt y'.w1 (1 + P.hmsg.hlen) P.hmsg.hlen = some lHash ∧
        ∃ A tail, y'.w1 = A ++ (M ++ tail) ∧ A.length + M.length = y.bits / 8) ∧
      ((¬ ∃ lHash M, OaepDecodes P.hmgf.mgf P.hmsg.hlen (y.bits / 8) (beN (y.bits / 8) m) lHash M) →
        y'.status = -1 ∧ r.ok = false ∧ r.ss = List.replicate (req.getD 0) 0 ∧ r.len = if req = none then some (-1) else none) := by
  obtain ⟨M, f1, f2, f3, f4, f5⟩ := fastdec_val e y hy y.w1 y.w2 rfl 0
  have hb := bytes_of_bits y.bits y.w2.length (val y.n) hy.lo hy.w (by omega)
  have hbs := hy.small
  obtain ⟨k, hke⟩ : ∃ k, k = y.bits / 8 := ⟨_, rfl⟩
  simp only [← hke] at hk ⊢
  have hw1 := hy.w1
  obtain ⟨EM, hEM⟩ : ∃ EM, EM = beN k (val M) := ⟨_, rfl⟩
  have hEl : EM.length = k := by rw [hEM, length_beN]
  obtain ⟨b0, ms, md, hdec, hs, hd⟩ : ∃ b0 ms md, EM = [b0] ++ (ms ++ md) ∧ ms.length = P.hmsg.hlen ∧ md.length = k - P.hmsg.hlen - 1 := by
    cases EM with
    | nil => simp at hEl; omega
    | cons b l =>
      simp at hEl
      exact ⟨b, l.take P.hmsg.hlen, l.drop P.hmsg.hlen, by simp, by simp; omega, by simp; omega⟩
  obtain ⟨seed, h1⟩ : ∃ s, s = Spec.Pkcs1.xorBytes ms (P.hmgf.mgf md P.hmsg.hlen) := ⟨_, rfl⟩
  obtain ⟨DB, h2⟩ : ∃ s, s = Spec.Pkcs1.xorBytes md (P.hmgf.mgf seed (k - P.hmsg.hlen - 1)) := ⟨_, rfl⟩
  obtain ⟨rest, h3⟩ : ∃ s, s = DB.drop P.hmsg.hlen := ⟨_, rfl⟩
  obtain ⟨t, h4⟩ : ∃ s, s = sepLoop (rest.take (rest.length - 1)) := ⟨_, rfl⟩
  have hDl : DB.length = k - P.hmsg.hlen - 1 := by
    rw [h2, length_xorBytes _ _ (by rw [length_mgf _ hm]; omega)]; exact hd
  have hsl : seed.length = P.hmsg.hlen := by
    rw [h1, length_xorBytes _ _ (by rw [length_mgf _ hm]; omega)]; exact hs
  have hrl : rest.length = k - 2 * P.hmsg.hlen - 1 := by rw [h3]; simp; omega
  have hiff := fun lHash M => oaepDecodes_iff P hm k b0 ms md lHash M hk hs hd seed DB rest t h1 h2 h3 h4
  have hparse := oaepParse_eq P hm k b0 ms md (y.w1.drop k) hk hs hd
  simp only [← h1, ← h2, ← h3, ← h4] at hparse
  obtain ⟨st, hste⟩ : ∃ st : Int, st = if b0 = 0 ∧ rest.getD t 0 = 1 then ((rest.length - t - 1 : Nat) : Int) else -1 := ⟨_, rfl⟩
  rw [← hste] at hparse
  have hdecomp : oaepDec P y req
      = (decFinish k st ([b0] ++ (seed ++ (DB ++ y.w1.drop k))) req).bind fun r =>
          some ({ y with w1 := [b0] ++ (seed ++ (DB ++ y.w1.drop k)), w2 := octets M, status := st }, r) := by
    unfold oaepDec
    simp only [← hke]
    rw [if_neg (by rw [hst]; simp), notAbove_eq, if_neg (by simp; omega)]
    have : y = { y with status := 0 } := by rw [← hst]
    rw [show y.fastdec = some { y with status := 0, w1 := y.w1, w2 := octets M } by rw [← f1, ← hst]]
    simp only [Option.bind_eq_bind, Option.bind_some, words_octets]
    rw [i2osp_beN, ← hEM, take_wr _ _ (by rw [hEl]; omega)]
    simp only [Option.bind_some]
    rw [hEl, hdec, List.append_assoc, List.append_assoc, hparse]
    simp only [Option.bind_some]
  by_cases hc : b0 = 0 ∧ rest.getD t 0 = 1
  · rw [if_pos hc] at hste
    have hrp : 0 < rest.length := by omega
    have hso := sep_only rest hrp t h4 hc.2
    obtain ⟨Mm, hMm⟩ : ∃ Mm, Mm = rest.drop (t + 1) := ⟨_, rfl⟩
    have hMl : Mm.length = rest.length - t - 1 := by rw [hMm]; simp; omega
    rw [← hMm] at hso
    have hDB : DB = DB.take P.hmsg.hlen ++ (List.replicate t 0 ++ ([0x01] ++ Mm)) := by
      conv_lhs => rw [← List.take_append_drop P.hmsg.hlen DB, ← h3, hso]
    obtain ⟨A, hA⟩ : ∃ A, A = [b0] ++ (seed ++ (DB.take P.hmsg.hlen ++ (List.replicate t 0 ++ [0x01]))) := ⟨_, rfl⟩
    have hform : [b0] ++ (seed ++ (DB ++ y.w1.drop k)) = A ++ (Mm ++ y.w1.drop k) := by
      conv_lhs => rw [hDB]
      rw [hA]; simp
    have htl : t < rest.length := by
      have := congrArg List.length hso
      simp at this; omega
    have hAl : A.length + Mm.length = k := by
      rw [hA]; simp; omega
    obtain ⟨r, r1, r2, r3, r4⟩ := decFinish_ok k A Mm (y.w1.drop k) req hAl (by omega)
    have hst' : st = (Mm.length : Int) := by rw [hste, hMl]
    rw [hst', hform, r1, Option.bind_some] at hdecomp
    refine ⟨val M, _, r, f3, f5, hdecomp, rfl, ?_, ?_⟩
    · intro lHash M' hd'
      rw [← hEM, hdec, hiff] at hd'
      obtain ⟨-, d2, d3⟩ := hd'
      rw [← hMm] at d3
      subst d3
      refine ⟨rfl, r2, r4, r3, ?_, A, y.w1.drop k, rfl, hAl⟩
      rw [← hform, d2]
      have := rdAt_mid ([b0] ++ seed) (DB.take P.hmsg.hlen) (DB.drop P.hmsg.hlen ++ y.w1.drop k) (1 + P.hmsg.hlen) P.hmsg.hlen (by simp; omega)
        (by simp; omega)
      rw [← List.append_assoc (DB.take P.hmsg.hlen), List.take_append_drop, List.append_assoc] at this
      exact this
    · intro hno
      exact absurd ⟨_, _, by rw [← hEM, hdec]; exact (hiff _ _).mpr ⟨hc, rfl, rfl⟩⟩ hno
  · rw [if_neg hc] at hste
    obtain ⟨r, r1, r2, r3, r4⟩ := decFinish_fail k ([b0] ++ (seed ++ (DB ++ y.w1.drop k))) req (by simp; omega)
    rw [hste, r1, Option.bind_some] at hdecomp
    refine ⟨val M, _, r, f3, f5, hdecomp, rfl, ?_, ?_⟩
    · intro lHash M' hd'
      rw [← hEM, hdec, hiff] at hd'
      exact absurd hd'.1 hc
    · intro _
      exact ⟨rfl, r2, r3, r4⟩

end Pkcs1
