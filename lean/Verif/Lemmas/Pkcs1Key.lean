import Verif.Lemmas.Pkcs1Enc
import Verif.Lemmas.Pkcs1Sig
import Verif.Props.Rsa
import Verif.Props.Vlong
import Verif.Lemmas.Cmac

/-! # Lemmas about the PKCS #1 model: the RSA operations on the contexts -/

namespace Pkcs1
open Vlong Spec Spec.Pkcs1

theorem length_words (b : List Byte) : (words b).length = b.length / 4 := (Props.C06_declsb _ _).1
theorem length_octets (v : List W) : (octets v).length = 4 * v.length := (Props.C06_enclsb _ _).1

theorem pow256 (n : Nat) : (256 : Nat) ^ n = 2 ^ (8 * n) := by rw [Nat.pow_mul]

theorem words_octets (v : List W) : words (octets v) = v := by
  unfold words
  rw [length_octets, Nat.mul_div_cancel_left _ (by decide)]
  refine (Props.C06_os2ip_i2osp v (4 * v.length) ?_).2
  have := val_lt v
  rw [pow256, show 8 * (4 * v.length) = 32 * v.length by omega]; exact this

theorem val_loadW1 (w os : List Byte) : val (words (loadW1 w os)) = beNat os % 2 ^ (32 * (w.length / 4)) := by
  unfold loadW1
  rw [words_octets]; exact (Props.C06_os2ip _ _).2

theorem length_loadW1 (w os : List Byte) : (loadW1 w os).length = 4 * (w.length / 4) := by
  unfold loadW1
  rw [length_octets, (Props.C06_os2ip _ _).1]

theorem beNat_inj {a b : List Byte} (hl : a.length = b.length) (h : beNat a = beNat b) : a = b :=
  List.reverse_inj.mp (leNat_inj (by simpa using hl) h)

theorem i2osp_eq (v : List W) (EM : List Byte) (h : val v = beNat EM) : i2osp v EM.length = EM := by
  apply beNat_inj (Props.C06_i2osp _ _).1
  rw [(Props.C06_i2osp _ _).2, h, Nat.mod_eq_of_lt (beNat_lt EM)]

theorem leLoop_eq (a b : List W) (t : Nat) :
    leLoop a b t = decide (val a % 2 ^ (32 * t) ≤ val b % 2 ^ (32 * t)) := by
  have step : ∀ (l : List W) (t : Nat), val l % 2 ^ (32 * (t + 1)) = val l % 2 ^ (32 * t) + 2 ^ (32 * t) * (rd l t).toNat := by
    intro l t
    have h1 : ∀ n, val (cpy n l) = val l % 2 ^ (32 * n) := fun n => val_cpy n l
    rw [rd_eq_ofNat, BitVec.toNat_ofNat, Nat.shiftRight_eq_div_pow, show 32 * (t + 1) = 32 * t + 32 by omega, Nat.pow_add, Nat.mod_mul]
  induction t with
  | zero => simp [leLoop, Nat.mod_one]
  | succ t ih =>
    rw [leLoop, step, step]
    have ha := Nat.mod_lt (val a) (show 0 < 2 ^ (32 * t) from Nat.pow_pos (by decide))
    have hb := Nat.mod_lt (val b) (show 0 < 2 ^ (32 * t) from Nat.pow_pos (by decide))
    rw [ih]
    generalize val a % 2 ^ (32 * t) = A at *
    generalize val b % 2 ^ (32 * t) = B at *
    generalize 2 ^ (32 * t) = X at *
    generalize (rd a t).toNat = u at *
    generalize (rd b t).toNat = v at *
    split
    · rename_i h
      have : X * (v + 1) ≤ X * u := Nat.mul_le_mul_left _ h
      rw [Nat.mul_add] at this
      symm; rw [decide_eq_false_iff_not]; omega
    split
    · rename_i h
      have : X * (u + 1) ≤ X * v := Nat.mul_le_mul_left _ h
      rw [Nat.mul_add] at this
      symm; rw [decide_eq_true_eq]; omega
    · have : u = v := by omega
      subst this
      congr 1
      apply propext; omega

theorem notAbove_eq (a b : List W) : notAbove a b = decide (val a ≤ val b) := by
  unfold notAbove
  rw [leLoop_eq]
  have ha := val_lt a
  have hb := val_lt b
  generalize ht : (if a.length > b.length then a.length else b.length) = t
  have h1 : a.length ≤ t ∧ b.length ≤ t := by rw [← ht]; split <;> omega
  have p1 : 2 ^ (32 * a.length) ≤ 2 ^ (32 * t) := Nat.pow_le_pow_right (by decide) (by omega)
  have p2 : 2 ^ (32 * b.length) ≤ 2 ^ (32 * t) := Nat.pow_le_pow_right (by decide) (by omega)
  rw [Nat.mod_eq_of_lt (by omega), Nat.mod_eq_of_lt (by omega)]

/-- A public-key context as the key parsers build it: the modulus has exactly `bits` bits and the working integers have a word
to spare. -/
structure PubOk (x : Pub) : Prop where
  e : x.e ≠ []
  len : x.n.length ≤ x.w2.length / 4
  room : val x.n * 2 ^ 32 ≤ 2 ^ (32 * (x.w2.length / 4))
  lo : 2 ^ (x.bits - 1) ≤ val x.n
  hi : val x.n < 2 ^ x.bits
  w1 : x.w1.length = x.w2.length

/-- A private-key context for the public exponent `e`: a valid multi-prime key whose modulus has exactly `bits` bits,
every prime fitting, with a word to spare, in the temporaries that `rsa_fastdec` sizes by `bits / number of primes`. -/
structure PrivOk (e : Nat) (y : Priv) : Prop where
  key : ValidRsaKey (val y.n) e (val y.q) (val y.dQ) (y.l.map fun x => (val x.r, val x.d, val x.t))
  lo : 2 ^ (y.bits - 1) ≤ val y.n
  hi : val y.n < 2 ^ y.bits
  small : y.bits < 2 ^ 31
  q : y.q.length ≤ bitsWcnt (y.bits / (y.l.length + 1)) ∧
    val y.q * 2 ^ 32 ≤ 2 ^ (32 * bitsWcnt (y.bits / (y.l.length + 1))) ∧ y.dQ ≠ []
  l : ∀ x ∈ y.l, x.r.length ≤ bitsWcnt (y.bits / (y.l.length + 1)) ∧
    val x.r * 2 ^ 32 ≤ 2 ^ (32 * bitsWcnt (y.bits / (y.l.length + 1))) ∧ x.d ≠ [] ∧ x.t ≠ []
  w : val y.n < 2 ^ (32 * (y.w2.length / 4))
  w1 : y.w1.length = y.w2.length

theorem bitsWcnt_ge (b : Nat) : b ≤ 32 * bitsWcnt b := by unfold bitsWcnt; omega

theorem rsaEnc_val (x : Pub) (hx : PubOk x) (w1 w2 : List Byte) (hl : w2.length = x.w2.length) (s : Int) (h : val (words w1) < val x.n) :
    ∃ C, ({ x with status := s, w1 := w1, w2 := w2 } : Pub).rsaEnc
        = some { x with status := s, w1 := w1, w2 := octets C } ∧ C.length = x.w2.length / 4 ∧
      val C = val (words w1) ^ val x.e % val x.n := by
  obtain ⟨C, h1, h2, h3⟩ := Props.C32_enc (x.w2.length / 4) x.n x.e (words w1) hx.e hx.len hx.room h
  refine ⟨C, ?_, h2, h3⟩
  unfold Pub.rsaEnc
  simp only [hl]
  rw [h1]; rfl

theorem fastdec_val (e : Nat) (y : Priv) (hy : PrivOk e y) (w1 w2 : List Byte) (hl : w2.length = y.w2.length) (s : Int) :
    ∃ M, ({ y with status := s, w1 := w1, w2 := w2 } : Priv).fastdec
        = some { y with status := s, w1 := w1, w2 := octets M } ∧ M.length = y.w2.length / 4 ∧ val M < val y.n ∧
      (∀ m, m < val y.n → val (words w1) = m ^ e % val y.n → val M = m) ∧
      (val (words w1) < val y.n → val M ^ e % val y.n = val (words w1)) := by
  have hvm : val y.n < 2 ^ (32 * bitsWcnt y.bits) :=
    Nat.lt_of_lt_of_le hy.hi (Nat.pow_le_pow_right (by decide) (bitsWcnt_ge _))
  obtain ⟨M, h1, h2, h3, h4⟩ := Props.C32_fastdec (bitsWcnt (y.bits / (y.l.length + 1))) (bitsWcnt y.bits) (y.w2.length / 4) (val y.n) e y.q y.dQ y.l
    (words w1) hy.key hy.q hy.l hvm hy.w
  refine ⟨M, ?_, h2, h3, ?_, ?_⟩
  · unfold Priv.fastdec
    simp only [hl]
    rw [h1]; rfl
  · intro m hm hC
    obtain ⟨M', a1, a2, a3⟩ := Props.C32_dec_enc (bitsWcnt (y.bits / (y.l.length + 1))) (bitsWcnt y.bits) (y.w2.length / 4) (val y.n) e y.q y.dQ y.l
      m (words w1) hy.key hy.q hy.l hvm hy.w hm hC
    rw [h1] at a1
    cases a1; exact a3
  · intro hC
    -- the exponent as an integer object
    obtain ⟨c, hc⟩ : ∃ c, e < 2 ^ (32 * c) := ⟨e, Nat.lt_of_lt_of_le Nat.lt_two_pow_self (Nat.pow_le_pow_right (by decide) (by omega))⟩
    have hne : 0 < val y.n := by omega
    obtain ⟨el, he0, he1⟩ : ∃ el : List W, el ≠ [] ∧ val el = e := by
      refine ⟨os2ip (c + 1) (beN (4 * (c + 1)) e), ?_, ?_⟩
      · intro h
        have := (Props.C06_os2ip (c + 1) (beN (4 * (c + 1)) e)).1
        rw [h] at this; simp at this
      · have hlt : e < 2 ^ (32 * (c + 1)) := Nat.lt_of_lt_of_le hc (Nat.pow_le_pow_right (by decide) (by omega))
        rw [(Props.C06_os2ip _ _).2, beNat_beN, pow256, show 8 * (4 * (c + 1)) = 32 * (c + 1) by omega, Nat.mod_mod, Nat.mod_eq_of_lt hlt]
    have hky : ValidRsaKey (val y.n) (val el) (val y.q) (val y.dQ) (y.l.map fun x => (val x.r, val x.d, val x.t)) := by rw [he1]; exact hy.key
    have hroom : val y.n * 2 ^ 32 ≤ 2 ^ (32 * (y.n.length + 1)) := by
      have := val_lt y.n
      rw [show 32 * (y.n.length + 1) = 32 * y.n.length + 32 by omega, Nat.pow_add]
      exact Nat.mul_le_mul_right _ (by omega)
    obtain ⟨M', C', a1, a2, a3⟩ := Props.C32_enc_dec (bitsWcnt (y.bits / (y.l.length + 1))) (bitsWcnt y.bits) (y.w2.length / 4)
      (y.n.length + 1) y.n el y.q y.dQ y.l (words w1) hky hy.q hy.l hvm hy.w he0 (by omega) hroom hC
    rw [h1] at a1
    cases a1
    obtain ⟨C2, b1, b2, b3⟩ := Props.C32_enc (y.n.length + 1) y.n el M he0 (by omega) hroom h3
    rw [a2] at b1
    cases b1
    rw [he1] at b3
    rw [← b3, a3]

end Pkcs1
