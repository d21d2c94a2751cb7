import Verif.Lemmas.VlongMul

/-!
# Properties C01 - C06: big-integer arithmetic (`vlong.c`, `vlong-dat.c`)

`Spec.val` is the number denoted by a little-endian word list, `Spec.sval` its two's-complement
reading, `Spec.leNat`/`Spec.beNat` the number denoted by a byte string.
-/

namespace Props
open Vlong Spec

/-! ## C01 additive arithmetic -/

/-- C01: `vlong_addv`. -/
theorem C01_addv (c : Nat) (a b : List W) :
    (addv c a b).length = c ∧ val (addv c a b) = (val a + val b) % 2 ^ (32 * c) :=
  ⟨length_addKernel _ _ _ _ _, by
    have h := val_of_modEq (length_addKernel _ _ _ _ _) (addv_modEq c a b)
    exact_mod_cast h⟩

/-- C01: `vlong_subv` (a negative difference wraps to its residue). -/
theorem C01_subv (c : Nat) (a b : List W) :
    (subv c a b).length = c ∧
      (val (subv c a b) : Int) = ((val a : Int) - val b) % 2 ^ (32 * c) :=
  ⟨length_addKernel _ _ _ _ _, val_of_modEq (length_addKernel _ _ _ _ _) (subv_modEq c a b)⟩

/-- C01: `vlong_adds` adds the signed scalar `b` at word position `s`
(for scalars below `2^62` in magnitude; beyond that the 64-bit accumulator overflows). -/
theorem C01_adds (c : Nat) (a : List W) (b : BitVec 64) (s : Nat)
    (h1 : -2 ^ 62 < b.toInt) (h2 : b.toInt < 2 ^ 62) :
    (adds c a b s).length = c ∧
      (val (adds c a b s) : Int) = ((val a : Int) + b.toInt * 2 ^ (32 * s)) % 2 ^ (32 * c) :=
  ⟨length_addKernel _ _ _ _ _, val_of_modEq (length_addKernel _ _ _ _ _) (adds_modEq c a b s h1 h2)⟩

/-- C01: `vlong_muls`, with and without accumulation, for every 32-bit multiplier. -/
theorem C01_muls (out a : List W) (b : W) (accum : Bool) :
    (muls out a b accum).length = out.length ∧
      val (muls out a b accum) =
        (val a * b.toNat + (if accum then val out else 0)) % 2 ^ (32 * out.length) :=
  ⟨length_muls _ _ _ _, val_muls out a b accum⟩

/-- C01: `vlong_imuls` for every multiplier in the `int32_t` range. -/
theorem C01_imuls (out a : List W) (b : BitVec 64) (accum : Bool)
    (hb1 : -2 ^ 31 ≤ b.toInt) (hb2 : b.toInt < 2 ^ 31) :
    (imuls out a b accum).length = out.length ∧
      (val (imuls out a b accum) : Int) =
        ((val a : Int) * b.toInt + (if accum then val out else 0)) % 2 ^ (32 * out.length) :=
  ⟨length_imulsLoop _ _ _ _ _ _,
    val_of_modEq (length_imulsLoop _ _ _ _ _ _) (imuls_modEq out a b accum hb1 hb2)⟩

/-- C01: the `int32_t` range in `C01_imuls` cannot be dropped: the parameter of `vlong_imuls` is an
`int64_t`, but a multiplier such as `2^40` loses the part of the carry above 32 bits. -/
theorem C01_imuls_wide_multiplier_wrong :
    ∃ (out a : List W) (b : BitVec 64),
      (val (imuls out a b false) : Int) ≠ ((val a : Int) * b.toInt) % 2 ^ (32 * out.length) :=
  ⟨[0, 0, 0], [0x80000000], 0x10000000000, by decide⟩

example : (-2 ^ 62 < (BitVec.ofInt 64 (-5)).toInt) ∧ (BitVec.ofInt 64 (-5)).toInt < 2 ^ 62 := by decide
example : addv 2 [0xffffffff, 1] [1] = [0, 2] := by decide
example : subv 2 [0] [1] = [0xffffffff, 0xffffffff] := by decide
example : imuls [7, 0] [3] (BitVec.ofInt 64 (-2)) true = [1, 0] := by decide

/-! ## C02 comparison -/

/-- C02: `vlong_cmps` on words. -/
theorem C02_cmps (a b : W) :
    (cmps a b = 2 ↔ a.toNat < b.toNat) ∧ (cmps a b = 0 ↔ a.toNat = b.toNat) ∧
      (cmps a b = 1 ↔ a.toNat > b.toNat) := by
  rw [cmps_eq]
  unfold cmpRes
  rcases Nat.lt_trichotomy a.toNat b.toNat with h | h | h
  · simp [h]; omega
  · simp [h]
  · have h1 : ¬ a.toNat < b.toNat := by omega
    have h2 : ¬ a.toNat = b.toNat := by omega
    simp [h1, h2]; omega

/-- C02: `vlong_cmpv_shifted` compares `a` with `b * 2^s`, for any word counts and any shift. -/
theorem C02_cmpv_shifted (a b : List W) (s : Nat) :
    (cmpvShifted a b s = 2 ↔ val a < val b * 2 ^ s) ∧ (cmpvShifted a b s = 0 ↔ val a = val b * 2 ^ s) ∧
      (cmpvShifted a b s = 1 ↔ val a > val b * 2 ^ s) := by
  rw [cmpvShifted_eq]
  unfold cmpRes
  rcases Nat.lt_trichotomy (val a) (val b * 2 ^ s) with h | h | h
  · simp [h]; omega
  · simp [h]
  · have h1 : ¬ val a < val b * 2 ^ s := by omega
    have h2 : ¬ val a = val b * 2 ^ s := by omega
    simp [h1, h2]; omega

example : cmpvShifted [0, 6] [3, 0, 0] 33 = 0 := by decide
example : cmpvShifted [0xffffffff] [1] 32 = 2 := by decide

/-! ## C03 multiplication -/

/-- C03: without a reduction callback, `vlong_mulv_masked` writes `a*b mod 2^(32c)` (mask 1)
or `a mod 2^(32c)` (mask 0). -/
theorem C03_mulv_plain (c : Nat) (a b : List W) (hb : b ≠ []) :
    (∃ o, mulvMasked c a b 1 none = some o ∧ o.length = c ∧ val o = val a * val b % 2 ^ (32 * c)) ∧
    (∃ o, mulvMasked c a b 0 none = some o ∧ o.length = c ∧ val o = val a % 2 ^ (32 * c)) := by
  constructor
  · simpa [factor] using mulvMasked_none c a b 1 (Or.inr rfl) hb
  · simpa [factor] using mulvMasked_none c a b 0 (Or.inl rfl) hb

/-- C03: with a reduction callback that maps every `c`-word number to one congruent modulo `m`
and below `M`, the product is congruent to `a*b` (mask 1) or `a` (mask 0) modulo `m`, provided
the destination has one word of headroom over `M` and over `a`. -/
theorem C03_mulv_reduced (c : Nat) (a b : List W) (f : ModFunc) (m M : Nat) (hb : b ≠ []) (hM : 0 < M)
    (hf : ∀ l : List W, l.length = c →
      ∃ l', f l = some l' ∧ l'.length = c ∧ val l' % m = val l % m ∧ val l' < M)
    (h1 : val a * (2 ^ 32 - 1) + M ≤ 2 ^ (32 * c)) (h2 : M * 2 ^ 32 ≤ 2 ^ (32 * c)) :
    (∃ o, mulvMasked c a b 1 (some f) = some o ∧ o.length = c ∧ val o < M ∧
      val o % m = val a * val b % m) ∧
    (∃ o, mulvMasked c a b 0 (some f) = some o ∧ o.length = c ∧ val o < M ∧
      val o % m = val a % m) := by
  constructor
  · simpa [factor, Nat.ModEq] using mulvMasked_some c a b 1 f m M hf hM h1 h2 (Or.inr rfl) hb
  · simpa [factor, Nat.ModEq] using mulvMasked_some c a b 0 f m M hf hM h1 h2 (Or.inl rfl) hb

/-- C03 with the library's own generic callback `vlong_remv_inplace` on modulus `m`:
the result is exactly `a*b mod m`. -/
theorem C03_mulv_mod (c : Nat) (a b m : List W) (hb : b ≠ [])
    (ha : val a < val m) (hc : m.length + 1 ≤ c) :
    ∃ o, mulvMasked c a b 1 (some fun l => remvInplace l m) = some o ∧ o.length = c ∧
      val o = val a * val b % val m := by
  have h2 : val m * 2 ^ 32 ≤ 2 ^ (32 * c) := by
    calc val m * 2 ^ 32 ≤ 2 ^ (32 * m.length) * 2 ^ 32 := Nat.mul_le_mul_right _ (Nat.le_of_lt (val_lt m))
      _ = 2 ^ (32 * m.length + 32) := by rw [Nat.pow_add]
      _ ≤ _ := Nat.pow_le_pow_right (by decide) (by omega)
  obtain ⟨⟨o, h, hl, hlt, hv⟩, -⟩ := C03_mulv_reduced c a b (fun l => remvInplace l m) (val m) (val m) hb
    (by omega)
    (by
      intro l hl
      obtain ⟨r, h1, h2, h3⟩ := remvInplace_val l m (by omega)
      exact ⟨r, h1, by omega, by rw [h3, Nat.mod_mod], by rw [h3]; exact Nat.mod_lt _ (by omega)⟩)
    (room ha h2) h2
  exact ⟨o, h, hl, by rw [← hv, Nat.mod_eq_of_lt hlt]⟩

/-- C03: the headroom word matters: with a destination of exactly the modulus' size the "reduced"
product is wrong. -/
theorem C03_headroom_needed :
    ∃ (a b m : List W), val a < val m ∧ val b < val m ∧
      ∃ o, mulvMasked m.length a b 1 (some fun l => remvInplace l m) = some o ∧
        val o ≠ val a * val b % val m :=
  ⟨[0xfffffffa], [0xfffffffa], [0xfffffffb], by decide, by decide,
    (remvInplace (muls [0] [0xfffffffa] 0xfffffffa true) [0xfffffffb]).getD [], by decide +kernel,
    by decide +kernel⟩

example : val [(9 : W), 6] < val [(5 : W), 7] ∧ [(5 : W), 7].length + 1 ≤ 3 := by
  decide

/-! ## C04 division -/

/-- C04: `vlong_divv`.  The remainder object must be large enough for twice the divisor or for the
dividend. -/
theorem C04_divv (remc quoc : Nat) (a b : List W) (h1 : a.length ≤ quoc) (h2 : b.length ≤ remc)
    (hb : val b ≠ 0) (hroom : 2 * val b ≤ 2 ^ (32 * remc) ∨ val a < 2 ^ (32 * remc)) :
    ∃ r q, divv remc quoc a b = some (r, q) ∧ val a = val q * val b + val r ∧ val r < val b := by
  obtain ⟨r, q, h, -, -, hr, hq⟩ := divv_val remc quoc a b h1 h2 hb hroom
  refine ⟨r, q, h, ?_, ?_⟩
  · rw [hr, hq, Nat.mul_comm]; exact (Nat.div_add_mod _ _).symm
  · rw [hr]; exact Nat.mod_lt _ (by omega)

/-- C04: NULL exactly when an output is too small. -/
theorem C04_divv_null (remc quoc : Nat) (a b : List W) :
    divv remc quoc a b = none ↔ (quoc < a.length ∨ remc < b.length) := by
  unfold divv; split
  · simp_all
  · split <;> simp_all

/-- C04, finding: the checks `vlong_divv` makes (`quo->c >= a->c`, `rem->c >= b->c`) are not enough:
when neither `2b` nor `a` fits the remainder object, quotient and remainder are wrong. -/
theorem C04_divv_documented_sizes_insufficient :
    ∃ (a b r q : List W), divv b.length a.length a b = some (r, q) ∧ val b ≠ 0 ∧
      val a ≠ val q * val b + val r :=
  ⟨[0, 1], [0xC0000000], [0], [0, 0], by decide +kernel, by decide, by decide⟩

/-- C04: `vlong_remv_inplace` computes the residue (and leaves the value alone for a zero modulus),
returning NULL exactly when the object is shorter than the modulus. -/
theorem C04_remv (rem b : List W) :
    (rem.length < b.length → remvInplace rem b = none) ∧
    (b.length ≤ rem.length → ∃ r, remvInplace rem b = some r ∧ r.length = rem.length ∧
      (val b ≠ 0 → val r = val rem % val b) ∧ (val b = 0 → val r = val rem)) := by
  constructor
  · exact (remvInplace_none rem b).mpr
  · intro h
    obtain ⟨r, h1, h2, h3⟩ := remvInplace_val rem b h
    exact ⟨r, h1, h2, fun _ => h3, fun h0 => by rw [h3, h0, Nat.mod_zero]⟩

/-- C04: reducing twice is reducing once (the word contents do not change the second time). -/
theorem C04_remv_idempotent (rem b r r' : List W)
    (h1 : remvInplace rem b = some r) (h2 : remvInplace r b = some r') : r' = r := by
  have hl : b.length ≤ rem.length := by
    by_contra h
    rw [(remvInplace_none rem b).mpr (by omega)] at h1; simp at h1
  obtain ⟨s, e1, l1, v1⟩ := remvInplace_val rem b hl
  rw [h1] at e1; cases e1
  obtain ⟨t, e2, l2, v2⟩ := remvInplace_val r b (by omega)
  rw [h2] at e2; cases e2
  apply val_inj l2
  rw [v2, v1, Nat.mod_mod]

/-- C04: `vlong_imod_inplace` reduces the two's-complement reading into `[0, b)`. -/
theorem C04_imod (rem b : List W) (h0 : rem ≠ []) (h1 : b.length ≤ rem.length) (hb : val b ≠ 0) :
    (imodInplace rem b).length = rem.length ∧
      (val (imodInplace rem b) : Int) = sval rem % val b :=
  imodInplace_val rem b (List.length_pos_iff.mpr h0) h1 hb

example : 2 * val [(0xC0000000 : W)] ≤ 2 ^ (32 * 2) := by decide
example : remvInplace [5, 7, 0] [0, 3] = some [5, 1, 0] := by decide +kernel
example : imodInplace [0xfffffffe, 0xffffffff] [7] = [5, 0] := by decide +kernel
example : sval [0xfffffffe, 0xffffffff] = -2 := by decide

/-! ## C05 modular exponentiation -/

/-- C05: `vlong_modexpv` with a callback reducing modulo `m` to values below `M`. -/
theorem C05_modexpv (c : Nat) (base e : List W) (f : ModFunc) (m M : Nat)
    (hf : ∀ l : List W, l.length = c →
      ∃ l', f l = some l' ∧ l'.length = c ∧ val l' % m = val l % m ∧ val l' < M)
    (hM : 0 < M) (hc : M * 2 ^ 32 ≤ 2 ^ (32 * c)) (he : e ≠ []) (hb : val base < M) :
    ∃ o, modexpv c base e (some f) = some o ∧ o.length = c ∧ val o < M ∧
      val o % m = val base ^ val e % m :=
  modexpv_val c base e f m M hf hM hc he hb

/-- C05 with the generic callback: exactly `base^e mod m`, for every exponent (also `0`) and every
non-zero modulus, in temporaries one word longer than the modulus. -/
theorem C05_modexp_mod (c : Nat) (base e m : List W) (hb : val base < val m)
    (he : e ≠ []) (hc : m.length + 1 ≤ c) :
    ∃ o, modexpv c base e (some fun l => remvInplace l m) = some o ∧ o.length = c ∧
      val o = val base ^ val e % val m := by
  have h2 : val m * 2 ^ 32 ≤ 2 ^ (32 * c) := by
    calc val m * 2 ^ 32 ≤ 2 ^ (32 * m.length) * 2 ^ 32 := Nat.mul_le_mul_right _ (Nat.le_of_lt (val_lt m))
      _ = 2 ^ (32 * m.length + 32) := by rw [Nat.pow_add]
      _ ≤ _ := Nat.pow_le_pow_right (by decide) (by omega)
  obtain ⟨o, h, hl, hlt, hv⟩ := C05_modexpv c base e (fun l => remvInplace l m) (val m) (val m)
    (by
      intro l hl
      obtain ⟨r, h1, h2, h3⟩ := remvInplace_val l m (by omega)
      exact ⟨r, h1, by omega, by rw [h3, Nat.mod_mod], by rw [h3]; exact Nat.mod_lt _ (by omega)⟩)
    (by omega) h2 he hb
  exact ⟨o, h, hl, by rw [← hv, Nat.mod_eq_of_lt hlt]⟩

example : val [(77 : W)] < val [(1000003 : W)] ∧ ([65537] : List W) ≠ [] ∧
    [(1000003 : W)].length + 1 ≤ 2 := by decide

/-! ## C06 octet strings -/

/-- C06: `vlong_OS2IP` reads big-endian base 256, modulo the destination size. -/
theorem C06_os2ip (c : Nat) (os : List (BitVec 8)) :
    (os2ip c os).length = c ∧ val (os2ip c os) = beNat os % 2 ^ (32 * c) :=
  ⟨by simp [os2ip, length_decLoop], val_os2ip c os⟩

/-- C06: `vlong_I2OSP` writes exactly `len` octets, big-endian, truncated to `len` octets. -/
theorem C06_i2osp (v : List W) (len : Nat) :
    (i2osp v len).length = len ∧ beNat (i2osp v len) = val v % 256 ^ len :=
  ⟨by simp [i2osp], beNat_i2osp v len⟩

/-- C06: the little-endian pair. -/
theorem C06_declsb (c : Nat) (os : List (BitVec 8)) :
    (decLSB c os).length = c ∧ val (decLSB c os) = leNat os % 2 ^ (32 * c) :=
  ⟨by simp [decLSB, length_decLoop], val_decLSB c os⟩

theorem C06_enclsb (v : List W) (len : Nat) :
    (encLSB v len).length = len ∧ leNat (encLSB v len) = val v % 256 ^ len :=
  ⟨by simp [encLSB], leNat_encLSB v len⟩

/-- C06: integer -> octets -> integer, whenever the integer fits in `len` octets. -/
theorem C06_os2ip_i2osp (v : List W) (len : Nat) (h : val v < 256 ^ len) :
    os2ip v.length (i2osp v len) = v ∧ decLSB v.length (encLSB v len) = v := by
  constructor
  · apply val_inj (C06_os2ip _ _).1
    rw [(C06_os2ip _ _).2, (C06_i2osp _ _).2, Nat.mod_eq_of_lt h, Nat.mod_eq_of_lt (val_lt v)]
  · apply val_inj (C06_declsb _ _).1
    rw [(C06_declsb _ _).2, (C06_enclsb _ _).2, Nat.mod_eq_of_lt h, Nat.mod_eq_of_lt (val_lt v)]

/-- C06: octets -> integer -> octets of the same length, whenever the integer object is large enough. -/
theorem C06_i2osp_os2ip (c : Nat) (os : List (BitVec 8)) (h : os.length ≤ 4 * c) :
    i2osp (os2ip c os) os.length = os ∧ encLSB (decLSB c os) os.length = os := by
  have hp : (256 : Nat) ^ os.length ≤ 2 ^ (32 * c) := by
    have : (256 : Nat) ^ os.length = 2 ^ (8 * os.length) := by rw [Nat.pow_mul]
    rw [this]; exact Nat.pow_le_pow_right (by decide) (by omega)
  constructor
  · have h1 : beNat os < 256 ^ os.length := by
      have := leNat_lt os.reverse; simpa [beNat] using this
    have e : beNat (i2osp (os2ip c os) os.length) = beNat os := by
      rw [(C06_i2osp _ _).2, (C06_os2ip _ _).2, Nat.mod_eq_of_lt (by omega : beNat os < 2 ^ (32 * c)),
        Nat.mod_eq_of_lt h1]
    have := leNat_inj (by simp [i2osp]) e
    exact List.reverse_inj.mp this
  · have h1 := leNat_lt os
    apply leNat_inj (by simp [encLSB])
    rw [(C06_enclsb _ _).2, (C06_declsb _ _).2, Nat.mod_eq_of_lt (by omega : leNat os < 2 ^ (32 * c)),
      Nat.mod_eq_of_lt h1]

/-- C06: `vlong_topbit` is the bit length. -/
theorem C06_topbit (x : List W) (h : x ≠ []) :
    ∃ t, topbit x = some t ∧ val x < 2 ^ t ∧ (t = 0 ∨ 2 ^ (t - 1) ≤ val x) := topbit_spec x h

example : val [(0x01020304 : W), 5] < 256 ^ 5 := by decide
example : i2osp [0x01020304, 5] 5 = [5, 1, 2, 3, 4] := by decide
example : topbit [0, 0x10000, 0] = some 49 := by decide

end Props
