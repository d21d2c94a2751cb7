import Verif.Model.RsaDer
import Verif.Spec.RsaDer
import Verif.Lemmas.EccSig
import Verif.Props.Der
import Verif.Lemmas.Pkcs1Key

/-! The RSA key codec: DER elements. -/

namespace RsaDer
open Vlong Spec Der

theorem isDerLen_unique {n : Nat} {o o' : List Byte} (h : IsDerLen n o) (h' : IsDerLen n o') : o = o' := by
  rcases h with ⟨h1, rfl⟩ | ⟨h1, b, t, rfl, h2, h3, h4⟩
  · rcases h' with ⟨_, rfl⟩ | ⟨h1', _⟩
    · rfl
    · omega
  · rcases h' with ⟨h1', _⟩ | ⟨_, b', t', rfl, h2', h3', h4'⟩
    · omega
    · have key : ∀ (b : Byte) (t : List Byte), b ≠ 0#8 → beNat (b :: t) = n → 256 ^ t.length ≤ n ∧ n < 256 ^ (t.length + 1) := by
        intro b t hb h
        have h5 := beNat_lt (b :: t)
        rw [h, List.length_cons] at h5
        rw [Der.beNat_cons] at h
        have : b.toNat ≠ 0 := fun h0 => hb (BitVec.eq_of_toNat_eq h0)
        have : 1 * 256 ^ t.length ≤ b.toNat * 256 ^ t.length := Nat.mul_le_mul_right _ (by omega)
        exact ⟨by omega, h5⟩
      obtain ⟨k1, k2⟩ := key b t h3 h4
      obtain ⟨k1', k2'⟩ := key b' t' h3' h4'
      have e1 : t.length < t'.length + 1 := (Nat.pow_lt_pow_iff_right (a := 256) (by decide)).mp (by omega)
      have e2 : t'.length < t.length + 1 := (Nat.pow_lt_pow_iff_right (a := 256) (by decide)).mp (by omega)
      have e3 : (b :: t).length = (b' :: t').length := by simp only [List.length_cons]; omega
      rw [e3, Pkcs1.beNat_inj e3 (h4.trans h4'.symm)]

theorem putLenCount_min (fuel : Nat) (v : BitVec 64) (r k : Nat) (h : putLenCount fuel v r = some k) (hk : r < k) :
    256 ^ (k - 1) ≤ v.toNat := by
  induction fuel generalizing r with
  | zero => simp [putLenCount] at h
  | succ fuel ih =>
    rw [putLenCount] at h
    split at h
    · simp at h; omega
    · rename_i hne
      by_cases he : r + 1 < k
      · exact ih _ h he
      · have hk1 : k - 1 = r := by omega
        rw [hk1]
        by_contra hc
        apply hne
        apply BitVec.eq_of_toNat_eq
        rw [BitVec.toNat_ushiftRight, Nat.shiftRight_eq_div_pow, Nat.pow_mul]
        exact Nat.div_eq_of_lt (by simpa using hc)

theorem putLen_der {n : Nat} (h : n < 2 ^ 56) : ∃ L, putLen (BitVec.ofNat 64 n) = some L ∧ IsDerLen n L ∧ L.length ≤ 8 := by
  have hn : (BitVec.ofNat 64 n).toNat = n := by rw [BitVec.toNat_ofNat, Nat.mod_eq_of_lt (by omega)]
  by_cases hs : n < 128
  · exact ⟨_, Ecc.putLen_small hs, Or.inl ⟨hs, rfl⟩, by simp⟩
  · unfold putLen
    rw [if_neg (by omega)]
    obtain ⟨k, k1, k2, k3, k4⟩ := putLenCount_spec 8 (BitVec.ofNat 64 n) 0 (by norm_num; omega) (by decide)
    rw [k1]
    have hb := beNat_range (BitVec.ofNat 64 n) k
    rw [hn] at hb k2
    rw [Nat.mod_eq_of_lt k2] at hb
    refine ⟨_, rfl, Or.inr ⟨by omega, ?_⟩, by simp; omega⟩
    generalize hl : ((List.range k).reverse.map fun i => ((BitVec.ofNat 64 n >>> (8 * i)).setWidth 8 : Byte)) = l at hb
    have hlen : l.length = k := by rw [← hl]; simp
    cases l with
    | nil => simp [beNat, leNat] at hb; omega
    | cons b t =>
      refine ⟨b, t, ?_, by rw [hlen]; omega, ?_, hb⟩
      · rw [hlen]
        congr 1
        have : k < 9 := by omega
        interval_cases k <;> rfl
      · rintro rfl
        rw [Der.beNat_cons] at hb
        have h5 := beNat_lt t
        simp only [List.length_cons] at hlen
        have h6 := putLenCount_min 8 _ 0 k k1 (by omega)
        rw [hn, show k - 1 = t.length by omega] at h6
        simp at hb
        omega

/-- What the header readers make of a DER element. -/
theorem hdr_der (n : BitVec 28) (pc : W) (t : Byte) (hn : n.toNat < 31) (ht : putTag (mkTag 0 n) pc = [t]) {c o : List Byte}
    (h : IsDerTlv t c o) (hc : c.length < 2 ^ 56) (rest : List Byte) : hdr (mkTag 0 n) (o ++ rest) = .ok (c.length, c ++ rest) := by
  obtain ⟨L, hL, rfl⟩ := h
  obtain ⟨lo, h1, h2⟩ := Props.C07_header_roundtrip_partial 0 n pc c rest (by omega) (by omega) hc
  obtain ⟨L', h3, h4, -⟩ := putLen_der hc
  rw [isDerLen_unique hL h4]
  rw [h1] at h3
  rw [← Option.some.inj h3]
  rw [ht] at h2
  unfold hdr
  rw [show t :: (lo ++ c) ++ rest = [t] ++ lo ++ c ++ rest by simp, h2]
  simp only
  rw [if_neg (by simp), BitVec.toNat_ofNat, Nat.mod_eq_of_lt (by omega)]

theorem hdr_seq {c o : List Byte} (h : IsDerTlv 0x30#8 c o) (hc : c.length < 2 ^ 56) (rest : List Byte) :
    hdr 0x80000010#32 (o ++ rest) = .ok (c.length, c ++ rest) :=
  hdr_der 16 1#32 0x30#8 (by decide) (by decide) h hc rest

theorem intHdr_der {c o : List Byte} (h : IsDerTlv 0x02#8 c o) (hc : c.length < 2 ^ 56) (rest : List Byte) :
    intHdr (o ++ rest) = .ok (c, rest) := by
  unfold intHdr
  rw [show (0x80000002#32 : W) = mkTag 0 2 by decide, hdr_der 2 0#32 0x02#8 (by decide) (by decide) h hc rest]
  show Res.ok _ = _
  simp

theorem tlv_length {t : Byte} {c o : List Byte} (h : IsDerTlv t c o) (hc : c.length < 2 ^ 56) :
    c.length + 2 ≤ o.length ∧ o.length ≤ c.length + 9 := by
  obtain ⟨L, hL, rfl⟩ := h
  obtain ⟨L', -, h4, h5⟩ := putLen_der hc
  rw [isDerLen_unique hL h4]
  have : 1 ≤ L'.length := by
    rcases h4 with ⟨-, rfl⟩ | ⟨-, b, t, rfl, -⟩ <;> simp
  simp only [List.length_cons, List.length_append]; omega

/-- The octets `ber_tlv_put_integer` produces. -/
theorem putInteger_der (w : List W) (hw : 4 * w.length + 1 < 2 ^ 56) : ∃ o, IsDerNat (val w) o ∧
    putInteger w none = some ((o.length : Int), []) ∧
    (∀ room, o.length ≤ room → putInteger w (some room) = some ((o.length : Int), o)) ∧
    (∀ room, room < o.length → putInteger w (some room) = some (-1, [])) := by
  obtain ⟨e1, e2, e3⟩ := Props.C08_encode w
  have hs := Props.intSize_le w
  obtain ⟨L, hL, hD, -⟩ := putLen_der (n := intSize w) (by omega)
  have ho : IsDerNat (val w) (0x02#8 :: (L ++ encodeInteger w)) := ⟨_, e2, e1, L, by rw [e3]; exact hD, rfl⟩
  refine ⟨_, ho, ?_, fun room hr => ?_, fun room hr => ?_⟩
  · unfold putInteger
    simp only []
    rw [hL, Ecc.tag2]
    simp only [List.length_cons, List.length_append, e3, Option.bind_eq_bind, Option.bind_some]
    congr 2; push_cast; simp; omega
  · unfold putInteger
    simp only []
    rw [hL, Ecc.tag2]
    simp only [List.length_cons, List.length_append, e3, Option.bind_eq_bind, Option.bind_some] at hr ⊢
    rw [if_neg (by simp; omega)]
    simp; omega
  · unfold putInteger
    simp only []
    rw [hL, Ecc.tag2]
    simp only [List.length_cons, List.length_append, e3, Option.bind_eq_bind, Option.bind_some] at hr ⊢
    rw [if_pos (by simp; omega)]

/-! ## Writers -/

/-- A buffer (if there is one) has room for `k` octets. -/
def Fits (b0 : Option (List Byte)) (k : Nat) : Prop := ∀ b, b0 = some b → k ≤ b.length

instance (b0 : Option (List Byte)) (k : Nat) : Decidable (Fits b0 k) :=
  match b0 with
  | none => isTrue (by intro b h; cases h)
  | some b => if h : k ≤ b.length then isTrue (by intro b' h'; cases h'; exact h) else isFalse (fun h' => h (h' b rfl))

theorem Fits.mono {b0 : Option (List Byte)} {k k' : Nat} (h : Fits b0 k') (hk : k ≤ k') : Fits b0 k :=
  fun b hb => hk.trans (h b hb)

/-- The original buffer with the octets `o` at its start, and their number. -/
def st (b0 : Option (List Byte)) (o : List Byte) : Option (List Byte) × Nat := (b0.map fun b => o ++ b.drop o.length, o.length)

/-- The result is `R` if `total` octets fit and a failure otherwise. -/
def Chain {α : Type} (b0 : Option (List Byte)) (total : Nat) (r : Res α) (R : α) : Prop :=
  (Fits b0 total → r = .ok R) ∧ (¬ Fits b0 total → r = .fail)

theorem Chain.mono {α : Type} {b0 : Option (List Byte)} {a total : Nat} {r : Res α} {R : α} (hle : a ≤ total)
    (h1 : ¬ Fits b0 a → r = .fail) (h2 : Fits b0 a → Chain b0 total r R) : Chain b0 total r R := by
  by_cases h : Fits b0 a
  · exact h2 h
  · exact ⟨fun h' => absurd (h'.mono hle) h, fun _ => h1 h⟩

theorem putInt_st {w : List W} {x : List Byte} (h1 : putInteger w none = some ((x.length : Int), []))
    (h2 : ∀ room, x.length ≤ room → putInteger w (some room) = some ((x.length : Int), x))
    (h3 : ∀ room, room < x.length → putInteger w (some room) = some (-1, []))
    (b0 : Option (List Byte)) (o : List Byte) (ho : Fits b0 o.length) :
    putInt (st b0 o).1 (st b0 o).2 w = if Fits b0 (o ++ x).length then .ok (st b0 (o ++ x)) else .fail := by
  unfold putInt st
  cases b0 with
  | none =>
    simp only [Option.map_none, h1]
    rw [if_neg (by omega), if_pos (by intro b hb; cases hb)]
    simp
  | some b =>
    have hob := ho b rfl
    simp only [Option.map_some]
    have hlen : (o ++ b.drop o.length).length = b.length := by simp; omega
    rw [hlen]
    by_cases hx : x.length ≤ b.length - o.length
    · rw [h2 _ hx, if_pos (by intro b' hb; cases hb; simp; omega)]
      simp only
      rw [if_neg (by omega)]
      simp only [List.take_left', List.length_append, Int.toNat_natCast, List.append_assoc, Res.ok.injEq, Prod.mk.injEq,
        Option.some.injEq, and_true]
      rw [List.drop_append, List.drop_eq_nil_of_le (by omega), List.drop_drop]
      congr 3
      simp only [List.nil_append]
      congr 1; omega
    · rw [h3 _ (by omega), if_neg (by intro h; have := h b rfl; simp at this; omega)]
      simp only
      rw [if_pos (by decide)]

/-- One integer written after the octets `o`. -/
theorem putInt_chain {α : Type} {w : List W} {x : List Byte} (h1 : putInteger w none = some ((x.length : Int), []))
    (h2 : ∀ room, x.length ≤ room → putInteger w (some room) = some ((x.length : Int), x))
    (h3 : ∀ room, room < x.length → putInteger w (some room) = some (-1, []))
    {b0 : Option (List Byte)} {o : List Byte} (ho : Fits b0 o.length) {total : Nat} (ht : (o ++ x).length ≤ total)
    {k : Option (List Byte) × Nat → Res α} {R : α} (hk : Fits b0 (o ++ x).length → Chain b0 total (k (st b0 (o ++ x))) R) :
    Chain b0 total (putInt (st b0 o).1 (st b0 o).2 w >>= k) R := by
  rw [putInt_st h1 h2 h3 b0 o ho]
  apply Chain.mono ht
  · intro h; rw [if_neg h]; rfl
  · intro h; rw [if_pos h]; exact hk h

/-- The header put before the octets `c`. -/
theorem wrapSeq_chain {c : List Byte} (hc : c.length < 2 ^ 56) :
    ∃ o, IsDerTlv 0x30#8 c o ∧ ∀ b0, Fits b0 c.length → Chain b0 o.length (wrapSeq (st b0 c).1 (st b0 c).2) (st b0 o) := by
  obtain ⟨L, hL, hD, -⟩ := putLen_der hc
  refine ⟨_, ⟨L, hD, rfl⟩, fun b0 hb => ?_⟩
  unfold wrapSeq st
  simp only [hL, Ecc.tag16]
  cases b0 with
  | none =>
    refine ⟨fun _ => ?_, fun h => absurd (by intro b hb; cases hb) h⟩
    simp; omega
  | some b =>
    have hcb := hb b rfl
    have hlen : (c ++ b.drop c.length).length = b.length := by simp; omega
    simp only [Option.map_some, hlen]
    constructor
    · intro h
      have h' := h b rfl
      simp only [List.length_cons, List.length_append] at h'
      rw [if_neg (by simp; omega), Ecc.moveUp_eq _ _ _ (by rw [hlen]; simp; omega)]
      simp only [Res.ok.injEq, Prod.mk.injEq, Option.some.injEq]
      refine ⟨?_, by simp; omega⟩
      rw [List.append_assoc, List.append_assoc, List.drop_append, List.drop_eq_nil_of_le (by simp), List.length_take, hlen,
        Nat.min_eq_left (by simp; omega), Nat.sub_self, List.drop_zero, List.nil_append, List.take_left', List.drop_append,
        List.drop_eq_nil_of_le (by omega), List.drop_drop]
      simp only [List.nil_append, List.cons_append, List.append_assoc, List.length_cons, List.length_append, List.length_nil]
      congr 4; omega
      rfl
    · intro h
      rw [if_pos]
      by_contra hn
      apply h
      intro b' hb'; cases hb'
      simp only [List.length_cons, List.length_append, List.length_nil] at hn ⊢; omega

end RsaDer
