import Verif.Lemmas.Der

/-!
# Properties C07 - C10: DER codec (`der-codec.c`)

`Spec.mkTag cls n` is the library's 32-bit name of the tag with class `cls` and number `n`;
`Spec.beNat` is the big-endian value of an octet string.
-/

namespace Props
open Der Spec
open Vlong (W)

/-! ## C07 tag and length headers -/

/-- C07 (partial): an identifier written by `ber_put_tag` is read back by `ber_get_tag` as the same
tag, leaving exactly the bytes that follow.  Missing from the full statement: tag number 31 and tag
numbers of `2^21` and above, for which it is false (next two theorems). -/
theorem C07_tag_roundtrip_partial (cls : BitVec 2) (n : BitVec 28) (pc : W) (rest : List (BitVec 8))
    (hn : n.toNat < 2 ^ 21) (h31 : n.toNat ≠ 31) :
    getTag (putTag (mkTag cls n) pc ++ rest) = some (mkTag cls n, rest) :=
  getTag_putTag cls n pc rest hn h31

/-- C07, negation for large tag numbers: every tag number from `2^21` up is written by the encoder
in a form its own decoder rejects. -/
theorem C07_big_tags_unreadable (cls : BitVec 2) (n : BitVec 28) (pc : W) (rest : List (BitVec 8))
    (hn : 2 ^ 21 ≤ n.toNat) :
    ∃ r, getTag (putTag (mkTag cls n) pc ++ rest) = some (0xffffffff#32, r) :=
  getTag_big cls n pc rest hn

/-- C07, negation for tag number 31: the encoder writes it as the single octet `..11111`, which the
decoder takes for the start of the multi-octet form; it is never read back, whatever follows. -/
theorem C07_tag31_never_read_back (cls : BitVec 2) (pc : W) (rest : List (BitVec 8)) :
    getTag (putTag (mkTag cls 31) pc ++ rest) ≠ some (mkTag cls 31, rest) := by
  obtain ⟨h1, h2⟩ := flags_cases cls pc 31#8 (by decide)
  have hp : putTag (mkTag cls 31) pc =
      [(cls.setWidth 8 <<< 6) ||| ((pc &&& 1#32).setWidth 8 <<< 5) ||| 31#8] := by
    unfold putTag
    simp only
    rw [and_28, flags_eq]
    rfl
  rw [hp]
  simp only [List.cons_append, List.nil_append, getTag, h1, h2]
  rw [if_neg (by decide)]
  intro h
  cases rest with
  | nil =>
    simp only [getTagLoop, Option.some.injEq, Prod.mk.injEq] at h
    have := congrArg BitVec.toNat h.1
    rw [mkTag_toNat] at this
    have := cls.isLt
    simp at *
    omega
  | cons b p =>
    simp only [getTagLoop] at h
    split at h
    · have := congrArg (fun x => (x.map fun y => y.2.length).getD 0) h
      simp at this
    · have h3 := congrArg (fun x => (x.map fun y => y.2.length).getD 0) h
      obtain ⟨pre, hpre⟩ := getTagLoop_suffix (BitVec.setWidth 32 cls) 2
        (0#32 <<< 7 ||| (b &&& 0x7F#8).setWidth 32) p
      have h4 := congrArg List.length hpre
      rw [List.length_append] at h4
      simp only [Option.map_some, Option.getD_some, List.length_cons] at h3
      omega

/-- C07: lengths written in memory order by `ber_put_len` (any length below `2^56`). -/
theorem C07_put_len_roundtrip (v : BitVec 64) (rest : List (BitVec 8)) (hv : v.toNat < 2 ^ 56) :
    ∃ os, putLen v = some os ∧ getLen (os ++ rest) = some (v, rest) := by
  unfold putLen
  by_cases h : v.toNat < 0x80
  · rw [if_pos h]; exact ⟨_, rfl, by simpa using short_form v rest h⟩
  · rw [if_neg h]
    obtain ⟨k, k1, k2, k3, k4⟩ := putLenCount_spec 8 v 0 (by norm_num; omega) (by decide)
    rw [k1]
    refine ⟨_, rfl, ?_⟩
    have hb := beNat_range v k
    have := long_form ((List.range k).reverse.map fun i => ((v >>> (8 * i)).setWidth 8 : Byte)) rest
      (by simp; omega)
    simp only [List.length_map, List.length_reverse, List.length_range] at this
    rw [this, hb, Nat.mod_eq_of_lt k2]
    simp

/-- C07: a length of `2^56` or more makes `ber_put_len` evaluate `val >> 64`, which is undefined
behaviour in C. -/
theorem C07_put_len_ub (v : BitVec 64) (hv : 2 ^ 56 ≤ v.toNat) : putLen v = none := by
  have key : ∀ fuel ret, ret + fuel = 8 → putLenCount fuel v ret = none := by
    intro fuel
    induction fuel with
    | zero => intros; rfl
    | succ fuel ih =>
      intro ret hr
      simp only [putLenCount]
      rw [if_neg, ih _ (by omega)]
      intro h0
      have h1 := congrArg BitVec.toNat h0
      rw [BitVec.toNat_ushiftRight, Nat.shiftRight_eq_div_pow] at h1
      have h2 : (2:Nat) ^ (8 * ret) ≤ 2 ^ 56 := Nat.pow_le_pow_right (by decide) (by omega)
      have h3 := Nat.div_pos (Nat.le_trans h2 hv) (Nat.pow_pos (by decide))
      simp at h1
      omega
  unfold putLen
  rw [if_neg (by omega), key 8 0 rfl]; rfl

/-- C07: lengths pushed on the stack by `ber_push_len`; the return value is the number of octets.
All lengths the decoder can report (`2^64-1` is its error value). -/
theorem C07_push_len_roundtrip (v : BitVec 64) (stack : List (BitVec 8)) :
    ∃ os, pushLen stack v = (os ++ stack, os.length) ∧ getLen (os ++ stack) = some (v, stack) := by
  unfold pushLen
  by_cases h : v.toNat < 0x80
  · rw [if_pos h]; exact ⟨[v.setWidth 8], rfl, by simpa using short_form v stack h⟩
  · rw [if_neg h]
    obtain ⟨bs, b1, b2, b3⟩ := pushLenLoop_spec 8 stack v 0 (by have := v.isLt; norm_num; omega)
    rw [b1]
    refine ⟨(0x80#8 ||| BitVec.ofNat 8 bs.length) :: bs, by simp, ?_⟩
    have := long_form bs stack b2
    rw [b3] at this
    simpa using this

/-- C07: `ber_push_tag` pushes exactly the octets `ber_put_tag` writes. -/
theorem C07_push_tag (stack : List (BitVec 8)) (v pc : W) :
    pushTag stack v pc = (putTag v pc ++ stack, (putTag v pc).length) := by
  unfold pushTag putTag
  simp only
  split_ifs <;> rfl

theorem mkTag_ne_error (cls : BitVec 2) (n : BitVec 28) (hn : n.toNat < 2 ^ 21) :
    mkTag cls n ≠ 0xffffffff#32 := by
  intro h
  have h1 := congrArg BitVec.toNat h
  rw [mkTag_toNat] at h1
  have := cls.isLt
  simp at h1
  omega

/-- C07 (partial, same exclusions): a complete header followed by its content is read back as the
same tag and length, with the window left at the first content octet. -/
theorem C07_header_roundtrip_partial (cls : BitVec 2) (n : BitVec 28) (pc : W)
    (content rest : List (BitVec 8)) (hn : n.toNat < 2 ^ 21) (h31 : n.toNat ≠ 31)
    (hc : content.length < 2 ^ 56) :
    ∃ lo, putLen (BitVec.ofNat 64 content.length) = some lo ∧
      getHdr (putTag (mkTag cls n) pc ++ lo ++ content ++ rest) =
        .ok (mkTag cls n) (BitVec.ofNat 64 content.length) (content ++ rest) := by
  have hv : (BitVec.ofNat 64 content.length).toNat = content.length := by
    rw [BitVec.toNat_ofNat]; exact Nat.mod_eq_of_lt (by omega)
  obtain ⟨lo, l1, l2⟩ := C07_put_len_roundtrip (BitVec.ofNat 64 content.length) (content ++ rest)
    (by rw [hv]; exact hc)
  refine ⟨lo, l1, ?_⟩
  unfold getHdr
  rw [List.append_assoc, List.append_assoc, getTag_putTag cls n pc _ hn h31]
  simp only
  rw [if_neg (mkTag_ne_error cls n hn), l2]
  simp only
  rw [if_neg, if_neg]
  · rw [hv]; simp
  · intro h
    have h1 := congrArg BitVec.toNat h
    rw [hv] at h1
    simp at h1
    omega

example : (mkTag 2 (5000#28)) = 0xC0001388#32 ∧ putTag (mkTag 2 5000#28) 1#32 = [0xBF, 0xA7, 0x08] ∧
    getTag [0xBF, 0xA7, 0x08, 0x55] = some (mkTag 2 5000#28, [0x55]) := by decide
example : putLen 0x1234#64 = some [0x82, 0x12, 0x34] := by decide
example : (2 ^ 56 : Nat) ≤ (0x100000000000000#64).toNat := by decide

/-! ## C08 INTEGER -/

/-- C08: the content octets denote the integer, are minimal, and are as many as the size query
announced. -/
theorem C08_encode (w : List W) :
    beNat (encodeInteger w) = val w ∧ MinimalNonneg (encodeInteger w) ∧
      (encodeInteger w).length = intSize w := by
  obtain ⟨s1, s2, s3⟩ := intSize_spec w
  have hl : (encodeInteger w).length = intSize w := by simp [encodeInteger]
  have hb : beNat (encodeInteger w) = val w := by
    rw [encodeInteger_eq, Vlong.beNat_i2osp, Nat.mod_eq_of_lt (by omega)]
  exact ⟨hb, minimal_of_value _ (by omega) (by rw [hl, hb]; exact s2) (by rw [hl, hb]; exact s3), hl⟩

/-- C08: decoding an octet string gives the integer it denotes, in exactly the number of words the
size query accounts for. -/
theorem C08_decode (enc : List (BitVec 8)) :
    val (decodeInteger enc) = beNat enc ∧ (decodeInteger enc).length = bytesWcnt enc.length := by
  have h : beNat enc < 2 ^ (32 * bytesWcnt enc.length) := by
    have h1 := Vlong.leNat_lt enc.reverse
    rw [List.length_reverse] at h1
    have h2 : (256:Nat) ^ enc.length = 2 ^ (8 * enc.length) := by rw [Nat.pow_mul]
    rw [h2] at h1
    exact Nat.lt_of_lt_of_le h1 (Nat.pow_le_pow_right (by decide) (by unfold bytesWcnt; omega))
  constructor
  · rw [decodeInteger_eq, Vlong.val_os2ip, Nat.mod_eq_of_lt h]
  · have : ∀ (os : List Byte) (i : Nat) (v : List W), (decodeLoop os i v).length = v.length := by
      intro os
      induction os with
      | nil => intros; rfl
      | cons b os ih => intro i v; simp [decodeLoop, ih]
    simp [decodeInteger, this]

/-- C08: round trip of the value. -/
theorem C08_roundtrip (w : List W) : val (decodeInteger (encodeInteger w)) = val w := by
  rw [(C08_decode _).1, (C08_encode w).1]

theorem intSize_le (w : List W) : intSize w ≤ 4 * w.length + 1 := by
  obtain ⟨k, k1, k2, k3, k4, k5⟩ := intSizeLoop_spec w w.length (w.length * 4 + 1) (by omega)
  unfold intSize; omega

/-- C08: `ber_tlv_put_integer`.  The null-buffer call announces the exact number of octets; with at
least that much room exactly that many octets are written, and reading them back yields tag INTEGER
and the content octets of `C08_encode`; with less room the call fails.  (The hypothesis bounds the
operand to what fits in an address space.) -/
theorem C08_put (w : List W) (hw : 4 * w.length + 1 < 2 ^ 56) :
    ∃ (n : Nat) (os : List (BitVec 8)), os.length = n ∧
      putInteger w none = some ((n : Int), []) ∧
      (∀ room, n ≤ room → putInteger w (some room) = some ((n : Int), os)) ∧
      (∀ room, room < n → putInteger w (some room) = some (-1, [])) ∧
      ∀ rest, getHdr (os ++ rest) =
        .ok (mkTag 0 2) (BitVec.ofNat 64 (encodeInteger w).length) (encodeInteger w ++ rest) := by
  have hl := (C08_encode w).2.2
  have hle := intSize_le w
  obtain ⟨lo, l1, _⟩ := C07_header_roundtrip_partial 0 2 0#32 (encodeInteger w) [] (by decide) (by decide)
    (by omega)
  have e : mkTag 0 2 = 0x80000002#32 := by decide
  refine ⟨(putTag (mkTag 0 2) 0#32 ++ lo ++ encodeInteger w).length, _, rfl, ?_, ?_, ?_, ?_⟩
  · unfold putInteger
    simp only []
    rw [← hl, l1, e]
    simp only [Option.bind_eq_bind, Option.bind_some, List.length_append]
    congr 2; push_cast; omega
  · intro room hr
    rw [List.length_append, List.length_append, e] at hr
    unfold putInteger
    simp only []
    rw [← hl, l1, e]
    simp only [Option.bind_eq_bind, Option.bind_some, List.length_append]
    rw [if_neg (by omega)]
    congr 2; push_cast; omega
  · intro room hr
    rw [List.length_append, List.length_append, e] at hr
    unfold putInteger
    simp only []
    rw [← hl, l1]
    simp only [Option.bind_eq_bind, Option.bind_some]
    rw [if_pos (by omega)]
  · intro rest
    obtain ⟨lo', m1, m2⟩ := C07_header_roundtrip_partial 0 2 0#32 (encodeInteger w) rest (by decide) (by decide)
      (by omega)
    rw [l1] at m1
    rw [Option.some.inj m1]
    exact m2

example : encodeInteger [0x80#32, 0#32] = [0x00, 0x80] ∧ encodeInteger [0#32] = [0x00] ∧
    encodeInteger [0x7fffffff#32, 0#32] = [0x7f, 0xff, 0xff, 0xff] := by decide
example : 4 * [1#32, 2#32].length + 1 < 2 ^ 56 := by decide

/-! ## C09 header parsing stays within its window -/

/-- C09 (partial): whenever the header reader accepts, it consumed a prefix of the window, the rest is
untouched and the announced content fits in it.  Missing: that *every* call stays inside the window,
which is false (next theorem). -/
theorem C09_accept_within_window_partial (w : List (BitVec 8)) (tag : W) (len : BitVec 64)
    (rest : List (BitVec 8)) (h : getHdr w = .ok tag len rest) :
    ∃ hdr, 2 ≤ hdr.length ∧ w = hdr ++ rest ∧ len.toNat ≤ rest.length ∧ tag ≠ 0xffffffff#32 := by
  unfold getHdr at h
  split at h
  · cases h
  · rename_i t w1 ht
    split at h
    · cases h
    · rename_i hne
      split at h
      · cases h
      · rename_i l w2 hl
        split at h
        · cases h
        · split at h
          · cases h
          · rename_i hlen
            cases h
            obtain ⟨b, p, e1⟩ := getTag_suffix ht
            obtain ⟨b', p', e2⟩ := getLen_suffix hl
            exact ⟨b :: p ++ b' :: p', by simp; omega, by rw [e1, e2]; simp, by omega, hne⟩

/-- C09: exactly when the header reader reads outside its window (and then wraps the remaining
length): on an empty window, and on a window that ends right after a complete identifier. -/
theorem C09_out_of_bounds_iff (w : List (BitVec 8)) :
    getHdr w = .oob ↔ w = [] ∨ ∃ tag, tag ≠ 0xffffffff#32 ∧ getTag w = some (tag, []) := by
  unfold getHdr
  constructor
  · intro h
    split at h
    · rename_i ht
      left
      cases w with
      | nil => rfl
      | cons b p => simp only [getTag] at ht; split at ht <;> cases ht
    · rename_i t w1 ht
      split at h
      · cases h
      · rename_i hne
        split at h
        · rename_i hl
          right
          refine ⟨t, hne, ?_⟩
          cases w1 with
          | nil => exact ht
          | cons b p => exact absurd hl (getLen_in_window b p)
        · split at h
          · cases h
          · split at h <;> cases h
  · rintro (h | ⟨t, hne, ht⟩)
    · subst h; rfl
    · rw [ht]; simp only [if_neg hne]; rfl

/-- C09, negation: the one-octet window `30` (a truncated SEQUENCE header) is read past its end. -/
theorem C09_truncated_window_overread : getHdr [0x30] = .oob ∧ getHdr [] = .oob := by decide

example : getHdr [0x30, 0x03, 1, 2, 3, 4] = .ok 0x80000010#32 3#64 [1, 2, 3, 4] := by decide
example : getHdr [0x30, 0x03, 1, 2] = .fail := by decide

/-! ## C10 splice insertion -/

/-- C10: `ber_util_splice_insert(buf, len1, offset, len2)` terminates for every pair of block lengths
and leaves the block that was at `offset` in front of the first `len1` bytes, changing nothing from
`len1 + len2` on. -/
theorem C10_splice (len1 offset len2 : Nat) (M : Nat → BitVec 8) (ho : len1 ≤ offset) (fuel : Nat)
    (hf : len1 + len2 < fuel) :
    ∃ M', splice fuel len1 offset len2 M = some M' ∧
      (∀ j, j < len2 → M' j = M (offset + j)) ∧
      (∀ j, j < len1 → M' (len2 + j) = M j) ∧
      (∀ j, len1 + len2 ≤ j → M' j = M j) := by
  unfold splice
  by_cases h0 : len1 = 0
  · rw [if_pos h0]
    refine ⟨_, rfl, ?_, ?_, ?_⟩
    · intro j hj; rw [copyLoop_spec, if_pos (by omega), Nat.add_comm]
    · intro j hj; omega
    · intro j hj; rw [copyLoop_spec, if_neg (by omega)]
  · rw [if_neg h0]
    obtain ⟨M', e, h⟩ := spliceLoop_spec fuel 0 len1 offset len2 M hf (by omega) (by omega)
    refine ⟨M', e, ?_, ?_, ?_⟩
    · intro j hj; rw [h, if_neg (by omega), if_pos (by omega)]; congr 1
    · intro j hj; rw [h, if_neg (by omega), if_neg (by omega), if_pos (by omega)]; congr 1; omega
    · intro j hj; rw [h, if_neg (by omega), if_neg (by omega), if_neg (by omega)]

/-- C10: in particular when the moved block directly follows the first one (the way every caller uses
it) the buffer is rotated: nothing is lost or duplicated. -/
theorem C10_splice_rotate (A B rest : List (BitVec 8)) (fuel : Nat) (hf : A.length + B.length < fuel) :
    ∃ M', splice fuel A.length A.length B.length (fun j => (A ++ B ++ rest).getD j 0) = some M' ∧
      ∀ j, M' j = (B ++ A ++ rest).getD j 0 := by
  obtain ⟨M', e, h1, h2, h3⟩ := C10_splice A.length A.length B.length
    (fun j => (A ++ B ++ rest).getD j 0) (le_refl _) fuel hf
  refine ⟨M', e, ?_⟩
  intro j
  by_cases c1 : j < B.length
  · rw [h1 j c1]
    simp [List.getD_eq_getElem?_getD, List.getElem?_append, c1]
  · by_cases c2 : j < B.length + A.length
    · obtain ⟨i, rfl⟩ : ∃ i, j = B.length + i := ⟨j - B.length, by omega⟩
      have hi : i < A.length := by omega
      rw [h2 i hi]
      simp [List.getD_eq_getElem?_getD, List.getElem?_append, hi]
    · rw [h3 j (by omega)]
      have n1 : ¬ j < A.length := by omega
      have n2 : ¬ j - A.length < B.length := by omega
      have n3 : ¬ j - B.length < A.length := by omega
      have n4 : j - A.length - B.length = j - B.length - A.length := by omega
      simp [List.getD_eq_getElem?_getD, List.getElem?_append, c1, n1, n2, n3, n4]

example : [1#8, 2, 3].length ≤ 5 ∧ [1#8, 2, 3].length + 2 < 10 := by decide

end Props
