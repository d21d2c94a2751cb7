import Verif.Lemmas.RsaDerMem

/-! C64: RSA public keys in DER. -/

namespace Props
open Vlong Spec RsaDer

/-- What follows from the length of a DER INTEGER. -/
theorem isDerNat_content {v : Nat} {o : List (BitVec 8)} (h : IsDerNat v o) (hl : o.length < 2 ^ 30) :
    ∃ c, beNat c = v ∧ c.length + 2 ≤ o.length ∧ (∀ rest, intHdr (o ++ rest) = .ok (c, rest)) ∧ MinimalNonneg c := by
  obtain ⟨c, h1, h2, h3⟩ := h
  have hlt : c.length < 2 ^ 56 := by
    obtain ⟨L, -, rfl⟩ := h3
    simp only [List.length_cons, List.length_append] at hl
    omega
  exact ⟨c, h2, (tlv_length h3 hlt).1, fun rest => intHdr_der h3 hlt rest, h1⟩

/-- C64: decoding.  The size query and the decoding of an RSAPublicKey give the same size; the context holds the two numbers and the
bit length of the modulus; the objects and the four working integers, each with as many words as the modulus, lie between the header
and that size without overlapping; nothing behind it is touched.  Octets after the key make no difference. -/
theorem C64_decode {n e : Nat} {o : List (BitVec 8)} (h : IsDerPub n e o) (hl : o.length < 2 ^ 25) (rest : List (BitVec 8)) (m : Mem) :
    ∃ size m', decodePub none (o ++ rest) = .ok (size, none) ∧ decodePub (some m) (o ++ rest) = .ok (size, some m') ∧
      ctxNat m' 4 = n ∧ ctxNat m' 5 = e ∧ (m' 6).toNat = Nat.size n ∧
      LaidOut m' 7 size [0, 1, 2, 3, 4, 5] ∧ (∀ f ∈ [0, 1, 2, 3], ctxCount m' f = ctxCount m' 4) ∧
      n * 2 ^ 64 ≤ 2 ^ (32 * ctxCount m' 4) ∧ ctxCount m' 5 ≠ 0 ∧
      (∀ j, size ≤ 4 * j → m' j = m j) ∧ size < 2 ^ 31 := by
  obtain ⟨c, hc, ht⟩ := h
  have hcl : c.length < o.length := by
    obtain ⟨L, -, rfl⟩ := ht
    simp only [List.length_cons, List.length_append]; omega
  obtain ⟨on, t1, hn, ⟨oe, t2, he, rfl, rfl⟩, rfl⟩ := hc
  simp only [List.length_append, List.length_nil] at hcl
  obtain ⟨cn, vn, ln, rn, qn⟩ := isDerNat_content hn (by omega)
  obtain ⟨ce, ve, le, re, qe⟩ := isDerNat_content he (by omega)
  have hh := hdr_seq ht (by simp; omega) rest
  have hbn : Der.bytesWcnt cn.length ≤ 3 + cn.length := by unfold Der.bytesWcnt; omega
  have hbe : Der.bytesWcnt ce.length ≤ 3 + ce.length := by unfold Der.bytesWcnt; omega
  obtain ⟨m1, e1, I1⟩ := (Inv.start 7 m).placeInt cn (f := 4) (by decide) (by simp) (by decide)
  obtain ⟨m2, e2, I2⟩ := I1.setBits (f := 6) (f' := 4) (List.mem_cons_self) (by omega) (by omega) (by decide) (by simp) (by omega)
  obtain ⟨m3, e3, I3⟩ := I2.placeWork (f := 0) cn.length (by decide) (by simp)
  obtain ⟨m4, e4, I4⟩ := I3.placeWork (f := 1) cn.length (by decide) (by simp)
  obtain ⟨m5, e5, I5⟩ := I4.placeWork (f := 2) cn.length (by decide) (by simp)
  obtain ⟨m6, e6, I6⟩ := I5.placeWork (f := 3) cn.length (by decide) (by simp)
  obtain ⟨m7, e7, I7⟩ := Inv.setCount (L1 := [_, _, _]) I6 (by omega)
  obtain ⟨m8, e8, I8⟩ := Inv.setCount (L1 := [_, _]) I7 (by omega)
  obtain ⟨m9, e9, I9⟩ := Inv.setCount (L1 := [_]) I8 (by omega)
  obtain ⟨m10, e10, I10⟩ := Inv.setCount (L1 := []) I9 (by omega)
  obtain ⟨m11, e11, I11⟩ := I10.placeInt ce (f := 5) (by decide) (by simp) (by omega)
  have e1' : placeInt 4 7 (some m) 0 cn = _ := e1
  generalize hbn' : Der.bytesWcnt cn.length = bn at *
  generalize hbe' : Der.bytesWcnt ce.length = be at *
  have hs : 4 * (7 + (0 + (bn + 1) + (bn + 1) + (bn + 1) + (bn + 1) + (bn + 1) + (be + 1))) < 2 ^ 31 := by omega
  have hHn : (⟨4, 7 + 0, bn + 1, intData cn⟩ : Ent).Holds 4 n := ⟨rfl, cn, rfl, vn, by simp [hbn'], by omega, qn⟩
  have hHe : (⟨5, 7 + (0 + (bn + 1) + (bn + 1) + (bn + 1) + (bn + 1) + (bn + 1)), be + 1, intData ce⟩ : Ent).Holds 5 e :=
    ⟨rfl, ce, rfl, ve, by simp [hbe'], by omega, qe⟩
  have hfull : ∀ e ∈ [(⟨5, 7 + (0 + (bn + 1) + (bn + 1) + (bn + 1) + (bn + 1) + (bn + 1)), be + 1, intData ce⟩ : Ent),
      ⟨3, 7 + (0 + (bn + 1) + (bn + 1) + (bn + 1) + (bn + 1)), bn + 1, [BitVec.ofNat 32 bn]⟩,
      ⟨2, 7 + (0 + (bn + 1) + (bn + 1) + (bn + 1)), bn + 1, [BitVec.ofNat 32 bn]⟩,
      ⟨1, 7 + (0 + (bn + 1) + (bn + 1)), bn + 1, [BitVec.ofNat 32 bn]⟩,
      ⟨0, 7 + (0 + (bn + 1)), bn + 1, [BitVec.ofNat 32 bn]⟩, ⟨4, 7 + 0, bn + 1, intData cn⟩], e.Full := by
    intro e he
    simp only [List.mem_cons, List.not_mem_nil, or_false] at he
    rcases he with rfl | rfl | rfl | rfl | rfl | rfl
    · exact hHe.full
    · exact ⟨by simp, by simp; omega, by simp⟩
    · exact ⟨by simp, by simp; omega, by simp⟩
    · exact ⟨by simp, by simp; omega, by simp⟩
    · exact ⟨by simp, by simp; omega, by simp⟩
    · exact hHn.full
  have cnt : ∀ e ∈ [(⟨5, 7 + (0 + (bn + 1) + (bn + 1) + (bn + 1) + (bn + 1) + (bn + 1)), be + 1, intData ce⟩ : Ent),
      ⟨3, 7 + (0 + (bn + 1) + (bn + 1) + (bn + 1) + (bn + 1)), bn + 1, [BitVec.ofNat 32 bn]⟩,
      ⟨2, 7 + (0 + (bn + 1) + (bn + 1) + (bn + 1)), bn + 1, [BitVec.ofNat 32 bn]⟩,
      ⟨1, 7 + (0 + (bn + 1) + (bn + 1)), bn + 1, [BitVec.ofNat 32 bn]⟩,
      ⟨0, 7 + (0 + (bn + 1)), bn + 1, [BitVec.ofNat 32 bn]⟩, ⟨4, 7 + 0, bn + 1, intData cn⟩], ctxCount m11 e.fld + 1 = e.len :=
    fun e he => (I11.at (by omega) he (hfull e he)).2.1
  simp only [List.forall_mem_cons] at cnt
  obtain ⟨k5, k3, k2, k1, k0, k4, -⟩ := cnt
  refine ⟨4 * (7 + (0 + (bn + 1) + (bn + 1) + (bn + 1) + (bn + 1) + (bn + 1) + (be + 1))), m11, ?_, ?_, ?_, ?_, ?_,
    I11.laidOut (by omega) hfull _ (by simp), ?_, ?_, ?_, ?_, hs⟩
  · unfold decodePub
    rw [hh]
    simp only [Res.bind_ok, List.append_assoc, List.nil_append, rn, re, placeInt, placeWork, setCount, setBits, Option.map_none,
      bytesSize, hbn', hbe', Res.pure_ok]
    congr 2; omega
  · unfold decodePub
    rw [hh]
    simp only [Res.bind_ok, List.append_assoc, List.nil_append, rn, re, e1', e2, e3, e4, e5, e6, e7, e8, e9, e10, e11, Res.pure_ok]
    congr 2; omega
  · exact I11.nat (by omega) (by simp) hHn
  · exact I11.nat (by omega) (by simp) hHe
  · have := (I11.sc _ (List.mem_cons_self)).1
    simp only at this
    rw [this, topbit_size _ (by intro hc; have := (Props.C08_decode cn).2; rw [hc] at this; simp [Der.bytesWcnt] at this),
      (Props.C08_decode cn).1, vn, BitVec.toNat_ofNat, Nat.mod_eq_of_lt]
    have : Nat.size n ≤ 8 * cn.length := Nat.size_le.mpr (by rw [← vn, Nat.pow_mul]; exact beNat_lt cn)
    omega
  · intro f hf
    simp only [List.mem_cons, List.not_mem_nil, or_false] at hf
    rcases hf with rfl | rfl | rfl | rfl <;> omega
  · have : ctxCount m11 4 = bn := by simpa using k4
    rw [this, ← vn]
    have hb := beNat_lt cn
    have hp : (256 : Nat) ^ cn.length * 2 ^ 64 ≤ 2 ^ (32 * bn) := by
      rw [show (256 : Nat) = 2 ^ 8 from rfl, ← Nat.pow_mul, ← Nat.pow_add]
      exact Nat.pow_le_pow_right (by decide) (by unfold Der.bytesWcnt at hbn'; omega)
    exact (Nat.mul_le_mul_right _ hb.le).trans hp
  · have : ctxCount m11 5 = be := by simpa using k5
    rw [this, ← hbe']; unfold Der.bytesWcnt; omega
  · intro j hj
    exact I11.out j (by omega)

theorem putInteger_len (w : List W) (hw : w.length < 2 ^ 32) : ∃ o, IsDerNat (val w) o ∧ o.length < 2 ^ 35 ∧
    Der.putInteger w none = some ((o.length : Int), []) ∧
    (∀ room, o.length ≤ room → Der.putInteger w (some room) = some ((o.length : Int), o)) ∧
    (∀ room, room < o.length → Der.putInteger w (some room) = some (-1, [])) := by
  obtain ⟨o, h1, h2, h3, h4⟩ := putInteger_der w (by omega)
  refine ⟨o, h1, ?_, h2, h3, h4⟩
  have hs := Props.intSize_le w
  obtain ⟨L, hL, -, hLl⟩ := putLen_der (n := Der.intSize w) (by omega)
  unfold Der.putInteger at h2
  simp only [hL, Ecc.tag2, Option.bind_eq_bind, Option.bind_some] at h2
  have := congrArg (fun x => x.1) (Option.some.inj h2)
  simp at this
  omega

theorem vlong_length (m : Mem) (i : Nat) : (m.vlong i).length < 2 ^ 32 := by
  unfold Mem.vlong
  simp only [List.length_map, List.length_range]
  exact (m i).isLt

theorem pub_encode (m : Mem) (fn fe : Nat) : ∃ o, IsDerPub (ctxNat m fn) (ctxNat m fe) o ∧ o.length < 2 ^ 40 ∧ ∀ b0,
    Chain b0 o.length (do
      let (buf, ret) ← putInt b0 0 (m.vlong (m.at_ fn))
      let (buf, ret) ← putInt buf ret (m.vlong (m.at_ fe))
      wrapSeq buf ret) (st b0 o) := by
  obtain ⟨x, x1, x2, x3, x4, x5⟩ := putInteger_len (m.vlong (m.at_ fn)) (vlong_length _ _)
  obtain ⟨y, y1, y2, y3, y4, y5⟩ := putInteger_len (m.vlong (m.at_ fe)) (vlong_length _ _)
  obtain ⟨o, o1, o2⟩ := wrapSeq_chain (c := x ++ y) (by simp; omega)
  have hl := tlv_length o1 (by simp; omega)
  refine ⟨o, ⟨x ++ y, ⟨x, y, ?_, ⟨y, [], ?_, rfl, by simp⟩, rfl⟩, o1⟩, ?_, fun b0 => ?_⟩
  · rw [ctxNat_eq]; exact x1
  · rw [ctxNat_eq]; exact y1
  · simp at hl; omega
  · have h0 : st b0 [] = (b0, 0) := by cases b0 <;> simp [st]
    have e1 := putInt_chain x3 x4 x5 (b0 := b0) (o := []) (by intro b _; simp) (total := o.length) (by simp at hl ⊢; omega)
      (R := st b0 o) (k := fun z => do
        let (buf, ret) ← putInt z.1 z.2 (m.vlong (m.at_ fe))
        wrapSeq buf ret) (fun hx => putInt_chain y3 y4 y5 (b0 := b0) (o := [] ++ x) hx (total := o.length) (by simp at hl ⊢; omega)
          (k := fun z => wrapSeq z.1 z.2) (fun hy => by simpa using o2 b0 (by simpa using hy)))
    rw [h0] at e1
    exact e1

/-- C64: encoding.  For every context the octets are the DER of its modulus and exponent; the query with no buffer gives their number;
a buffer with room for them receives them and keeps the rest; a shorter one is refused. -/
theorem C64_encode (m : Mem) : ∃ o, IsDerPub (ctxNat m 4) (ctxNat m 5) o ∧ encodePub m none = .ok (none, o.length) ∧
    ∀ buf : List (BitVec 8), (o.length ≤ buf.length → encodePub m (some buf) = .ok (some (o ++ buf.drop o.length), o.length)) ∧
      (buf.length < o.length → encodePub m (some buf) = .fail) := by
  obtain ⟨o, o1, -, o2⟩ := pub_encode m 4 5
  refine ⟨o, o1, (o2 none).1 (by intro b hb; cases hb), fun buf => ⟨fun h => ?_, fun h => ?_⟩⟩
  · exact (o2 (some buf)).1 (by intro b hb; cases hb; exact h)
  · exact (o2 (some buf)).2 (by intro hc; have := hc buf rfl; omega)

/-- C64: exporting the public key of a private context gives the DER of its modulus and public exponent. -/
theorem C64_export (m : Mem) : ∃ o, IsDerPub (ctxNumbers m).n (ctxNumbers m).e o ∧ exportPub m none = .ok (none, o.length) ∧
    ∀ buf : List (BitVec 8), (o.length ≤ buf.length → exportPub m (some buf) = .ok (some (o ++ buf.drop o.length), o.length)) ∧
      (buf.length < o.length → exportPub m (some buf) = .fail) := by
  obtain ⟨o, o1, -, o2⟩ := pub_encode m 7 8
  refine ⟨o, o1, (o2 none).1 (by intro b hb; cases hb), fun buf => ⟨fun h => ?_, fun h => ?_⟩⟩
  · exact (o2 (some buf)).1 (by intro b hb; cases hb; exact h)
  · exact (o2 (some buf)).2 (by intro hc; have := hc buf rfl; omega)

theorem isDerTlv_unique {t : BitVec 8} {c o o' : List (BitVec 8)} (h : IsDerTlv t c o) (h' : IsDerTlv t c o') : o = o' := by
  obtain ⟨L, h1, rfl⟩ := h
  obtain ⟨L', h1', rfl⟩ := h'
  rw [isDerLen_unique h1 h1']

theorem isDerNat_unique {v : Nat} {o o' : List (BitVec 8)} (h : IsDerNat v o) (h' : IsDerNat v o') : o = o' := by
  obtain ⟨c, h1, h2, h3⟩ := h
  obtain ⟨c', h1', h2', h3'⟩ := h'
  obtain ⟨b0, b1, b2⟩ := minimalNonneg_bounds h1
  obtain ⟨b0', b1', b2'⟩ := minimalNonneg_bounds h1'
  rw [h2] at b1 b2
  rw [h2'] at b1' b2'
  have key : ∀ {x y : Nat}, 2 * v < 256 ^ x → (y = 1 ∨ 256 ^ (y - 1) ≤ 2 * v) → 0 < x → y ≤ x := by
    intro x y k1 k2 k3
    rcases k2 with k2 | k2
    · omega
    · have : y - 1 < x := (Nat.pow_lt_pow_iff_right (a := 256) (by decide)).mp (by omega)
      omega
  have hl : c.length = c'.length := Nat.le_antisymm (key b1' b2 b0') (key b1 b2' b0)
  have := Pkcs1.beNat_inj hl (h2.trans h2'.symm)
  subst this
  exact isDerTlv_unique h3 h3'

theorem isDerNats_unique {l : List Nat} {o o' : List (BitVec 8)} (h : IsDerNats l o) (h' : IsDerNats l o') : o = o' := by
  induction l generalizing o o' with
  | nil => rw [show o = [] from h, show o' = [] from h']
  | cons v l ih =>
    obtain ⟨a, b, h1, h2, rfl⟩ := h
    obtain ⟨a', b', h1', h2', rfl⟩ := h'
    rw [isDerNat_unique h1 h1', ih h2 h2']

/-- The encoding is canonical. -/
theorem isDerPub_unique {n e : Nat} {o o' : List (BitVec 8)} (h : IsDerPub n e o) (h' : IsDerPub n e o') : o = o' := by
  obtain ⟨c, h1, h2⟩ := h
  obtain ⟨c', h1', h2'⟩ := h'
  rw [isDerNats_unique h1 h1'] at h2
  exact isDerTlv_unique h2 h2'

example : IsDerPub 187 7 [0x30#8, 7#8, 0x02#8, 2#8, 0#8, 187#8, 0x02#8, 1#8, 7#8] :=
  ⟨[0x02#8, 2#8, 0#8, 187#8, 0x02#8, 1#8, 7#8],
    ⟨[0x02#8, 2#8, 0#8, 187#8], [0x02#8, 1#8, 7#8],
      ⟨[0#8, 187#8], ⟨_, _, rfl, by decide, Or.inr (Or.inr ⟨_, _, rfl, by decide⟩)⟩, by decide, [2#8], Or.inl ⟨by decide, by decide⟩, rfl⟩,
      ⟨[0x02#8, 1#8, 7#8], [], ⟨[7#8], ⟨_, _, rfl, by decide, Or.inl rfl⟩, by decide, [1#8], Or.inl ⟨by decide, by decide⟩, rfl⟩, rfl, rfl⟩, rfl⟩,
    [7#8], Or.inl ⟨by decide, by decide⟩, rfl⟩

/-- C64: encoding what was decoded gives the same octets. -/
theorem C64_roundtrip {n e : Nat} {o : List (BitVec 8)} (h : IsDerPub n e o) (hl : o.length < 2 ^ 25) (m : Mem) :
    ∃ size m', decodePub (some m) o = .ok (size, some m') ∧ encodePub m' none = .ok (none, o.length) ∧
      ∀ buf : List (BitVec 8), o.length ≤ buf.length → encodePub m' (some buf) = .ok (some (o ++ buf.drop o.length), o.length) := by
  obtain ⟨size, m', -, h2, h3, h4, -⟩ := C64_decode h hl [] m
  rw [List.append_nil] at h2
  obtain ⟨o', k1, k2, k3⟩ := C64_encode m'
  rw [h3, h4] at k1
  rw [isDerPub_unique h k1]
  rw [isDerPub_unique h k1] at h2
  exact ⟨size, m', h2, k2, fun buf => (k3 buf).1⟩

/-- The public-key context in memory as the record the operations of C31 to C35 work on. -/
def pubOf (m : Mem) : Pkcs1.Pub where
  status := 0
  bits := (m 6).toNat
  n := m.vlong (m.at_ 4)
  e := m.vlong (m.at_ 5)
  w1 := Pkcs1.octets (m.vlong (m.at_ 0))
  w2 := Pkcs1.octets (m.vlong (m.at_ 1))

theorem length_vlong (m : Mem) (f : Nat) : (m.vlong (m.at_ f)).length = ctxCount m f := by
  unfold Mem.vlong ctxCount
  simp [ctxAt_eq]

/-- C64: a decoded key is ready for use: RSA encryption and the signature verifications (C31 to C35) ask for `PubOk`, and every
decoded non-zero modulus gives it. -/
theorem C64_ready {n e : Nat} {o : List (BitVec 8)} (h : IsDerPub n e o) (hl : o.length < 2 ^ 25) (hn : 0 < n) (rest : List (BitVec 8))
    (m : Mem) : ∃ size m', decodePub (some m) (o ++ rest) = .ok (size, some m') ∧ Pkcs1.PubOk (pubOf m') ∧
      val (pubOf m').n = n ∧ val (pubOf m').e = e := by
  obtain ⟨size, m', -, h2, h3, h4, h5, -, h6, h7, h8, -⟩ := C64_decode h hl rest m
  have c0 := h6 0 (by simp)
  have c1 := h6 1 (by simp)
  have hv : val (pubOf m').n = n := by rw [← h3, ctxNat_eq]; rfl
  refine ⟨size, m', h2, ⟨?_, ?_, ?_, ?_, ?_, ?_⟩, hv, by rw [← h4, ctxNat_eq]; rfl⟩
  · intro hc
    apply h8
    rw [← length_vlong]
    show (pubOf m').e.length = 0
    rw [hc]; rfl
  · simp only [pubOf, Pkcs1.length_octets, length_vlong]; omega
  · rw [hv]
    simp only [pubOf, Pkcs1.length_octets, length_vlong]
    rw [show 4 * ctxCount m' 1 / 4 = ctxCount m' 4 by omega]
    refine le_trans (Nat.mul_le_mul_left n ?_) h7
    decide
  · rw [hv]
    simp only [pubOf, h5]
    by_contra hc
    have := Nat.size_le.mpr (Nat.lt_of_not_le hc)
    have : 0 < Nat.size n := Nat.size_pos.mpr hn
    omega
  · rw [hv]; simp only [pubOf, h5]; exact Nat.lt_size_self n
  · simp only [pubOf, Pkcs1.length_octets, length_vlong]; omega

/-- C64: the decoder is not strict.  The length of the SEQUENCE is not looked at, nor are integers required to be minimal: octets
that are no DER of any key, whatever follows it, are accepted. -/
theorem C64_not_strict : ¬ ∀ (enc : List (BitVec 8)) (size : Nat), decodePub none enc = .ok (size, none) →
    ∃ n e o rest, IsDerPub n e o ∧ enc = o ++ rest := by
  intro h
  obtain ⟨n, e, o, rest, ⟨c, hc, L, hL, rfl⟩, h2⟩ := h [0x30#8, 0#8, 0x02#8, 1#8, 35#8, 0x02#8, 1#8, 5#8] 124 rfl
  obtain ⟨a, b, ⟨ca, -, -, La, -, rfl⟩, -, rfl⟩ := hc
  rcases hL with ⟨h3, rfl⟩ | ⟨h3, b', t, rfl, h4, h5, -⟩
  · simp only [List.cons_append, List.nil_append, List.cons.injEq] at h2
    have h6 := congrArg BitVec.toNat h2.2.1
    simp only [BitVec.toNat_ofNat, List.length_cons, List.length_append] at h6 h3
    omega
  · simp only [List.cons_append, List.cons.injEq] at h2
    have h6 := congrArg BitVec.toNat h2.2.1
    simp only [BitVec.toNat_ofNat, List.length_cons] at h6 h4
    omega

end Props
