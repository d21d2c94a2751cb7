import Verif.Model.Pkcs1Glue
import Verif.Props.RsaDerPriv
import Verif.Props.RsaKeygen
import Verif.Props.Pkcs1

/-!
# Property C85: PKCS #1 key contexts

The contexts the user allocates for the RSA schemes: what is announced, what is written, and that keys can be generated, exported, decoded by
a peer and used.
-/

namespace Props
open Spec Vlong Pkcs1Glue
open RsaDer hiding decodePub decodePriv encodePub encodePriv exportPub

/-- The words an integer of the value `v` occupies in a decoded context, its count included. -/
def intWords (v : Nat) : Nat := 3 + (Nat.size v / 8 + 5) / 4

theorem bytesSize_min {c : List (BitVec 8)} (h : MinimalNonneg c) : bytesSize c.length = 4 * intWords (beNat c) := by
  have := minimalNonneg_length h
  unfold bytesSize intWords Der.bytesWcnt
  omega

theorem decodePub_size {n e : Nat} {o : List (BitVec 8)} (h : IsDerPub n e o) (hl : o.length < 2 ^ 25) (rest : List (BitVec 8)) :
    RsaDer.decodePub none (o ++ rest) = .ok (28 + 20 * intWords n + 4 * intWords e, none) := by
  obtain ⟨c, hc, ht⟩ := h
  have hcl : c.length < o.length := by
    obtain ⟨L, -, rfl⟩ := ht
    simp only [List.length_cons, List.length_append]; omega
  obtain ⟨on, t1, hn, ⟨oe, t2, he, rfl, rfl⟩, rfl⟩ := hc
  simp only [List.length_append, List.length_nil] at hcl
  obtain ⟨cn, vn, ln, rn, qn⟩ := isDerNat_content hn (by omega)
  obtain ⟨ce, ve, le, re, qe⟩ := isDerNat_content he (by omega)
  have hh := hdr_seq ht (by simp; omega) rest
  unfold RsaDer.decodePub
  rw [hh]
  simp only [Res.bind_ok, List.append_assoc, List.nil_append, rn, re, placeInt, placeWork, setCount, setBits, Option.map_none,
    Res.pure_ok, bytesSize_min qn, bytesSize_min qe, vn, ve]
  congr 2; omega

theorem decodeOthers_size (c1 : Nat) : ∀ (l : List (Nat × Nat × Nat)) (w : List (BitVec 8)) (i r f : Nat), IsDerInfos l w → l.length < f →
    w.length < 2 ^ 30 →
    decodeOthers c1 f none r i w = .ok (r + (l.map fun x => 4 * (intWords x.1 + intWords x.2.1 + intWords x.2.2)).sum, none, i + l.length) := by
  intro l
  induction l with
  | nil =>
    intro w i r f hw h1 hl
    have : w = [] := hw
    subst this
    obtain ⟨f, rfl⟩ : ∃ k, f = k + 1 := ⟨f - 1, by simp at h1; omega⟩
    simp [decodeOthers]
  | cons x l ih =>
    intro w i r f hw h1 hl
    obtain ⟨vr, vd, vt⟩ := x
    obtain ⟨c, a, b, ⟨o1, t1, hr, ⟨o2, t2, hd, ⟨o3, t3, ht, rfl, rfl⟩, rfl⟩, rfl⟩, ha, hb, rfl⟩ := hw
    have hal : o1.length + o2.length + o3.length < a.length := by
      obtain ⟨K, -, rfl⟩ := ha
      simp only [List.length_cons, List.length_append]; omega
    simp only [List.length_append, List.length_cons] at hl h1
    obtain ⟨cr, vr', lr, rr, zr⟩ := isDerNat_content hr (by omega)
    obtain ⟨cd, vd', ld, rd, zd⟩ := isDerNat_content hd (by omega)
    obtain ⟨ct, vt', lt, rt, zt⟩ := isDerNat_content ht (by omega)
    have hh := hdr_seq ha (by simp; omega) b
    obtain ⟨f, rfl⟩ : ∃ k, f = k + 1 := ⟨f - 1, by omega⟩
    rw [decodeOthers]
    have hne : ((a ++ b).isEmpty) = false := by
      cases a with
      | nil => simp at hal
      | cons _ _ => rfl
    simp only [hne, Bool.false_eq_true, if_false, hh, Res.bind_ok, List.append_assoc, List.nil_append, rr, rd, rt, placeInt, Option.map_none,
      bytesSize_min zr, bytesSize_min zd, bytesSize_min zt, vr', vd', vt']
    rw [ih b (i + 1) _ f hb (by omega) (by omega)]
    simp only [List.map_cons, List.sum_cons, List.length_cons]
    congr 2
    · omega
    · congr 1; omega

/-- The octets of the integers of a private key in a decoded context. -/
def keyOctets (k : RsaNumbers) : Nat :=
  4 * (intWords k.e + intWords k.d + intWords k.p + intWords k.q + intWords k.dP + intWords k.dQ + intWords k.qInv) + 24 * intWords k.n +
    (k.others.map fun x => 4 * (intWords x.1 + intWords x.2.1 + intWords x.2.2)).sum

theorem decodePriv_size {k : RsaNumbers} {o : List (BitVec 8)} (h : IsDerPriv k o) (hl : o.length < 2 ^ 25) (rest : List (BitVec 8)) :
    RsaDer.decodePriv none (o ++ rest) = .ok (60 + 12 * k.others.length + keyOctets k, none) := by
  obtain ⟨c, s, hc, hs, ht⟩ := h
  have hcl : c.length + s.length < o.length := by
    obtain ⟨L, -, rfl⟩ := ht
    simp only [List.length_cons, List.length_append]; omega
  obtain ⟨ov, _, hv, ⟨on, _, hn, ⟨oe, _, he, ⟨od, _, hd, ⟨op, _, hp, ⟨oq, _, hq, ⟨odp, _, hdp, ⟨odq, _, hdq, ⟨oqi, _, hqi, rfl, rfl⟩,
    rfl⟩, rfl⟩, rfl⟩, rfl⟩, rfl⟩, rfl⟩, rfl⟩, rfl⟩ := hc
  simp only [List.length_append, List.length_nil] at hcl
  obtain ⟨cv, vv, lv, rv, mv⟩ := isDerNat_content hv (by omega)
  obtain ⟨cn, vn, ln, rn, zn⟩ := isDerNat_content hn (by omega)
  obtain ⟨ce, ve, le, re, ze⟩ := isDerNat_content he (by omega)
  obtain ⟨cd, vd, ld, rd, zd⟩ := isDerNat_content hd (by omega)
  obtain ⟨cp, vp, lp, rp, zp⟩ := isDerNat_content hp (by omega)
  obtain ⟨cq, vq, lq, rq, zq⟩ := isDerNat_content hq (by omega)
  obtain ⟨cdp, vdp, ldp, rdp, zdp⟩ := isDerNat_content hdp (by omega)
  obtain ⟨cdq, vdq, ldq, rdq, zdq⟩ := isDerNat_content hdq (by omega)
  obtain ⟨cqi, vqi, lqi, rqi, zqi⟩ := isDerNat_content hqi (by omega)
  have hh := hdr_seq ht (by simp; omega) rest
  simp only [List.append_assoc, List.nil_append] at hh
  have hver := version_octet mv vv (by split <;> decide)
  have hW : 4 * privWords cn ce cd cp cq cdp cdq cqi =
      4 * (intWords k.e + intWords k.d + intWords k.p + intWords k.q + intWords k.dP + intWords k.dQ + intWords k.qInv) + 24 * intWords k.n := by
    have a1 := bytesSize_min zn
    have a2 := bytesSize_min ze
    have a3 := bytesSize_min zd
    have a4 := bytesSize_min zp
    have a5 := bytesSize_min zq
    have a6 := bytesSize_min zdp
    have a7 := bytesSize_min zdq
    have a8 := bytesSize_min zqi
    rw [vn] at a1
    rw [ve] at a2
    rw [vd] at a3
    rw [vp] at a4
    rw [vq] at a5
    rw [vdp] at a6
    rw [vdq] at a7
    rw [vqi] at a8
    unfold bytesSize at a1 a2 a3 a4 a5 a6 a7 a8
    unfold privWords
    omega
  have hWl : privWords cn ce cd cp cq cdp cdq cqi ≤ 12 * (on.length + oe.length + od.length + op.length + oq.length + odp.length +
      odq.length + oqi.length) := by
    unfold privWords Der.bytesWcnt; omega
  obtain ⟨p1, -⟩ := privPass_common hh rv rn re rd rp rq rdp rdq rqi ⟨zn, ze, zd, zp, zq, zdp, zdq, zqi⟩ 0 (by unfold privHdr; omega) (by omega)
    (fun _ => 0)
  unfold RsaDer.decodePriv
  rw [p1, hW]
  unfold privTail keyOctets
  by_cases h0 : k.others = []
  · rw [if_pos h0] at hver
    rw [hver, if_pos (by decide), h0]
    simp only [Res.pure_ok, Res.bind_ok, List.map_nil, List.sum_nil, List.length_nil, privHdr]
    congr 2; omega
  · rw [if_neg h0] at hs hver
    obtain ⟨w, hw, hst⟩ := hs
    have hwl : w.length < s.length := by
      obtain ⟨L, -, rfl⟩ := hst
      simp only [List.length_cons, List.length_append]; omega
    have hil := infos_length _ _ hw
    have hh2 := hdr_seq hst (by omega) rest
    rw [hver, if_neg (by decide), if_pos (by decide), hh2]
    simp only [Res.bind_ok, List.take_left']
    rw [decodeOthers_size 0 k.others w 0 _ _ hw (by simp; omega) (by omega)]
    simp only [Res.bind_ok, Res.pure_ok, privHdr]
    congr 2; omega

/-! ## The parts of a context -/

theorem two_val (p : BitVec 64) : (p.setWidth 32 : W).zeroExtend 64 ||| ((p >>> 32).setWidth 32 : W).zeroExtend 64 <<< 32 = p := by
  apply BitVec.eq_of_getLsbD_eq
  intro i hi
  by_cases h : i < 32
  · simp [h, hi]
  · simp [h, hi, show 32 + (i - 32) = i by omega, show i - 32 < 32 by omega]

theorem length_privInit (a b : HashObj) : (privInit a b).length = 22 := rfl
theorem pubInit_eq (a b : HashObj) : pubInit a b = privInit a b := by
  unfold pubInit privInit
  rw [show 8 + (80 + hashCtx a b) = 88 + hashCtx a b by omega]

theorem hashCtx_max (a b : HashObj) : hashCtx a b = max a.contextBytes b.contextBytes := by
  unfold hashCtx
  split <;> omega

theorem offset_store (a b : HashObj) (hs : hashCtx a b < 2 ^ 32) (m : Mem) : offset (store m (privInit a b)) = 88 + hashCtx a b := by
  have h := two_val (BitVec.ofNat 64 (88 + hashCtx a b))
  show (((BitVec.ofNat 64 (88 + hashCtx a b)).setWidth 32 : W).zeroExtend 64 |||
    (((BitVec.ofNat 64 (88 + hashCtx a b)) >>> 32).setWidth 32 : W).zeroExtend 64 <<< 32).toNat = _
  rw [h, BitVec.toNat_ofNat]
  omega

theorem putRsa_parts (m r : Mem) (h : 8 ≤ offset m) :
    offset (putRsa m r) = offset m ∧ rsaPart (putRsa m r) = r ∧ ∀ j, j < offset m / 4 → putRsa m r j = m j := by
  have lo : ∀ j, j < offset m / 4 → putRsa m r j = m j := fun j hj => if_neg (by omega)
  have ho : offset (putRsa m r) = offset m := by
    unfold offset
    rw [lo 0 (by omega), lo 1 (by omega)]
  refine ⟨ho, ?_, lo⟩
  funext j
  show putRsa m r (offset (putRsa m r) / 4 + j) = r j
  rw [ho]
  show (if _ then _ else _) = _
  rw [if_pos (Nat.le_add_right _ _), Nat.add_sub_cancel_left]

/-- The pointer in the words `j` and `j + 1`. -/
def ptrAt (m : Mem) (j : Nat) : BitVec 64 := m (j + 1) ++ m j

/-- The header of a context for the message hash `a` and the mask hash `b`: where the key is, no status, salt as long as the digest, digest
lengths, and the functions of both (the last one reads from an XOF and finishes a hash function). -/
structure Header (a b : HashObj) (m : Mem) : Prop where
  key : (ptrAt m 0).toNat = 88 + max a.contextBytes b.contextBytes
  status : m 2 = 0
  slen : m 3 = BitVec.ofInt 32 (outBytes a)
  msg : m 4 = BitVec.ofInt 32 (outBytes a)
  mgf : m 5 = BitVec.ofInt 32 (outBytes b)
  initMsg : ptrAt m 6 = a.init
  updateMsg : ptrAt m 8 = a.update
  xfinalMsg : ptrAt m 10 = a.xfinal
  finalMsg : ptrAt m 12 = if a.xfinal = 0 then a.final else a.read
  initMgf : ptrAt m 14 = b.init
  updateMgf : ptrAt m 16 = b.update
  xfinalMgf : ptrAt m 18 = b.xfinal
  finalMgf : ptrAt m 20 = if b.xfinal = 0 then b.final else b.read

/-- A context of `size` octets that was set up in the memory `m`, now `m'`: the header, then the hash functions' area, not touched, then
the key; nothing behind is touched.  `key` is the key's part on its own. -/
structure SetUp (a b : HashObj) (m m' : Mem) (size : Nat) (key : Mem) : Prop where
  header : Header a b m'
  hash : ∀ j, 22 ≤ j → 4 * j < 88 + max a.contextBytes b.contextBytes → m' j = m j
  key : ∀ j, m' ((88 + max a.contextBytes b.contextBytes) / 4 + j) = key j
  behind : ∀ j, size ≤ 4 * j → m' j = m j

theorem ptr_two (p : BitVec 64) : ((p >>> 32).setWidth 32 : W) ++ (p.setWidth 32 : W) = p := by
  apply BitVec.eq_of_getLsbD_eq
  intro i hi
  rw [BitVec.getLsbD_append]
  by_cases h : i < 32
  · simp [h]
  · simp [h, show 32 + (i - 32) = i by omega, show i - 32 < 32 by omega]

theorem header_of (a b : HashObj) (hs : hashCtx a b < 2 ^ 32) (m : Mem) (h : ∀ j < 22, m j = (privInit a b).getD j 0) : Header a b m := by
  have p : ∀ (j : Nat) (q : BitVec 64), j + 1 < 22 → (privInit a b).getD j 0 = q.setWidth 32 →
      (privInit a b).getD (j + 1) 0 = (q >>> 32).setWidth 32 → ptrAt m j = q := by
    intro j q hj h1 h2
    unfold ptrAt
    rw [h j (by omega), h (j + 1) hj, h1, h2, ptr_two]
  have fin : ∀ x : HashObj, (if x.xfinal ≠ 0 then x.read else x.final) = if x.xfinal = 0 then x.final else x.read := fun x => by
    by_cases hx : x.xfinal = 0 <;> simp [hx]
  refine ⟨?_, h 2 (by decide), h 3 (by decide), h 4 (by decide), h 5 (by decide), p 6 _ (by decide) rfl rfl, p 8 _ (by decide) rfl rfl,
    p 10 _ (by decide) rfl rfl, ?_, p 14 _ (by decide) rfl rfl, p 16 _ (by decide) rfl rfl, p 18 _ (by decide) rfl rfl, ?_⟩
  · rw [p 0 (BitVec.ofNat 64 (88 + hashCtx a b)) (by decide) rfl rfl, BitVec.toNat_ofNat, hashCtx_max] at *
    omega
  · rw [← fin]; exact p 12 _ (by decide) rfl rfl
  · rw [← fin]; exact p 20 _ (by decide) rfl rfl

theorem setUp_of (a b : HashObj) (h4 : hashCtx a b % 4 = 0) (hs : hashCtx a b < 2 ^ 32) (m r : Mem) (size : Nat)
    (hf : ∀ j, size ≤ 4 * j → r j = rsaPart (store m (privInit a b)) j) :
    SetUp a b m (putRsa (store m (privInit a b)) r) (size + 88 + hashCtx a b) r ∧ rsaPart (putRsa (store m (privInit a b)) r) = r := by
  have ho := offset_store a b hs m
  obtain ⟨h1, h2, h3⟩ := putRsa_parts (store m (privInit a b)) r (by omega)
  rw [ho] at h1 h3
  have st : ∀ j, 22 ≤ j → store m (privInit a b) j = m j := fun j hj => if_neg (by rw [length_privInit]; omega)
  refine ⟨⟨?_, ?_, ?_, ?_⟩, h2⟩
  · refine header_of a b hs _ fun j hj => ?_
    rw [h3 j (by omega)]
    exact if_pos (by rw [length_privInit]; omega)
  · intro j hj hj'
    rw [← hashCtx_max] at hj'
    rw [h3 j (by omega), st j hj]
  · intro j
    rw [← hashCtx_max]
    have := congrFun h2 j
    unfold rsaPart at this
    rw [h1] at this
    exact this
  · intro j hj
    have hr := hf (j - offset (store m (privInit a b)) / 4) (by rw [ho]; omega)
    show (if _ then _ else _) = _
    rw [if_pos (by rw [ho]; omega), hr]
    unfold rsaPart
    rw [Nat.add_sub_cancel' (by rw [ho]; omega), st j (by omega)]

/-! ## Decoding -/

/-- C85: decoding a public key.  The call without a context announces the size, the call with one sets up that many octets and no more: header,
hash area, and behind them a key with the modulus and exponent of the encoding, ready for the operations of C31 to C35. -/
theorem C85_decode_pub {n e : Nat} {o : List (BitVec 8)} (h : IsDerPub n e o) (hl : o.length < 2 ^ 25) (hn : 0 < n) (rest : List (BitVec 8))
    (a b : HashObj) (h4 : max a.contextBytes b.contextBytes % 4 = 0) (hs : max a.contextBytes b.contextBytes < 2 ^ 32) (m : Mem) :
    ∃ size m' key, Pkcs1Glue.decodePub a b none (o ++ rest) = .ok (size, none) ∧ Pkcs1Glue.decodePub a b (some m) (o ++ rest) = .ok (size, some m') ∧
      size = 88 + max a.contextBytes b.contextBytes + 28 + 20 * intWords n + 4 * intWords e ∧
      SetUp a b m m' size key ∧ rsaPart m' = key ∧ LaidOut key 7 (size - 88 - max a.contextBytes b.contextBytes) [0, 1, 2, 3, 4, 5] ∧
      ctxNat key 4 = n ∧ ctxNat key 5 = e ∧ Pkcs1.PubOk (pubOf key) ∧ (pubOf key).bits = Nat.size n := by
  rw [← hashCtx_max] at *
  have hsz := decodePub_size h hl rest
  obtain ⟨size, r, h1, h2, h3, h5, h6, h7, -, -, -, h8, -⟩ := C64_decode h hl rest (rsaPart (store m (privInit a b)))
  obtain ⟨size', r', g1, g2, -, -⟩ := C64_ready h hl hn rest (rsaPart (store m (privInit a b)))
  rw [h2] at g1
  obtain ⟨rfl, rfl⟩ : size = size' ∧ r = r' := by injection g1 with g1; injection g1 with g1 g3; injection g3 with g3; exact ⟨g1, g3⟩
  rw [hsz] at h1
  obtain rfl : 28 + 20 * intWords n + 4 * intWords e = size := by injection h1 with h1; injection h1
  obtain ⟨s1, s2⟩ := setUp_of a b h4 hs m r _ h8
  refine ⟨_, _, r, ?_, ?_, ?_, s1, s2, ?_, h3, h5, g2, h6⟩
  · unfold Pkcs1Glue.decodePub
    simp only [Option.map_none, hsz, Res.bind_ok, Res.pure_ok, Option.bind_none]
  · unfold Pkcs1Glue.decodePub
    rw [pubInit_eq]
    simp only [Option.map_some, h2, Res.bind_ok, Res.pure_ok, Option.bind_some]
  · omega
  · rw [show 28 + 20 * intWords n + 4 * intWords e + 88 + hashCtx a b - 88 - hashCtx a b = 28 + 20 * intWords n + 4 * intWords e by omega]
    exact h7

/-- C85: decoding a private key. -/
theorem C85_decode_priv {k : RsaNumbers} {o : List (BitVec 8)} (h : IsDerPriv k o) (hl : o.length < 2 ^ 25) (rest : List (BitVec 8))
    (a b : HashObj) (h4 : max a.contextBytes b.contextBytes % 4 = 0) (hs : max a.contextBytes b.contextBytes < 2 ^ 32) (m : Mem) :
    ∃ size m' key, Pkcs1Glue.decodePriv a b none (o ++ rest) = .ok (size, none) ∧
      Pkcs1Glue.decodePriv a b (some m) (o ++ rest) = .ok (size, some m') ∧
      size = 88 + max a.contextBytes b.contextBytes + 60 + 12 * k.others.length + keyOctets k ∧
      SetUp a b m m' size key ∧ rsaPart m' = key ∧
      LaidOut key (15 + 3 * k.others.length) (size - 88 - max a.contextBytes b.contextBytes) (privFields k.others.length) ∧
      ctxNumbers key = k ∧ (privOf key).bits = Nat.size k.n ∧
      (ValidNumbers k → Balanced k → primeBits k % 32 ≠ 24 → Pkcs1.PrivOk k.e (privOf key)) := by
  rw [← hashCtx_max] at *
  have hsz := decodePriv_size h hl rest
  obtain ⟨size, r, h1, h2, D⟩ := C65_decode h hl rest (rsaPart (store m (privInit a b)))
  rw [hsz] at h1
  obtain rfl : 60 + 12 * k.others.length + keyOctets k = size := by injection h1 with h1; injection h1
  obtain ⟨s1, s2⟩ := setUp_of a b h4 hs m r _ D.frame
  refine ⟨_, _, r, ?_, ?_, ?_, s1, s2, ?_, D.numbers, D.bits, fun v w x => C65_ready D v w x⟩
  · unfold Pkcs1Glue.decodePriv
    simp only [Option.map_none, hsz, Res.bind_ok, Res.pure_ok, Option.bind_none]
  · unfold Pkcs1Glue.decodePriv
    simp only [Option.map_some, h2, Res.bind_ok, Res.pure_ok, Option.bind_some]
  · omega
  · rw [show 60 + 12 * k.others.length + keyOctets k + 88 + hashCtx a b - 88 - hashCtx a b = 60 + 12 * k.others.length + keyOctets k by omega]
    exact D.laidOut

/-- C85: key generation: the call without a context announces the size, and a generated key is set up in that many octets and no more. -/
theorem C85_keygen {rng : RsaKeygen.Rng} {junk : RsaKeygen.Junk} {mf cf rf bits c : Nat} {m m' : Mem} (a b : HashObj)
    (h4 : max a.contextBytes b.contextBytes % 4 = 0) (hs : max a.contextBytes b.contextBytes < 2 ^ 32) (hc : 2 ≤ c)
    (hrng : ∀ k, (rng k).length = Pkcs1.bitsWcnt (bits / c)) (h32 : RsaKeygen.ctxSize bits c < 2 ^ 32)
    (h : Pkcs1Glue.keygen a b rng junk mf cf rf bits c m = some m') :
    ∃ key, SetUp a b m m' (keygenSize a b bits c) key ∧ rsaPart m' = key ∧
      LaidOut key (15 + 3 * (c - 2)) (keygenSize a b bits c - 88 - max a.contextBytes b.contextBytes) (privFields (c - 2)) ∧
      ∃ m0, RsaKeygen.keygen rng junk mf cf rf bits c m0 = some key := by
  rw [← hashCtx_max] at *
  unfold Pkcs1Glue.keygen at h
  cases hk : RsaKeygen.keygen rng junk mf cf rf bits c (rsaPart (store m (privInit a b))) with
  | none => simp [hk] at h
  | some r =>
    simp only [hk, Option.map_some, Option.some.injEq] at h
    obtain ⟨-, l1, l2, -⟩ := C67_layout hc hrng h32 hk
    obtain ⟨s1, s2⟩ := setUp_of a b h4 hs m r _ l2
    rw [h] at s1 s2
    refine ⟨r, s1, s2, ?_, _, hk⟩
    unfold keygenSize
    simp only
    rw [show RsaKeygen.ctxSize bits c + 88 + hashCtx a b - 88 - hashCtx a b = RsaKeygen.ctxSize bits c by omega]
    exact l1

/-! ## Announced sizes -/

/-- C85: the size announced for private keys of the scheme's parameters is the one key generation asks for. -/
theorem C85_announced_keygen (a b : HashObj) (x y z w : Param) (hw : 2 ≤ w.aux) (hx : x.info = a) (hy : y.info = b) :
    tOaep [x, y, z, w] .ctxPriv = .ok (keygenSize a b z.aux w.aux) := by
  unfold tOaep tQuery
  simp only [List.getElem?_cons_succ, List.getElem?_cons_zero]
  rw [if_neg (by omega), hx, hy]
  unfold cRsa keygenSize
  simp only
  congr 1; omega

/-- C85: the size announced for public keys of `Nat.size n` bits holds a decoded key exactly when the exponent has at most 23 bits and the
length of the modulus is not 24 modulo 32. -/
theorem C85_announced_pub (a b : HashObj) (x y z w : Param) (hw : 2 ≤ w.aux) (hx : x.info = a) (hy : y.info = b)
    {n e : Nat} {o : List (BitVec 8)} (h : IsDerPub n e o) (hl : o.length < 2 ^ 25) (rest : List (BitVec 8)) (hz : z.aux = Nat.size n) :
    ∃ size announced, Pkcs1Glue.decodePub a b none (o ++ rest) = .ok (size, none) ∧ tOaep [x, y, z, w] .ctxPub = .ok announced ∧
      (size ≤ announced ↔ Nat.size e ≤ 23 ∧ Nat.size n % 32 ≠ 24) := by
  refine ⟨28 + 20 * intWords n + 4 * intWords e + 88 + hashCtx a b, cRsa a b (Nat.size n) w.aux .ctxPub, by
    unfold Pkcs1Glue.decodePub
    simp only [Option.map_none, decodePub_size h hl rest, Res.bind_ok, Res.pure_ok, Option.bind_none], by
    unfold tOaep tQuery
    simp only [List.getElem?_cons_succ, List.getElem?_cons_zero]
    rw [if_neg (by omega), hx, hy, hz], ?_⟩
  unfold cRsa rsaPubSize intWords Pkcs1.bitsWcnt
  generalize Nat.size n = s
  generalize Nat.size e = t
  simp only
  omega

/-- All numbers of the key's factors fit their share of the modulus. -/
def ShareSized (k : RsaNumbers) : Prop :=
  (∀ v ∈ [k.p, k.q, k.dP, k.dQ, k.qInv], Nat.size v ≤ primeBits k) ∧
    ∀ x ∈ k.others, Nat.size x.1 ≤ primeBits k ∧ Nat.size x.2.1 ≤ primeBits k ∧ Nat.size x.2.2 ≤ primeBits k

theorem intWords_share {v b : Nat} (hv : Nat.size v ≤ b) (hb : b % 32 ≠ 24) : intWords v ≤ Pkcs1.bitsWcnt b + 1 := by
  unfold intWords Pkcs1.bitsWcnt; omega

theorem sum_le_of {α : Type} (f : α → Nat) (c : Nat) : ∀ l : List α, (∀ x ∈ l, f x ≤ c) → (l.map f).sum ≤ l.length * c
  | [], _ => by simp
  | x :: l, h => by
    have h1 := h x (by simp)
    have h2 := sum_le_of f c l (fun y hy => h y (by simp [hy]))
    simp only [List.map_cons, List.sum_cons, List.length_cons, Nat.add_mul, Nat.one_mul]
    omega

/-- C85: the size announced for private keys holds every decoded key of that modulus length and number of factors whose factor-sized numbers
fit their share and whose exponent has at most 23 bits, unless one of the lengths is 24 modulo 32. -/
theorem C85_announced_priv (a b : HashObj) (x y z w : Param) (hx : x.info = a) (hy : y.info = b)
    {k : RsaNumbers} {o : List (BitVec 8)} (h : IsDerPriv k o) (hl : o.length < 2 ^ 25) (rest : List (BitVec 8)) (hz : z.aux = Nat.size k.n)
    (hw : w.aux = k.others.length + 2) (he : Nat.size k.e ≤ 23) (hd : Nat.size k.d ≤ Nat.size k.n) (hk : ShareSized k)
    (h1 : Nat.size k.n % 32 ≠ 24) (h2 : primeBits k % 32 ≠ 24) :
    ∃ size announced, Pkcs1Glue.decodePriv a b none (o ++ rest) = .ok (size, none) ∧ tOaep [x, y, z, w] .ctxPriv = .ok announced ∧
      size ≤ announced := by
  refine ⟨60 + 12 * k.others.length + keyOctets k + 88 + hashCtx a b, cRsa a b (Nat.size k.n) (k.others.length + 2) .ctxPriv, by
    unfold Pkcs1Glue.decodePriv
    simp only [Option.map_none, decodePriv_size h hl rest, Res.bind_ok, Res.pure_ok, Option.bind_none], by
    unfold tOaep tQuery
    simp only [List.getElem?_cons_succ, List.getElem?_cons_zero]
    rw [if_neg (by omega), hx, hy, hz, hw], ?_⟩
  obtain ⟨k1, k2⟩ := hk
  simp only [List.forall_mem_cons] at k1
  obtain ⟨q1, q2, q3, q4, q5, -⟩ := k1
  have i1 := intWords_share q1 h2
  have i2 := intWords_share q2 h2
  have i3 := intWords_share q3 h2
  have i4 := intWords_share q4 h2
  have i5 := intWords_share q5 h2
  have i6 := intWords_share (le_refl (Nat.size k.n)) h1
  have i7 := intWords_share hd h1
  have i8 := intWords_share he (by decide)
  have hsum := sum_le_of (fun x => 4 * (intWords x.1 + intWords x.2.1 + intWords x.2.2)) (12 * (Pkcs1.bitsWcnt (primeBits k) + 1)) k.others
    (fun x hx => by
      obtain ⟨p1, p2, p3⟩ := k2 x hx
      have j1 := intWords_share p1 h2
      have j2 := intWords_share p2 h2
      have j3 := intWords_share p3 h2
      omega)
  simp only [cRsa, RsaKeygen.ctxSize, keyOctets]
  rw [show Nat.size k.n / (k.others.length + 2) = primeBits k from rfl]
  rw [show Pkcs1.bitsWcnt 17 = 3 from rfl]
  rw [show Pkcs1.bitsWcnt 23 = 3 from rfl] at i8
  generalize Pkcs1.bitsWcnt (primeBits k) = f at *
  generalize Pkcs1.bitsWcnt (Nat.size k.n) = v at *
  have e1 : 4 * (f + 1) * (3 * (k.others.length + 2) - 1) = 20 * (f + 1) + k.others.length * (12 * (f + 1)) := by
    rw [show 3 * (k.others.length + 2) - 1 = 3 * k.others.length + 5 by omega]; ring
  rw [e1, show k.others.length + 2 - 2 = k.others.length by omega]
  generalize k.others.length * (12 * (f + 1)) = S at *
  omega

/-- C85, negation: asked with a parameter array, which has four elements, the object of RSASSA-PSS reads a fifth one. -/
theorem C85_pss_query_out_of_bounds (P : List Param) (h : P.length = 4) (q : Query) : tPss P q = .oob := by
  unfold tPss tQuery
  rw [List.getElem?_eq_none (by omega)]

/-! ## From one party to the other -/

theorem derNat_le {v : Nat} {o : List (BitVec 8)} (h : IsDerNat v o) (hv : Nat.size v < 2 ^ 50) : o.length ≤ Nat.size v / 8 + 10 := by
  obtain ⟨c, h1, rfl, h3⟩ := h
  have h2 := minimalNonneg_length h1
  have := (tlv_length h3 (by omega)).2
  omega

theorem derPub_le {n e : Nat} {o : List (BitVec 8)} (h : IsDerPub n e o) (hn : Nat.size n < 2 ^ 50) (he : Nat.size e < 2 ^ 50) :
    o.length ≤ Nat.size n / 8 + Nat.size e / 8 + 29 := by
  obtain ⟨c, ⟨on, t1, h1, ⟨oe, t2, h2, rfl, rfl⟩, rfl⟩, ht⟩ := h
  have a1 := derNat_le h1 hn
  have a2 := derNat_le h2 he
  have := (tlv_length ht (by simp; omega)).2
  simp at this
  omega

/-- C85: a party generates a key, exports its public half and hands the octets over; a peer decodes them and encrypts with OAEP under any label;
the first party's context decrypts every such ciphertext to the secret. -/
theorem C85_oaep_exchange (P : Pkcs1.Padding) (hm : P.hmgf.xof = false → 0 < P.hmgf.hlen) (a b a' b' : HashObj)
    (h4 : max a.contextBytes b.contextBytes % 4 = 0) (hs : max a.contextBytes b.contextBytes < 2 ^ 32)
    (h4' : max a'.contextBytes b'.contextBytes % 4 = 0) (hs' : max a'.contextBytes b'.contextBytes < 2 ^ 32)
    {rng : RsaKeygen.Rng} {junk : RsaKeygen.Junk} {mf cf rf bits c : Nat} {m m1 : Mem} (hc : 2 ≤ c) (hbits : bits < 2 ^ 24) (hdiv : c ∣ bits)
    (hrng : ∀ k, (rng k).length = Pkcs1.bitsWcnt (bits / c)) (h32 : RsaKeygen.ctxSize bits c < 2 ^ 32)
    (hgen : Pkcs1Glue.keygen a b rng junk mf cf rf bits c m = some m1)
    (hp : ∀ r ∈ keyPrimes (ctxNumbers (rsaPart m1)), r.Prime) (hnd : (keyPrimes (ctxNumbers (rsaPart m1))).Nodup) :
    ∃ o : List (BitVec 8), Pkcs1Glue.exportPub m1 none = .ok (none, o.length) ∧
      Pkcs1Glue.exportPub m1 (some (List.replicate o.length 0)) = .ok (some o, o.length) ∧
      ∀ m2 : Mem, ∃ size m3, Pkcs1Glue.decodePub a' b' none o = .ok (size, none) ∧ Pkcs1Glue.decodePub a' b' (some m2) o = .ok (size, some m3) ∧
        ∀ (label : List (BitVec 8)) (sslen : Nat) (g : Nat → Nat → List (BitVec 8)) (_ : ∀ i n, (g i n).length = n)
          (_ : sslen + 2 * P.hmsg.hlen + 2 ≤ bits / 8) (ctlen : Nat) (_ : bits ≤ ctlen * 8),
          ∃ x1 x' ct, Pkcs1.oaepSetLabel P (pubOf (rsaPart m3)) label = some x1 ∧ Pkcs1.oaepEnc P x1 sslen g = some (x', some (g 0 sslen)) ∧
            Pkcs1.encodeCt x' ctlen = some ct ∧
            ∃ y' r, Pkcs1.oaepDec P (Pkcs1.decodeCt (privOf (rsaPart m1)) ct) (some sslen) = some (y', r) ∧ r.ok = true ∧ r.ss = g 0 sslen := by
  obtain ⟨key, -, hkey, -, m0, hk⟩ := C85_keygen a b h4 hs hc hrng h32 hgen
  rw [hkey] at hp hnd ⊢
  have G := C66_numbers hc hrng h32 hk
  have R := C67_ready hc (by omega) hdiv hrng h32 hk hp hnd
  obtain ⟨b1, b2, b3⟩ := C66_bits hc (by omega) hrng h32 hk
  have hbn : Nat.size (ctxNumbers key).n = bits := by rw [b1, Nat.div_mul_cancel hdiv]
  obtain ⟨o, o1, o2, o3⟩ := C64_export key
  have he : (ctxNumbers key).e = 65537 := G.e
  have hol := derPub_le o1 (by omega) (by rw [he]; decide)
  rw [hbn, he, show Nat.size 65537 = 17 by decide] at hol
  have hn0 : 0 < (ctxNumbers key).n := by
    have := G.size.1
    have : 0 < 2 ^ (bits / c * c - 1) := Nat.two_pow_pos _
    omega
  refine ⟨o, by unfold Pkcs1Glue.exportPub; rw [hkey]; exact o2, ?_, fun m2 => ?_⟩
  · unfold Pkcs1Glue.exportPub
    rw [hkey, (o3 _).1 (by simp)]
    simp
  · obtain ⟨size, m3, k3, d1, d2, -, -, d5, -, d7, d8, d9, d10⟩ := C85_decode_pub o1 (by omega) hn0 [] a' b' h4' hs' m2
    rw [List.append_nil] at d1 d2
    refine ⟨size, m3, d1, d2, fun label sslen g hg hsl ctlen hct => ?_⟩
    rw [d5]
    have v1 : val (pubOf k3).e = 65537 := by rw [← he, ← d8, ctxNat_eq]; rfl
    have v2 : val (privOf key).n = val (pubOf k3).n := by
      have e1 : val (pubOf k3).n = (ctxNumbers key).n := by rw [← d7, ctxNat_eq]; rfl
      rw [e1]
      exact (ctxNat_eq key 7).symm
    have v3 : (privOf key).bits = (pubOf k3).bits := by rw [d10, hbn]; exact b2
    obtain ⟨x1, x', ct, t1, t2, t3, ⟨y', r, t4, t5, t6⟩, -⟩ := C33_roundtrip P hm (pubOf k3) d9 (privOf key) (by rw [v1]; exact R) v2 v3
      (by simp only [privOf, Pkcs1.length_octets]; omega) label sslen g hg (by rw [d10, hbn]; exact hsl) ctlen (by rw [d10, hbn]; exact hct) sslen
    refine ⟨x1, x', ct, t1, t2, t3, y', r, t4, t5, ?_⟩
    rw [t6, List.take_of_length_le (by rw [hg]), Nat.sub_self]
    simp


theorem derPriv_le {k : RsaNumbers} {o : List (BitVec 8)} (h : IsDerPriv k o) (B : Nat) (hB : B < 2 ^ 40)
    (hk : ∀ v ∈ [k.n, k.e, k.d, k.p, k.q, k.dP, k.dQ, k.qInv], Nat.size v ≤ B)
    (ho : ∀ x ∈ k.others, Nat.size x.1 ≤ B ∧ Nat.size x.2.1 ≤ B ∧ Nat.size x.2.2 ≤ B) (hc : k.others.length ≤ 1) :
    o.length ≤ 2 * B + 200 := by
  obtain ⟨c, s, hcs, hs, ht⟩ := h
  obtain ⟨ov, _, hv, ⟨on, _, hn, ⟨oe, _, he, ⟨od, _, hd, ⟨op, _, hp, ⟨oq, _, hq, ⟨odp, _, hdp, ⟨odq, _, hdq, ⟨oqi, _, hqi, rfl, rfl⟩,
    rfl⟩, rfl⟩, rfl⟩, rfl⟩, rfl⟩, rfl⟩, rfl⟩, rfl⟩ := hcs
  simp only [List.forall_mem_cons] at hk
  obtain ⟨k1, k2, k3, k4, k5, k6, k7, k8, -⟩ := hk
  have bound : ∀ {v : Nat} {o : List (BitVec 8)}, IsDerNat v o → Nat.size v ≤ B → o.length ≤ B / 8 + 10 := fun {v o} hv hk => by
    have h1 := derNat_le hv (by omega)
    have h2 := Nat.div_le_div_right (c := 8) hk
    omega
  have e0' : Nat.size (if k.others = [] then 0 else 1) ≤ 1 := by split <;> decide
  have e0 : ov.length ≤ 10 := by
    have h1 := derNat_le hv (lt_of_le_of_lt e0' (by decide))
    have h2 := Nat.div_le_div_right (c := 8) e0'
    omega
  have e1 := bound hn k1
  have e2 := bound he k2
  have e3 := bound hd k3
  have e4 := bound hp k4
  have e5 := bound hq k5
  have e6 := bound hdp k6
  have e7 := bound hdq k7
  have e8 := bound hqi k8
  have es : s.length ≤ 3 * (B / 8) + 50 := by
    cases hoth : k.others with
    | nil => rw [if_pos hoth] at hs; subst hs; simp
    | cons x l =>
      rw [hoth] at hc ho
      have hl : l = [] := by
        simp only [List.length_cons] at hc
        exact List.length_eq_zero_iff.mp (by omega)
      subst hl
      obtain ⟨vr, vd, vt⟩ := x
      obtain ⟨h1, h2, h3⟩ := ho (vr, vd, vt) (by simp)
      rw [if_neg (by simp [hoth]), hoth] at hs
      obtain ⟨w, hw, hst⟩ := hs
      obtain ⟨c, a, b, ⟨o1, t1, hr, ⟨o2, t2, hd, ⟨o3, t3, ht, rfl, rfl⟩, rfl⟩, rfl⟩, ha, hb, rfl⟩ := hw
      have hb' : b = [] := hb
      subst hb'
      have f1 := bound hr h1
      have f2 := bound hd h2
      have f3 := bound ht h3
      clear e0 e1 e2 e3 e4 e5 e6 e7 e8 k1 k2 k3 k4 k5 k6 k7 k8 e0' h1 h2 h3
      have g1 := (tlv_length ha (by simp; omega)).2
      simp only [List.length_append, List.length_nil, Nat.add_zero] at g1
      have g2 := (tlv_length hst (by simp; omega)).2
      simp only [List.length_append, List.length_nil, Nat.add_zero] at g2
      omega
  clear k1 k2 k3 k4 k5 k6 k7 k8 e0' bound hs
  have := (tlv_length ht (by simp; omega)).2
  simp only [List.length_append, List.length_nil, Nat.add_zero] at this
  omega

theorem fermat_lt : ∀ (l : List (Nat × Nat × Nat)) (R : Nat), FermatChain R l → (∀ x ∈ l, 0 < x.1) → ∀ x ∈ l, x.2.2 < x.1
  | [], _, _, _, x, hx => by simp at hx
  | (r, d, t) :: l, R, h, hp, x, hx => by
    rcases List.mem_cons.mp hx with rfl | hx
    · rw [show (r, d, t).2.2 = _ from h.1]
      exact Nat.mod_lt _ (hp (r, d, t) (by simp))
    · exact fermat_lt l _ h.2 (fun y hy => hp y (by simp [hy])) x hx

/-- C85: a generated key of two or three factors can be written to DER and read back, into a context for any other hash functions: the same
key, ready for use there. -/
theorem C85_backup (a b a' b' : HashObj) (h4 : max a.contextBytes b.contextBytes % 4 = 0) (hs : max a.contextBytes b.contextBytes < 2 ^ 32)
    (h4' : max a'.contextBytes b'.contextBytes % 4 = 0) (hs' : max a'.contextBytes b'.contextBytes < 2 ^ 32)
    {rng : RsaKeygen.Rng} {junk : RsaKeygen.Junk} {mf cf rf bits c : Nat} {m m1 : Mem} (hc : 2 ≤ c) (hc3 : c ≤ 3) (hbits : bits < 2 ^ 22)
    (hdiv : c ∣ bits) (h24 : bits / c % 32 ≠ 24)
    (hrng : ∀ k, (rng k).length = Pkcs1.bitsWcnt (bits / c)) (h32 : RsaKeygen.ctxSize bits c < 2 ^ 32)
    (hgen : Pkcs1Glue.keygen a b rng junk mf cf rf bits c m = some m1)
    (hp : ∀ r ∈ keyPrimes (ctxNumbers (rsaPart m1)), r.Prime) (hnd : (keyPrimes (ctxNumbers (rsaPart m1))).Nodup)
    (stack : List (BitVec 8)) (hst : stack.length = 16) :
    ∃ o : List (BitVec 8), Pkcs1Glue.encodePriv stack m1 none = .ok (none, o.length) ∧
      Pkcs1Glue.encodePriv stack m1 (some (List.replicate o.length 0)) = .ok (some o, o.length) ∧
      ∀ m2 : Mem, ∃ size m3, Pkcs1Glue.decodePriv a' b' none o = .ok (size, none) ∧ Pkcs1Glue.decodePriv a' b' (some m2) o = .ok (size, some m3) ∧
        ctxNumbers (rsaPart m3) = ctxNumbers (rsaPart m1) ∧ (privOf (rsaPart m3)).bits = bits ∧ Pkcs1.PrivOk 65537 (privOf (rsaPart m3)) := by
  obtain ⟨key, -, hkey, -, m0, hk⟩ := C85_keygen a b h4 hs hc hrng h32 hgen
  rw [hkey] at hp hnd ⊢
  have G := C66_numbers hc hrng h32 hk
  have V := C66_valid G hp hnd
  obtain ⟨b1, b2, b3⟩ := C66_bits hc (by omega) hrng h32 hk
  have hbc : bits / c * c = bits := Nat.div_mul_cancel hdiv
  have hbn : Nat.size (ctxNumbers key).n = bits := by rw [b1, hbc]
  have h5 := (C67_layout hc hrng h32 hk).1
  have hcnt := G.count
  obtain ⟨o, o1, o2, o3⟩ := C65_encode stack hst key (by omega)
  have hpb : primeBits (ctxNumbers key) = bits / c := by unfold primeBits; rw [hbn, hcnt]
  have hfac : ∀ r ∈ keyPrimes (ctxNumbers key), r < 2 ^ (bits / c) := fun r hr => (G.factor r hr).2.2.1
  have hpos : ∀ r ∈ keyPrimes (ctxNumbers key), 0 < r := fun r hr => (hp r hr).pos
  have hle : ∀ r ∈ keyPrimes (ctxNumbers key), r ≤ (ctxNumbers key).n := fun r hr => by
    rw [G.n]
    exact Nat.le_of_dvd (List.prod_pos hpos) (List.dvd_prod hr)
  have hq : (ctxNumbers key).q ∈ keyPrimes (ctxNumbers key) := by simp [keyPrimes]
  have hpp : (ctxNumbers key).p ∈ keyPrimes (ctxNumbers key) := by simp [keyPrimes]
  have hox : ∀ x ∈ (ctxNumbers key).others, x.1 ∈ keyPrimes (ctxNumbers key) := fun x hx => by
    simp only [keyPrimes, List.mem_cons, List.mem_map]
    exact Or.inr (Or.inr ⟨x, hx, rfl⟩)
  have hcrt : ∀ x ∈ crtPairs (ctxNumbers key), x.1 ∈ keyPrimes (ctxNumbers key) → x.2 ≤ (ctxNumbers key).n := fun x hx hxp => by
    rw [G.crt x hx]
    have h2 := (hp _ hxp).two_le
    have := Nat.mod_lt (ctxNumbers key).d (show 0 < x.1 - 1 by omega)
    have := hle _ hxp
    omega
  have hft := fermat_lt _ _ G.coeff (fun x hx => by
    rcases List.mem_cons.mp hx with rfl | hx
    · exact hpos _ hpp
    · exact hpos _ (hox x hx))
  have hd : (ctxNumbers key).d ≤ (ctxNumbers key).n := by
    have h1 := G.d.1
    have h2 : totient (keyPrimes (ctxNumbers key)) ≤ (keyPrimes (ctxNumbers key)).prod := by
      unfold totient
      conv_rhs => rw [← List.map_id (keyPrimes (ctxNumbers key))]
      exact List.prod_le_prod' fun r _ => Nat.sub_le r 1
    rw [← G.n] at h2
    omega
  have sz : ∀ v, v ≤ (ctxNumbers key).n → Nat.size v ≤ bits := fun v hv => hbn ▸ Nat.size_le_size hv
  have hlo : 65537 ≤ (ctxNumbers key).n := by
    have h1 := G.size.1
    have h2 : (2 : Nat) ^ 17 ≤ 2 ^ (bits / c * c - 1) := by
      apply Nat.pow_le_pow_right (by decide)
      have := G.bits
      have : 33 * 2 ≤ bits / c * c := Nat.mul_le_mul this hc
      omega
    omega
  have hol := derPriv_le o1 bits (by omega) (by
      simp only [List.forall_mem_cons]
      refine ⟨sz _ le_rfl, sz _ (by rw [G.e]; exact hlo), sz _ hd, sz _ (hle _ hpp), sz _ (hle _ hq), sz _ (hcrt ((ctxNumbers key).p, (ctxNumbers key).dP) (by simp [crtPairs]) hpp),
        sz _ (hcrt ((ctxNumbers key).q, (ctxNumbers key).dQ) (by simp [crtPairs]) hq), sz _ ?_, by simp⟩
      have := hft _ (List.mem_cons_self)
      have := hle _ hpp
      simp only at *
      omega) (fun x hx => by
      refine ⟨sz _ (hle _ (hox x hx)), sz _ (hcrt (x.1, x.2.1) ?_ (hox x hx)), sz _ ?_⟩
      · simp only [crtPairs, List.mem_cons, List.mem_map]
        exact Or.inr (Or.inr ⟨x, hx, rfl⟩)
      · have := hft x (List.mem_cons_of_mem _ hx)
        have := hle _ (hox x hx)
        omega) (by omega)
  refine ⟨o, by unfold Pkcs1Glue.encodePriv; rw [hkey]; exact o2, ?_, fun m2 => ?_⟩
  · unfold Pkcs1Glue.encodePriv
    rw [hkey, (o3 _).1 (by simp)]
    simp
  · obtain ⟨size, m3, k3, d1, d2, -, -, d5, -, d7, d8, d9⟩ := C85_decode_priv o1 (by omega) [] a' b' h4' hs' m2
    rw [List.append_nil] at d1 d2
    refine ⟨size, m3, d1, d2, by rw [d5]; exact d7, by rw [d5, d8, hbn], ?_⟩
    rw [d5, ← G.e]
    exact d9 V ⟨by rw [hpb]; exact hfac _ hq, by rw [hpb]; exact hfac _ hpp, fun x hx => by rw [hpb]; exact hfac _ (hox x hx)⟩ (by rw [hpb]; exact h24)


/-! ## The hypotheses are met -/

/-- A hash function object like the library's SHA-256, and one like SHAKE128. -/
def toySha : HashObj := { contextBytes := 112, outBytes := 32, outTruncBytes := 0, init := 0x1000, update := 0x1100, xfinal := 0, read := 0, final := 0x1200 }
/-- See above. -/
def toyShake : HashObj := { contextBytes := 216, outBytes := -1, outTruncBytes := 32, init := 0x2000, update := 0x2100, xfinal := 0x2200, read := 0x2300, final := 0 }

example (m : Mem) : ∃ size m' key, Pkcs1Glue.decodePub toySha toyShake (some m) [0x30#8, 7#8, 0x02#8, 2#8, 0#8, 187#8, 0x02#8, 1#8, 7#8] = .ok (size, some m') ∧
    size = 428 ∧ SetUp toySha toyShake m m' size key ∧ ptrAt m' 20 = 0x2300 := by
  have h : IsDerPub 187 7 [0x30#8, 7#8, 0x02#8, 2#8, 0#8, 187#8, 0x02#8, 1#8, 7#8] :=
    ⟨[0x02#8, 2#8, 0#8, 187#8, 0x02#8, 1#8, 7#8],
      ⟨[0x02#8, 2#8, 0#8, 187#8], [0x02#8, 1#8, 7#8],
        ⟨[0#8, 187#8], ⟨_, _, rfl, by decide, Or.inr (Or.inr ⟨_, _, rfl, by decide⟩)⟩, by decide, [2#8], Or.inl ⟨by decide, by decide⟩, rfl⟩,
        ⟨[0x02#8, 1#8, 7#8], [], ⟨[7#8], ⟨_, _, rfl, by decide, Or.inl rfl⟩, by decide, [1#8], Or.inl ⟨by decide, by decide⟩, rfl⟩, rfl, rfl⟩, rfl⟩,
      [7#8], Or.inl ⟨by decide, by decide⟩, rfl⟩
  obtain ⟨size, m', key, -, h2, h3, h4, -⟩ := C85_decode_pub h (by decide) (by decide) [] toySha toyShake (by decide) (by decide) m
  refine ⟨size, m', key, h2, by rw [h3]; decide, h4, ?_⟩
  rw [h4.header.finalMgf]; rfl

/-- A generated key that satisfies the hypotheses of the exchange. -/
example (junk : RsaKeygen.Junk) (m : Mem) : ∃ m1, Pkcs1Glue.keygen toySha toySha (toyRng 0xfffffff7#32 0xffffffe7#32) junk 5 1 1 66 2 m = some m1 ∧
    (∀ r ∈ keyPrimes (ctxNumbers (rsaPart m1)), r.Prime) ∧ (keyPrimes (ctxNumbers (rsaPart m1))).Nodup := by
  obtain ⟨r, h1, h2⟩ := toy_returns _ _ (Or.inl rfl) (Or.inr rfl) junk (rsaPart (store m (privInit toySha toySha)))
  refine ⟨putRsa (store m (privInit toySha toySha)) r, by unfold Pkcs1Glue.keygen; simp only [h1, Option.map_some], ?_, ?_⟩
  all_goals rw [(putRsa_parts _ _ (by rw [offset_store _ _ (by decide)]; omega)).2.1, h2]
  · intro r hr
    simp only [List.mem_cons, List.not_mem_nil, or_false] at hr
    rcases hr with rfl | rfl
    · exact toy_prime2
    · exact toy_prime1
  · decide

/-- The parameter sets of the library: 2048 bits, two primes. -/
example : tOaep [⟨toySha, 0⟩, ⟨toySha, 0⟩, ⟨toySha, 2048⟩, ⟨toySha, 2⟩] .ctxPub = .ok 1604 ∧
    tPss [⟨toySha, 0⟩, ⟨toySha, 0⟩, ⟨toySha, 2048⟩, ⟨toySha, 2⟩] .ctxPub = .oob := ⟨rfl, rfl⟩

/-- A key of 2048 bits whose primes have 1024 bits has a share that is not 24 modulo 32. -/
example : 2048 / 2 % 32 ≠ 24 ∧ 2048 % 32 ≠ 24 := by decide

end Props
