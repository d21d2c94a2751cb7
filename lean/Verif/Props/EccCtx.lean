import Verif.Lemmas.EccCtx
import Verif.Props.Pkcs1Glue
import Mathlib.Tactic.Ring

/-!
# C86: working contexts of the elliptic curve schemes

For every curve and every hash function: the header, the state of the hash function, the key, the points and the working variables of a context do not overlap, they
lie within the size that the library announces for the context, the set-up writes nothing outside of it, and every integer has room for the modulus and
two more words, all of them the same.
-/

namespace Props
open Vlong Layout EccCtx
open RsaDer (Mem)
open Pkcs1 (bitsWcnt)
open Pkcs1Glue (HashObj two funcs outBytes store)

/-- The context is well laid out: `head` words of header and hash function state, integers at the offsets in the words `fi`, objects of several integers at the
offsets in the words `fo`; `size` octets in all; every integer holds `bits` bits and two words more, and all have the same size. -/
structure WellLaid (m : Mem) (head : Nat) (fi : List Nat) (fo : List (Nat × Nat)) (size bits : Nat) : Prop where
  apart : Apart (ctxRegions m head fi fo) size
  room : ∀ i ∈ ctxInts m fi fo, bits + 64 ≤ 32 * (m i).toNat
  same : ∀ i ∈ ctxInts m fi fo, ∀ j ∈ ctxInts m fi fo, m i = m j

/-- From `m` to `m'` the layout has not been touched: the first `hdr` words but for the status in word `st`, the headers of the objects, the word counts of the
integers, and what is outside of the `size` octets.  The words of the integers and the state of the hash function may have changed. -/
structure KeepsLayout (fi : List Nat) (fo : List (Nat × Nat)) (hdr st size : Nat) (m m' : Mem) : Prop where
  header : ∀ j < hdr, j ≠ st → m' j = m j
  objects : ∀ f ∈ fo, ∀ i < f.2, m' (part m 0 f.1 + i) = m (part m 0 f.1 + i)
  counts : ∀ i ∈ ctxInts m fi fo, m' i = m i
  outside : ∀ j, size ≤ 4 * j → m' j = m j

/-- Offsets to the private key and the ephemeral one; to the four points and the working variables: `ecc-common.h:13-31`. -/
def eccFi : List Nat := [0, 2]
def eccFo : List (Nat × Nat) := [(1, 3), (3, 3), (4, 3), (5, 3), (6, 6)]

theorem wcnt_plen (p b : Nat) (h : p = (b + 7) / 8) : bitsWcnt (p * 8) = bitsWcnt b ∧ Der.bytesWcnt p = bitsWcnt b := by
  subst h; unfold bitsWcnt Der.bytesWcnt
  constructor
  · congr 2; omega
  · rfl

theorem room_wcnt (b w : Nat) (hw : w = bitsWcnt b) (h : w < 2 ^ 32) : b + 64 ≤ 32 * (BitVec.ofNat 32 w).toNat := by
  rw [ofNat_toNat h, hw]; unfold bitsWcnt; omega

/-- Where the objects of a short Weierstrass context are, in words, after `b` words of header and hash function state. -/
def eccBase (b w : Nat) : Nat → Nat
  | 6 => b
  | 1 => b + 6 * (w + 1) + 6
  | 3 => b + 9 * (w + 1) + 9
  | 4 => b + 12 * (w + 1) + 12
  | _ => b + 15 * (w + 1) + 15

/-- The memory after `eccInit`, with `b` words of header and hash function state and integers of `w` words. -/
theorem eccInit_shape (c : Curve) (h : Nat) (m : Mem) (hp : c.plen = (c.bits + 7) / 8) (h4 : h % 4 = 0) (hs : eccSize c h < 2 ^ 32) :
    ∃ b w M, M = eccInit c h m ∧ 4 * b = hdrSize h + h ∧ 12 ≤ b ∧ w = bitsWcnt c.bits ∧ 4 * (b + 20 * (w + 1) + 18) = eccSize c h ∧
      (M 0).toNat = 4 * (b + 18 * (w + 1) + 18) ∧ (M 2).toNat = 4 * (b + 19 * (w + 1) + 18) ∧ (∀ f ∈ eccFo, (M f.1).toNat = 4 * eccBase b w f.1) ∧
      (∀ f ∈ eccFo, Obj M (eccBase b w f.1) f.2 w) ∧
      M (b + 18 * (w + 1) + 18) = BitVec.ofNat 32 w ∧ M (b + 19 * (w + 1) + 18) = BitVec.ofNat 32 w ∧
      (∀ j, 7 ≤ j → j < 12 → M j = (eccHdr c h).getD j 0) ∧
      (∀ j, 12 ≤ j → j < b ∨ b + 20 * (w + 1) + 18 ≤ j → M j = m j) := by
  obtain ⟨e1, e2⟩ := wcnt_plen _ _ hp
  have hh : hdrSize h % 4 = 0 ∧ 48 ≤ hdrSize h := by unfold hdrSize; split <;> omega
  obtain ⟨b, hb⟩ : ∃ b, 4 * b = hdrSize h + h := ⟨(hdrSize h + h) / 4, by omega⟩
  set w := bitsWcnt c.bits with hw
  have hsz : 4 * (b + 20 * (w + 1) + 18) = eccSize c h := by
    unfold eccSize ecpOpctxSize ecpXyzSize bitsSize; omega
  have l12 : (eccHdr c h).length = 12 := rfl
  set m0 := store m (eccHdr c h) with hm0
  have s0 : ∀ j, 12 ≤ j → m0 j = m j := fun j hj => by rw [hm0]; unfold store; rw [l12, if_neg (by omega)]
  have hd : ∀ j < 12, m0 j = (eccHdr c h).getD j 0 := fun j hj => by rw [hm0]; unfold store; rw [l12, if_pos hj]
  have bs : bitsSize c.bits = 4 * (w + 1) := by unfold bitsSize; rw [← hw]
  have g : eccHdr c h = [BitVec.ofNat 32 (4 * (b + 18 * (w + 1) + 18)), BitVec.ofNat 32 (4 * (b + 6 * (w + 1) + 6)),
      BitVec.ofNat 32 (4 * (b + 19 * (w + 1) + 18)), BitVec.ofNat 32 (4 * (b + 9 * (w + 1) + 9)), BitVec.ofNat 32 (4 * (b + 12 * (w + 1) + 12)),
      BitVec.ofNat 32 (4 * (b + 15 * (w + 1) + 15)), BitVec.ofNat 32 (4 * b), 0] ++ two 0 ++ two c.ptr := by
    unfold eccHdr ecpXyzSize ecpOpctxSize; rw [bs, ← hb]
    congr 4 <;> (try ring_nf) <;> rfl
  have fld : ∀ {f v}, f < 12 → (eccHdr c h).getD f 0 = BitVec.ofNat 32 (4 * v) → 4 * v < 2 ^ 32 → (m0 f).toNat = 4 * v := by
    intro f v hf hv hlt; rw [hd f hf, hv, ofNat_toNat hlt]
  have f0 : (m0 0).toNat = 4 * (b + 18 * (w + 1) + 18) := fld (by decide) (by rw [g]; rfl) (by omega)
  have f2 : (m0 2).toNat = 4 * (b + 19 * (w + 1) + 18) := fld (by decide) (by rw [g]; rfl) (by omega)
  have fo : ∀ f ∈ eccFo, (m0 f.1).toNat = 4 * eccBase b w f.1 := by
    intro f hf
    simp only [eccFo, List.mem_cons, List.not_mem_nil, or_false] at hf
    rcases hf with rfl | rfl | rfl | rfl | rfl <;> exact fld (by decide) (by rw [g]; rfl) (by simp only [eccBase]; omega)
  set m1 := m0.put (m0.at_ 0) (BitVec.ofNat 32 (Der.bytesWcnt c.plen)) with hm1
  rw [show m0.at_ 0 = b + 18 * (w + 1) + 18 by unfold RsaDer.Mem.at_; rw [f0]; omega, e2] at hm1
  have k1 : ∀ j < 12, m1 j = m0 j := fun j hj => by rw [hm1, put_ne _ _ _ _ (by omega)]
  set m2 := m1.put (m1.at_ 2) (BitVec.ofNat 32 (Der.bytesWcnt c.plen)) with hm2
  rw [show m1.at_ 2 = b + 19 * (w + 1) + 18 by unfold RsaDer.Mem.at_; rw [k1 2 (by decide), f2]; omega, e2] at hm2
  have k2 : ∀ j < 12, m2 j = m0 j := fun j hj => by rw [hm2, put_ne _ _ _ _ (by omega)]; exact k1 j hj
  obtain ⟨o, u⟩ := inits_spec 12 w (c.plen * 8) e1 (eccBase b w) [(3, 3), (1, 3), (4, 3), (5, 3), (6, 6)] m2 (by
      intro f hf
      have hf' : f ∈ eccFo := by
        simp only [List.mem_cons, List.not_mem_nil, or_false, eccFo] at hf ⊢
        tauto
      have h12 : f.1 < 12 ∧ 12 ≤ eccBase b w f.1 ∧ 4 * f.2 + 4 * (w + 1) * f.2 < 2 ^ 32 := by
        simp only [List.mem_cons, List.not_mem_nil, or_false] at hf
        rcases hf with rfl | rfl | rfl | rfl | rfl <;> simp only [eccBase] <;> omega
      exact ⟨h12.1, by rw [k2 _ h12.1]; exact fo f hf', h12.2⟩) (by
      simp only [List.pairwise_cons, List.mem_cons, List.not_mem_nil, or_false, forall_eq_or_imp, forall_eq, eccBase, false_imp_iff, implies_true,
        List.Pairwise.nil, and_true]
      omega) (eccInit c h m) rfl
  have mem : ∀ f ∈ eccFo, f ∈ [(3, 3), (1, 3), (4, 3), (5, 3), (6, 6)] := by decide
  have out : ∀ j, j < b ∨ b + 18 * (w + 1) + 18 ≤ j → eccInit c h m j = m2 j := fun j hj => u j (by
      simp only [List.mem_cons, List.not_mem_nil, or_false, forall_eq_or_imp, forall_eq, eccBase]
      omega)
  have hdr : ∀ j < 12, eccInit c h m j = m0 j := fun j hj => by rw [out j (by omega)]; exact k2 j hj
  refine ⟨b, w, _, rfl, hb, by omega, rfl, hsz, by rw [hdr _ (by decide)]; exact f0, by rw [hdr _ (by decide)]; exact f2, fun f hf => ?_,
    fun f hf => o f (mem f hf), ?_, ?_, fun j h7 h12 => by rw [hdr j h12]; exact hd j h12, fun j h12 hj => ?_⟩
  · have : f.1 < 12 := by revert f; decide
    rw [hdr _ this]; exact fo f hf
  · rw [out _ (by omega), hm2, put_ne _ _ _ _ (by omega), hm1, put_self]
  · rw [out _ (by omega), hm2, put_self]
  · rw [out _ (by omega), hm2, put_ne _ _ _ _ (by omega), hm1, put_ne _ _ _ _ (by omega)]
    exact s0 j h12

/-- The places of the integers. -/
def eccPlaces (b w : Nat) : List Nat :=
  [b + 18 * (w + 1) + 18, b + 19 * (w + 1) + 18] ++ eccFo.flatMap fun f => (List.range f.2).map fun i => eccBase b w f.1 + f.2 + (w + 1) * i

theorem flatMap_congr' {α β : Type} {l : List α} {f g : α → List β} (h : ∀ x ∈ l, f x = g x) : l.flatMap f = l.flatMap g := by
  induction l with
  | nil => rfl
  | cons x l ih => rw [List.flatMap_cons, List.flatMap_cons, h x (by simp), ih fun y hy => h y (by simp [hy])]

theorem part_four {m : Mem} {f v : Nat} (h : (m f).toNat = 4 * v) : part m 0 f = v := by
  unfold part; rw [h, Nat.mul_div_cancel_left _ (by decide), Nat.zero_add]

theorem eccLaid {M : Mem} {b w size bits : Nat} (h12 : 12 ≤ b) (hw : w = bitsWcnt bits) (hsz : 4 * (b + 20 * (w + 1) + 18) = size) (hs : size < 2 ^ 32)
    (f0 : (M 0).toNat = 4 * (b + 18 * (w + 1) + 18)) (f2 : (M 2).toNat = 4 * (b + 19 * (w + 1) + 18))
    (fo : ∀ f ∈ eccFo, (M f.1).toNat = 4 * eccBase b w f.1) (o : ∀ f ∈ eccFo, Obj M (eccBase b w f.1) f.2 w)
    (c0 : M (b + 18 * (w + 1) + 18) = BitVec.ofNat 32 w) (c2 : M (b + 19 * (w + 1) + 18) = BitVec.ofNat 32 w) :
    WellLaid M b eccFi eccFo size bits ∧ ctxInts M eccFi eccFo = eccPlaces b w ∧ ∀ i ∈ eccPlaces b w, M i = BitVec.ofNat 32 w := by
  have small : ∀ f ∈ eccFo, 4 * f.2 + 4 * (w + 1) * f.2 < 2 ^ 32 := by
    intro f hf
    simp only [eccFo, List.mem_cons, List.not_mem_nil, or_false] at hf
    rcases hf with rfl | rfl | rfl | rfl | rfl <;> simp only <;> omega
  have ints : ctxInts M eccFi eccFo = eccPlaces b w := by
    unfold ctxInts eccPlaces
    congr 1
    · simp only [eccFi, List.map_cons, List.map_nil, part_four f0, part_four f2]
    · refine flatMap_congr' fun f hf => ?_
      rw [part_four (fo f hf), (o f hf).ints (small f hf)]
  have cnt : ∀ i ∈ eccPlaces b w, M i = BitVec.ofNat 32 w := by
    intro i hi
    simp only [eccPlaces, List.mem_append, List.mem_cons, List.not_mem_nil, or_false, List.mem_flatMap, List.mem_map, List.mem_range] at hi
    rcases hi with (rfl | rfl) | ⟨f, hf, k, hk, rfl⟩
    · exact c0
    · exact c2
    · exact (o f hf).cnt k hk
  have regs : ctxRegions M b eccFi eccFo = (0, b) :: [(b + 18 * (w + 1) + 18, 1 + w), (b + 19 * (w + 1) + 18, 1 + w)] ++
      eccFo.flatMap fun f => (eccBase b w f.1, f.2) :: (List.range f.2).map fun i => (eccBase b w f.1 + f.2 + (w + 1) * i, 1 + w) := by
    unfold ctxRegions
    congr 1
    · simp only [eccFi, List.map_cons, List.map_nil, part_four f0, part_four f2, intAt, c0, c2, ofNat_toNat (show w < 2 ^ 32 by omega)]
    · refine flatMap_congr' fun f hf => ?_
      rw [part_four (fo f hf), (o f hf).regions (small f hf) (by omega)]
  refine ⟨⟨?_, ?_, ?_⟩, ints, cnt⟩
  · rw [regs]
    have perm : List.Perm ((0, b) :: (([(6, 6), (1, 3), (3, 3), (4, 3), (5, 3)] : List (Nat × Nat)).flatMap fun f =>
        (eccBase b w f.1, f.2) :: (List.range f.2).map fun i => (eccBase b w f.1 + f.2 + (w + 1) * i, 1 + w)) ++
        [(b + 18 * (w + 1) + 18, 1 + w), (b + 19 * (w + 1) + 18, 1 + w)])
        ((0, b) :: [(b + 18 * (w + 1) + 18, 1 + w), (b + 19 * (w + 1) + 18, 1 + w)] ++
      eccFo.flatMap fun f => (eccBase b w f.1, f.2) :: (List.range f.2).map fun i => (eccBase b w f.1 + f.2 + (w + 1) * i, 1 + w)) := by
      refine List.Perm.cons _ (List.perm_append_comm.trans (List.Perm.append_left _ (List.Perm.flatMap_right _ ?_)))
      decide
    refine Apart.perm (apart_of_chain ?_ ?_) perm
    · simp only [List.flatMap_cons, List.flatMap_nil, eccBase, List.range_succ, List.range_zero, List.nil_append, List.map_append, List.map_cons, List.map_nil,
        List.append_nil, List.cons_append, List.isChain_cons_cons, List.isChain_singleton, and_true]
      omega
    · simp only [List.flatMap_cons, List.flatMap_nil, eccBase, List.range_succ, List.range_zero, List.nil_append, List.map_append, List.map_cons, List.map_nil,
        List.append_nil, List.cons_append, List.mem_cons, List.not_mem_nil, or_false, forall_eq_or_imp, forall_eq]
      omega
  · rw [ints]
    intro i hi
    rw [cnt i hi]; exact room_wcnt bits w hw (by omega)
  · rw [ints]
    intro i hi j hj
    rw [cnt i hi, cnt j hj]

theorem long_two (m : Mem) (i : Nat) (p : BitVec 64) (h0 : m i = (two p).getD 0 0) (h1 : m (i + 1) = (two p).getD 1 0) : long m i = p := by
  unfold long
  rw [h0, h1]
  simp only [two, List.getD_cons_zero, List.getD_cons_succ]
  exact ptr_two p

/-- C86: an ECDH-KEM context: key generation, reading a private key and reading a public key begin with this set-up. -/
theorem C86_kem (c : Curve) (m : Mem) (hp : c.plen = (c.bits + 7) / 8) (hs : eccSize c 0 < 2 ^ 32) :
    ∃ M, M = kemInit c m ∧ WellLaid M 12 eccFi eccFo (eccSize c 0) c.bits ∧ M 7 = 0 ∧ long M 8 = 0 ∧ long M 10 = c.ptr ∧
      ∀ j, eccSize c 0 ≤ 4 * j → M j = m j := by
  obtain ⟨b, w, M, hM, hb, h12, hw, hsz, f0, f2, fo, o, c0, c2, hh, hu⟩ := eccInit_shape c 0 m hp rfl hs
  have hb' : b = 12 := by
    have : hdrSize 0 = 48 := rfl
    omega
  subst hb'
  refine ⟨M, hM, (eccLaid h12 hw hsz hs f0 f2 fo o c0 c2).1, hh 7 (by decide) (by decide), ?_, ?_, fun j hj => hu j (by omega) (by omega)⟩
  · exact long_two _ _ _ (hh 8 (by decide) (by decide)) (hh 9 (by decide) (by decide))
  · exact long_two _ _ _ (hh 10 (by decide) (by decide)) (hh 11 (by decide) (by decide))

theorem storeAt_two (m : Mem) (i : Nat) (p : BitVec 64) : long (storeAt m i (two p)) i = p :=
  long_two _ _ _ (storeAt_in m i (two p) 0 (show 0 < 2 by decide)) (storeAt_in m i (two p) 1 (show 1 < 2 by decide))

/-- What `hashFields` leaves in the header. -/
theorem hashFields_spec (a : HashObj) (m : Mem) : ∃ M, M = hashFields a m ∧ long M 28 = BitVec.ofInt 64 (outBytes a) ∧ long M 30 = 160 ∧ long M 8 = 2 ∧
    long M 32 = a.init ∧ long M 34 = a.update ∧ long M 36 = a.xfinal ∧ long M 38 = (if a.xfinal ≠ 0 then a.read else a.final) ∧
    ∀ j, ¬ (j = 8 ∨ j = 9 ∨ (28 ≤ j ∧ j < 40)) → M j = m j := by
  have l2 : ∀ p, (two p).length = 2 := fun _ => rfl
  have l8 : (funcs a).length = 8 := rfl
  have out : ∀ j, ¬ (j = 8 ∨ j = 9 ∨ (28 ≤ j ∧ j < 40)) → hashFields a m j = m j := fun j hj => by
    unfold hashFields
    rw [storeAt_out _ _ _ _ (by rw [l2]; omega), storeAt_out _ _ _ _ (by rw [l2]; omega), storeAt_out _ _ _ _ (by rw [l8]; omega),
      storeAt_out _ _ _ _ (by rw [l2]; omega)]
  have fn : ∀ k < 8, hashFields a m (32 + k) = (funcs a).getD k 0 := fun k hk => by
    unfold hashFields
    rw [storeAt_out _ _ _ _ (by rw [l2]; omega), storeAt_out _ _ _ _ (by rw [l2]; omega), storeAt_in _ _ _ _ (by rw [l8]; omega)]
  refine ⟨_, rfl, ?_, storeAt_two _ _ _, ?_, long_two _ _ _ (fn 0 (by decide)) (fn 1 (by decide)), long_two _ _ _ (fn 2 (by decide)) (fn 3 (by decide)),
    long_two _ _ _ (fn 4 (by decide)) (fn 5 (by decide)), long_two _ _ _ (fn 6 (by decide)) (fn 7 (by decide)), out⟩
  · refine Eq.trans ?_ (storeAt_two m 28 (BitVec.ofInt 64 (outBytes a)))
    unfold long hashFields
    congr 1 <;> rw [storeAt_out _ _ _ _ (by rw [l2]; omega), storeAt_out _ _ _ _ (by rw [l2]; omega), storeAt_out _ _ _ _ (by rw [l8]; omega)]
  · refine Eq.trans ?_ (storeAt_two (storeAt (storeAt m 28 (two (BitVec.ofInt 64 (outBytes a)))) 32 (funcs a)) 8 2)
    unfold long hashFields
    congr 1 <;> rw [storeAt_out _ _ _ _ (by rw [l2]; omega)]

/-- The layout of `m` is that of `m'`, when offsets and word counts are the same. -/
theorem laid_congr {m m' : Mem} {head size bits : Nat} {fi : List Nat} {fo : List (Nat × Nat)} (L : WellLaid m head fi fo size bits)
    (h1 : ∀ f ∈ fi, m' f = m f) (h2 : ∀ f ∈ fo, m' f.1 = m f.1) (h3 : ∀ f ∈ fo, ∀ i < f.2, m' (part m 0 f.1 + i) = m (part m 0 f.1 + i))
    (h4 : ∀ i ∈ ctxInts m fi fo, m' i = m i) : WellLaid m' head fi fo size bits := by
  have p1 : ∀ f ∈ fi, part m' 0 f = part m 0 f := fun f hf => by unfold part; rw [h1 f hf]
  have p2 : ∀ f ∈ fo, part m' 0 f.1 = part m 0 f.1 := fun f hf => by unfold part; rw [h2 f hf]
  have o : ∀ f ∈ fo, objInts m' (part m 0 f.1) f.2 = objInts m (part m 0 f.1) f.2 := fun f hf => by
    unfold objInts part
    refine List.map_congr_left fun i hi => ?_
    have := h3 f hf i (List.mem_range.mp hi)
    unfold part at this
    rw [this]
  have ints : ctxInts m' fi fo = ctxInts m fi fo := by
    unfold ctxInts
    congr 1
    · exact List.map_congr_left p1
    · exact flatMap_congr' fun f hf => by rw [p2 f hf, o f hf]
  have regs : ctxRegions m' head fi fo = ctxRegions m head fi fo := by
    unfold ctxRegions
    congr 1
    · congr 1
      refine List.map_congr_left fun f hf => ?_
      rw [p1 f hf]
      unfold intAt
      rw [h4 _ (by unfold ctxInts; exact List.mem_append_left _ (List.mem_map_of_mem hf))]
    · refine flatMap_congr' fun f hf => ?_
      rw [p2 f hf]
      unfold objRegions
      rw [o f hf]
      congr 1
      refine List.map_congr_left fun i hi => ?_
      unfold intAt
      rw [h4 i (by unfold ctxInts; exact List.mem_append_right _ (List.mem_flatMap.mpr ⟨f, hf, hi⟩))]
  refine ⟨by rw [regs]; exact L.apart, ?_, ?_⟩
  · rw [ints]; intro i hi; rw [h4 i hi]; exact L.room i hi
  · rw [ints]; intro i hi j hj; rw [h4 i hi, h4 j hj]; exact L.same i hi j hj

/-- C86: an ECDSA or SM2 context, whatever the making or the reading of the key (successful or not) puts in the integers, the status and the state of the hash
function: the state of the hash function is between the header of 160 octets and the rest. -/
theorem C86_dss (c : Curve) (a : HashObj) (key : Mem → Mem) (m : Mem) (hp : c.plen = (c.bits + 7) / 8) (h4 : a.contextBytes % 4 = 0)
    (h0 : 0 < a.contextBytes) (hs : eccSize c a.contextBytes < 2 ^ 32)
    (hk : KeepsLayout eccFi eccFo 40 7 (eccSize c a.contextBytes) (eccInit c a.contextBytes m) (key (eccInit c a.contextBytes m))) :
    ∃ M, M = dssInit c a key m ∧ WellLaid M ((160 + a.contextBytes) / 4) eccFi eccFo (eccSize c a.contextBytes) c.bits ∧
      long M 28 = BitVec.ofInt 64 (outBytes a) ∧ long M 30 = 160 ∧ long M 8 = 2 ∧ long M 10 = c.ptr ∧
      long M 32 = a.init ∧ long M 34 = a.update ∧ long M 36 = a.xfinal ∧ long M 38 = (if a.xfinal ≠ 0 then a.read else a.final) ∧
      ∀ j, eccSize c a.contextBytes ≤ 4 * j → M j = m j := by
  obtain ⟨b, w, N, hN, hb, h12, hw, hsz, f0, f2, fo, o, c0, c2, hh, hu⟩ := eccInit_shape c a.contextBytes m hp h4 hs
  have h160 : hdrSize a.contextBytes = 160 := by unfold hdrSize; rw [if_pos (by omega)]
  have hb' : (160 + a.contextBytes) / 4 = b := by omega
  have h40 : 40 ≤ b := by omega
  rw [hb']
  rw [← hN] at hk
  obtain ⟨L, hi, -⟩ := eccLaid h12 hw hsz hs f0 f2 fo o c0 c2
  obtain ⟨M, hM, g1, g2, g3, g4, g5, g6, g7, gu⟩ := hashFields_spec a (key N)
  have ge : ∀ i ∈ eccPlaces b w, b ≤ i := fun i hi => by
    simp only [eccPlaces, List.mem_append, List.mem_cons, List.not_mem_nil, or_false, List.mem_flatMap, List.mem_map, List.mem_range] at hi
    rcases hi with (rfl | rfl) | ⟨f, hf, k, -, rfl⟩
    · omega
    · omega
    · simp only [eccFo, List.mem_cons, List.not_mem_nil, or_false] at hf
      rcases hf with rfl | rfl | rfl | rfl | rfl <;> simp only [eccBase] <;> omega
  have geo : ∀ f ∈ eccFo, b ≤ part N 0 f.1 := fun f hf => by
    rw [part_four (fo f hf)]
    simp only [eccFo, List.mem_cons, List.not_mem_nil, or_false] at hf
    rcases hf with rfl | rfl | rfl | rfl | rfl <;> simp only [eccBase] <;> omega
  have lo : ∀ j < 8, j ≠ 7 → M j = N j := fun j hj h7 => by rw [gu j (by omega)]; exact hk.header j (by omega) h7
  refine ⟨M, by rw [hM, hN]; rfl, ?_, g1, g2, g3, ?_, g4, g5, g6, g7, fun j hj => ?_⟩
  · refine laid_congr L (fun f hf => lo f ?_ ?_) (fun f hf => lo f.1 ?_ ?_) (fun f hf i hi' => ?_) fun i hi' => ?_
    · revert f; decide
    · revert f; decide
    · revert f; decide
    · revert f; decide
    · have := geo f hf
      rw [gu _ (by omega)]; exact hk.objects f hf i hi'
    · have := ge i (hi ▸ hi')
      rw [gu _ (by omega)]; exact hk.counts i hi'
  · have k : ∀ j, 10 ≤ j → j < 12 → M j = (eccHdr c a.contextBytes).getD j 0 := fun j h1 h2 => by
      rw [gu j (by omega), hk.header j (by omega) (by omega)]; exact hh j (by omega) h2
    exact long_two _ _ _ (k 10 (by decide) (by decide)) (k 11 (by decide) (by decide))
  · rw [gu j (by omega), hk.outside j hj]; exact hu j (by omega) (by omega)

/-! ## Edwards and Montgomery curves -/

theorem laid_of {M : Mem} {head w size bits : Nat} (fi : List Nat) (fo : List (Nat × Nat)) (pos base : Nat → Nat) (hw : w = bitsWcnt bits) (hw2 : w < 2 ^ 32)
    (h1 : ∀ f ∈ fi, (M f).toNat = 4 * pos f ∧ M (pos f) = BitVec.ofNat 32 w)
    (h2 : ∀ f ∈ fo, (M f.1).toNat = 4 * base f.1 ∧ Obj M (base f.1) f.2 w ∧ 4 * f.2 + 4 * (w + 1) * f.2 < 2 ^ 32)
    (ap : Apart ((0, head) :: fi.map (fun f => (pos f, 1 + w)) ++
      fo.flatMap fun f => (base f.1, f.2) :: (List.range f.2).map fun i => (base f.1 + f.2 + (w + 1) * i, 1 + w)) size) :
    WellLaid M head fi fo size bits := by
  have ints : ctxInts M fi fo = fi.map pos ++ fo.flatMap fun f => (List.range f.2).map fun i => base f.1 + f.2 + (w + 1) * i := by
    unfold ctxInts
    congr 1
    · exact List.map_congr_left fun f hf => part_four (h1 f hf).1
    · refine flatMap_congr' fun f hf => ?_
      obtain ⟨a, b, c⟩ := h2 f hf
      rw [part_four a, b.ints c]
  have cnt : ∀ i ∈ ctxInts M fi fo, M i = BitVec.ofNat 32 w := by
    rw [ints]
    intro i hi
    simp only [List.mem_append, List.mem_flatMap, List.mem_map, List.mem_range] at hi
    rcases hi with ⟨f, hf, rfl⟩ | ⟨f, hf, k, hk, rfl⟩
    · exact (h1 f hf).2
    · exact (h2 f hf).2.1.cnt k hk
  have regs : ctxRegions M head fi fo = (0, head) :: fi.map (fun f => (pos f, 1 + w)) ++
      fo.flatMap fun f => (base f.1, f.2) :: (List.range f.2).map fun i => (base f.1 + f.2 + (w + 1) * i, 1 + w) := by
    unfold ctxRegions
    congr 1
    · congr 1
      refine List.map_congr_left fun f hf => ?_
      obtain ⟨a, b⟩ := h1 f hf
      rw [part_four a]
      unfold intAt
      rw [b, ofNat_toNat hw2]
    · refine flatMap_congr' fun f hf => ?_
      obtain ⟨a, b, c⟩ := h2 f hf
      rw [part_four a, b.regions c hw2]
  refine ⟨by rw [regs]; exact ap, fun i hi => ?_, fun i hi j hj => by rw [cnt i hi, cnt j hj]⟩
  rw [cnt i hi]
  exact room_wcnt bits w hw hw2

/-- Offsets in the header of an EdDSA context, `eddsa.h:12-35`: the two scalars; the four points and the working variables. -/
def edFi : List Nat := [96, 98]
def edFo : List (Nat × Nat) := [(97, 4), (99, 4), (100, 4), (101, 4), (102, 5)]

/-- Where the objects of an EdDSA context are. -/
def edBase (b w : Nat) : Nat → Nat
  | 102 => b
  | 97 => b + 5 * (w + 1) + 5
  | 99 => b + 9 * (w + 1) + 9
  | 100 => b + 13 * (w + 1) + 13
  | _ => b + 17 * (w + 1) + 17

def edPos (b w : Nat) : Nat → Nat
  | 96 => b + 21 * (w + 1) + 21
  | _ => b + 22 * (w + 1) + 21

theorem edHdr_length (c : CurveEd) (h : Nat) : (edHdr c h).length = 118 := rfl

/-- The header after the strings and keys. -/
def edTail (ptr : BitVec 64) (b w h : Nat) : List W :=
  [BitVec.ofNat 32 (4 * (b + 21 * (w + 1) + 21)), BitVec.ofNat 32 (4 * (b + 5 * (w + 1) + 5)),
      BitVec.ofNat 32 (4 * (b + 22 * (w + 1) + 21)), BitVec.ofNat 32 (4 * (b + 9 * (w + 1) + 9)), BitVec.ofNat 32 (4 * (b + 13 * (w + 1) + 13)),
      BitVec.ofNat 32 (4 * (b + 17 * (w + 1) + 17)), BitVec.ofNat 32 (4 * b), 0, 0, BitVec.ofNat 32 (472 + h * 0)] ++ two 0 ++ two ptr ++ List.replicate 8 0

theorem edHdr_eq (c : CurveEd) (h b w : Nat) (hb : 4 * b = 472 + h) (bs : bitsSize c.bits = 4 * (w + 1)) :
    edHdr c h = List.replicate 96 0 ++ edTail c.ptr b w h := by
  unfold edHdr edTail edXytzSize edOpctxSize
  rw [bs, show h * 1 = h by omega, ← hb]
  dsimp only
  rw [show 4 * b + (20 + 4 * (w + 1) * 5) + (16 + 4 * (w + 1) * 4) * 4 + 4 * (w + 1) * 0 = 4 * (b + 21 * (w + 1) + 21) by ring,
    show 4 * b + (20 + 4 * (w + 1) * 5) + (16 + 4 * (w + 1) * 4) * 0 = 4 * (b + 5 * (w + 1) + 5) by ring,
    show 4 * b + (20 + 4 * (w + 1) * 5) + (16 + 4 * (w + 1) * 4) * 4 + 4 * (w + 1) * 1 = 4 * (b + 22 * (w + 1) + 21) by ring,
    show 4 * b + (20 + 4 * (w + 1) * 5) + (16 + 4 * (w + 1) * 4) * 1 = 4 * (b + 9 * (w + 1) + 9) by ring,
    show 4 * b + (20 + 4 * (w + 1) * 5) + (16 + 4 * (w + 1) * 4) * 2 = 4 * (b + 13 * (w + 1) + 13) by ring,
    show 4 * b + (20 + 4 * (w + 1) * 5) + (16 + 4 * (w + 1) * 4) * 3 = 4 * (b + 17 * (w + 1) + 17) by ring]
  simp only [List.append_assoc]

theorem edInit_eq (c : CurveEd) (a : HashObj) (m m0 : Mem) (h0 : m0 = store m (edHdr c a.contextBytes)) : edInit c a m =
    storeAt (storeAt (((edFo.foldl (fun m f => partsInit f.2 m (m.at_ f.1) c.pbits)
      ((m0.put (m0.at_ 96) (BitVec.ofNat 32 (bitsWcnt c.pbits))).put ((m0.put (m0.at_ 96) (BitVec.ofNat 32 (bitsWcnt c.pbits))).at_ 98) (BitVec.ofNat 32 (bitsWcnt c.pbits)))).put 103 0).put 104 0)
      110 (funcs a)) 106 (two (BitVec.ofNat 64 a.contextBytes)) := by
  subst h0
  unfold edInit edXytzInit edOpctxInit
  simp only [edFo, List.foldl_cons, List.foldl_nil]

theorem getD_zeros (n j : Nat) : (List.replicate n (0 : W)).getD j 0 = 0 := by
  rw [List.getD_eq_getElem?_getD, List.getElem?_replicate]
  split <;> rfl

theorem edApart (b w : Nat) : edFo.Pairwise fun f g => edBase b w f.1 + f.2 + (w + 1) * f.2 ≤ edBase b w g.1 ∨ edBase b w g.1 + g.2 + (w + 1) * g.2 ≤ edBase b w f.1 := by
  simp only [edFo, List.pairwise_cons, List.mem_cons, List.not_mem_nil, or_false, forall_eq_or_imp, forall_eq, edBase, false_imp_iff, implies_true,
        List.Pairwise.nil, and_true]
  omega

/-- C86: an EdDSA context: the header of 472 octets, the state of the hash function, the rest. -/
theorem C86_eddsa (c : CurveEd) (a : HashObj) (m : Mem) (hp : (c.pbits + 7) / 8 = (c.bits + 7) / 8) (h4 : a.contextBytes % 4 = 0)
    (hs : edSize c a.contextBytes < 2 ^ 32) :
    ∃ M, M = edInit c a m ∧ WellLaid M ((472 + a.contextBytes) / 4) edFi edFo (edSize c a.contextBytes) c.pbits ∧
      (∀ j < 96, M j = 0) ∧ M 103 = 0 ∧ M 104 = 0 ∧ M 105 = 472 ∧ long M 106 = BitVec.ofNat 64 a.contextBytes ∧ long M 108 = c.ptr ∧
      long M 110 = a.init ∧ long M 112 = a.update ∧ long M 114 = a.xfinal ∧ long M 116 = (if a.xfinal ≠ 0 then a.read else a.final) ∧
      ∀ j, edSize c a.contextBytes ≤ 4 * j → M j = m j := by
  set h := a.contextBytes with hh
  obtain ⟨b, hb⟩ : ∃ b, 4 * b = 472 + h := ⟨(472 + h) / 4, by omega⟩
  rw [show (472 + h) / 4 = b by omega]
  have ew : bitsWcnt c.pbits = bitsWcnt c.bits := by unfold bitsWcnt; rw [hp]
  set w := bitsWcnt c.bits with hw
  have hsz : 4 * (b + 23 * (w + 1) + 21) + h = edSize c h := by
    unfold edSize edOpctxSize edXytzSize bitsSize; omega
  set m0 := store m (edHdr c h) with hm0
  have s0 : ∀ j, 118 ≤ j → m0 j = m j := fun j hj => by rw [hm0]; unfold store; rw [edHdr_length, if_neg (by omega)]
  have hd : ∀ j < 118, m0 j = (edHdr c h).getD j 0 := fun j hj => by rw [hm0]; unfold store; rw [edHdr_length, if_pos hj]
  have bs : bitsSize c.bits = 4 * (w + 1) := by unfold bitsSize; rw [← hw]
  have g : ∀ k < 22, (edHdr c h).getD (96 + k) 0 = (edTail c.ptr b w h).getD k 0 := fun k hk => by
    rw [edHdr_eq c h b w hb bs, List.getD_append_right _ _ _ _ (by simp)]
    simp
  have fld : ∀ {f v}, f < 118 → (edHdr c h).getD f 0 = BitVec.ofNat 32 (4 * v) → 4 * v < 2 ^ 32 → (m0 f).toNat = 4 * v := by
    intro f v hf hv hlt; rw [hd f hf, hv, ofNat_toNat hlt]
  have f0 : (m0 96).toNat = 4 * (b + 21 * (w + 1) + 21) := fld (by decide) (g 0 (by decide)) (by omega)
  have f2 : (m0 98).toNat = 4 * (b + 22 * (w + 1) + 21) := fld (by decide) (g 2 (by decide)) (by omega)
  have fo : ∀ f ∈ edFo, (m0 f.1).toNat = 4 * edBase b w f.1 := by
    intro f hf
    simp only [edFo, List.mem_cons, List.not_mem_nil, or_false] at hf
    rcases hf with rfl | rfl | rfl | rfl | rfl
    · exact fld (by decide) (g 1 (by decide)) (by simp only [edBase]; omega)
    · exact fld (by decide) (g 3 (by decide)) (by simp only [edBase]; omega)
    · exact fld (by decide) (g 4 (by decide)) (by simp only [edBase]; omega)
    · exact fld (by decide) (g 5 (by decide)) (by simp only [edBase]; omega)
    · exact fld (by decide) (g 6 (by decide)) (by simp only [edBase]; omega)
  have e' := edInit_eq c a m m0 hm0
  clear_value m0
  set m1 := m0.put (m0.at_ 96) (BitVec.ofNat 32 (bitsWcnt c.pbits)) with hm1
  rw [show m0.at_ 96 = b + 21 * (w + 1) + 21 by unfold RsaDer.Mem.at_; rw [f0]; omega, ew] at hm1
  have k1 : ∀ j < 118, m1 j = m0 j := fun j hj => by rw [hm1, put_ne _ _ _ _ (by omega)]
  set m2 := m1.put (m1.at_ 98) (BitVec.ofNat 32 (bitsWcnt c.pbits)) with hm2
  rw [show m1.at_ 98 = b + 22 * (w + 1) + 21 by unfold RsaDer.Mem.at_; rw [k1 98 (by decide), f2]; omega, ew] at hm2
  have k2 : ∀ j < 118, m2 j = m0 j := fun j hj => by rw [hm2, put_ne _ _ _ _ (by omega)]; exact k1 j hj
  have ar : ∀ f ∈ edFo, f.1 < 118 ∧ 118 ≤ edBase b w f.1 ∧ 4 * f.2 + 4 * (w + 1) * f.2 < 2 ^ 32 := by
    intro f hf
    simp only [edFo, List.mem_cons, List.not_mem_nil, or_false] at hf
    rcases hf with rfl | rfl | rfl | rfl | rfl <;> simp only [edBase] <;> omega
  have pre : ∀ f ∈ edFo, f.1 < 118 ∧ (m2 f.1).toNat = 4 * edBase b w f.1 ∧ 118 ≤ edBase b w f.1 ∧ 4 * f.2 + 4 * (w + 1) * f.2 < 2 ^ 32 := fun f hf =>
    ⟨(ar f hf).1, by rw [k2 _ (ar f hf).1]; exact fo f hf, (ar f hf).2⟩
  have ou := inits_spec 118 w c.pbits ew (edBase b w) edFo m2 pre (edApart b w) _ rfl
  set m3 := edFo.foldl (fun m f => partsInit f.2 m (m.at_ f.1) c.pbits) m2 with hm3
  obtain ⟨o, u⟩ := ou
  have e : edInit c a m = storeAt (storeAt ((m3.put 103 0).put 104 0) 110 (funcs a)) 106 (two (BitVec.ofNat 64 h)) := e'
  have l2 : ∀ p, (two p).length = 2 := fun _ => rfl
  have l8 : (funcs a).length = 8 := rfl
  have lo : ∀ j, j ≠ 103 → j ≠ 104 → ¬ (106 ≤ j ∧ j < 108) → ¬ (110 ≤ j ∧ j < 118) → edInit c a m j = m3 j := fun j j1 j2 j3 j4 => by
    rw [e, storeAt_out _ _ _ _ (by rw [l2]; omega), storeAt_out _ _ _ _ (by rw [l8]; omega), put_ne _ _ _ _ j2, put_ne _ _ _ _ j1]
  have out : ∀ j, j < b ∨ b + 21 * (w + 1) + 21 ≤ j → m3 j = m2 j := fun j hj => u j (by
      simp only [edFo, List.mem_cons, List.not_mem_nil, or_false, forall_eq_or_imp, forall_eq, edBase]
      omega)
  have hdr : ∀ j < 118, m3 j = m0 j := fun j hj => by rw [out j (by omega)]; exact k2 j hj
  have hdr' : ∀ j, j < 103 ∨ j = 105 ∨ j = 108 ∨ j = 109 → edInit c a m j = (edHdr c h).getD j 0 := fun j hj => by
    rw [lo j (by omega) (by omega) (by omega) (by omega), hdr j (by omega)]; exact hd j (by omega)
  have fn : ∀ k < 8, edInit c a m (110 + k) = (funcs a).getD k 0 := fun k hk => by
    rw [e, storeAt_out _ _ _ _ (by rw [l2]; omega), storeAt_in _ _ _ _ (by rw [l8]; omega)]
  refine ⟨_, rfl, ?_, fun j hj => ?_, ?_, ?_, ?_, ?_, ?_, long_two _ _ _ (fn 0 (by decide)) (fn 1 (by decide)), long_two _ _ _ (fn 2 (by decide)) (fn 3 (by decide)),
    long_two _ _ _ (fn 4 (by decide)) (fn 5 (by decide)), long_two _ _ _ (fn 6 (by decide)) (fn 7 (by decide)), fun j hj => ?_⟩
  · refine laid_of edFi edFo (edPos b w) (edBase b w) ew.symm (by omega) (fun f hf => ?_) (fun f hf => ?_) ?_
    · simp only [edFi, List.mem_cons, List.not_mem_nil, or_false] at hf
      rcases hf with rfl | rfl
      · refine ⟨by rw [lo _ (by decide) (by decide) (by decide) (by decide), hdr _ (by decide)]; exact f0, ?_⟩
        rw [show edPos b w 96 = b + 21 * (w + 1) + 21 from rfl, lo _ (by omega) (by omega) (by omega) (by omega), out _ (by omega), hm2,
          put_ne _ _ _ _ (by omega), hm1, put_self]
      · refine ⟨by rw [lo _ (by decide) (by decide) (by decide) (by decide), hdr _ (by decide)]; exact f2, ?_⟩
        rw [show edPos b w 98 = b + 22 * (w + 1) + 21 from rfl, lo _ (by omega) (by omega) (by omega) (by omega), out _ (by omega), hm2, put_self]
    · obtain ⟨a1, a2, a3⟩ := ar f hf
      have : f.1 < 103 := (show ∀ f ∈ edFo, f.1 < 103 by decide) f hf
      refine ⟨by rw [lo _ (by omega) (by omega) (by omega) (by omega), hdr _ a1]; exact fo f hf, (o f hf).congr fun j j1 j2 => ?_, a3⟩
      rw [lo _ (by omega) (by omega) (by omega) (by omega)]
    · have perm : List.Perm ((0, b) :: (([(102, 5), (97, 4), (99, 4), (100, 4), (101, 4)] : List (Nat × Nat)).flatMap fun f =>
          (edBase b w f.1, f.2) :: (List.range f.2).map fun i => (edBase b w f.1 + f.2 + (w + 1) * i, 1 + w)) ++ edFi.map fun f => (edPos b w f, 1 + w))
          ((0, b) :: edFi.map (fun f => (edPos b w f, 1 + w)) ++
        edFo.flatMap fun f => (edBase b w f.1, f.2) :: (List.range f.2).map fun i => (edBase b w f.1 + f.2 + (w + 1) * i, 1 + w)) := by
        refine List.Perm.cons _ (List.perm_append_comm.trans (List.Perm.append_left _ (List.Perm.flatMap_right _ ?_)))
        decide
      refine Apart.perm (apart_of_chain ?_ ?_) perm
      · simp only [List.flatMap_cons, List.flatMap_nil, edBase, edPos, edFi, List.range_succ, List.range_zero, List.nil_append, List.map_append, List.map_cons, List.map_nil,
          List.append_nil, List.cons_append, List.isChain_cons_cons, List.isChain_singleton, and_true]
        omega
      · simp only [List.flatMap_cons, List.flatMap_nil, edBase, edPos, edFi, List.range_succ, List.range_zero, List.nil_append, List.map_append, List.map_cons, List.map_nil,
          List.append_nil, List.cons_append, List.mem_cons, List.not_mem_nil, or_false, forall_eq_or_imp, forall_eq]
        omega
  · rw [hdr' j (by omega), edHdr_eq c h b w hb bs, List.getD_append _ _ _ _ (by simpa using hj)]
    exact getD_zeros 96 j
  · rw [e, storeAt_out _ _ _ _ (by rw [l2]; omega), storeAt_out _ _ _ _ (by rw [l8]; omega), put_ne _ _ _ _ (by omega), put_self]
  · rw [e, storeAt_out _ _ _ _ (by rw [l2]; omega), storeAt_out _ _ _ _ (by rw [l8]; omega), put_self]
  · rw [hdr' _ (by omega)]; exact g 9 (by decide)
  · rw [e]; exact storeAt_two _ _ _
  · exact long_two _ _ _ (by rw [hdr' _ (by omega)]; exact g 12 (by decide)) (by rw [hdr' _ (by omega)]; exact g 13 (by decide))
  · rw [lo _ (by omega) (by omega) (by omega) (by omega), out _ (by omega), hm2, put_ne _ _ _ _ (by omega), hm1, put_ne _ _ _ _ (by omega)]
    exact s0 j (by omega)

/-- Offsets in the header of an X25519 or X448 context, `rfc-7748.h:26-32`: the two keys and the peer's; the working variables. -/
def mtFi : List Nat := [0, 1, 2]
def mtFo : List (Nat × Nat) := [(3, 12)]

def mtPos (w : Nat) (f : Nat) : Nat := 20 + 12 * (w + 1) + (w + 1) * f

/-- C86: an X25519 or X448 context. -/
theorem C86_xecdh (c : CurveMt) (m : Mem) (hp : (c.pbits + 7) / 8 = (c.bits + 7) / 8) (hs : mtSize c < 2 ^ 32) :
    ∃ M, M = mtInit c m ∧ WellLaid M 8 mtFi mtFo (mtSize c) c.pbits ∧ long M 4 = 0 ∧ long M 6 = c.ptr ∧ ∀ j, mtSize c ≤ 4 * j → M j = m j := by
  have ew : bitsWcnt c.pbits = bitsWcnt c.bits := by unfold bitsWcnt; rw [hp]
  set w := bitsWcnt c.bits with hw
  have hsz : 4 * (20 + 15 * (w + 1)) = mtSize c := by unfold mtSize mtOpctxSize bitsSize; omega
  set m0 := store m (mtHdr c) with hm0
  have l : (mtHdr c).length = 8 := rfl
  have s0 : ∀ j, 8 ≤ j → m0 j = m j := fun j hj => by rw [hm0]; unfold store; rw [l, if_neg (by omega)]
  have hd : ∀ j < 8, m0 j = (mtHdr c).getD j 0 := fun j hj => by rw [hm0]; unfold store; rw [l, if_pos hj]
  have bs : bitsSize c.bits = 4 * (w + 1) := by unfold bitsSize; rw [← hw]
  have g : mtHdr c = [BitVec.ofNat 32 (4 * mtPos w 0), BitVec.ofNat 32 (4 * mtPos w 1), BitVec.ofNat 32 (4 * mtPos w 2), BitVec.ofNat 32 (4 * 8)] ++ two 0 ++ two c.ptr := by
    unfold mtHdr mtOpctxSize mtPos; rw [bs]
    congr 4 <;> (try ring_nf) <;> rfl
  have fld : ∀ {f v}, f < 8 → (mtHdr c).getD f 0 = BitVec.ofNat 32 (4 * v) → 4 * v < 2 ^ 32 → (m0 f).toNat = 4 * v := by
    intro f v hf hv hlt; rw [hd f hf, hv, ofNat_toNat hlt]
  have f0 : (m0 0).toNat = 4 * mtPos w 0 := fld (by decide) (by rw [g]; rfl) (by unfold mtPos; omega)
  have f1 : (m0 1).toNat = 4 * mtPos w 1 := fld (by decide) (by rw [g]; rfl) (by unfold mtPos; omega)
  have f2 : (m0 2).toNat = 4 * mtPos w 2 := fld (by decide) (by rw [g]; rfl) (by unfold mtPos; omega)
  have f3 : (m0 3).toNat = 4 * 8 := fld (by decide) (by rw [g]; rfl) (by decide)
  set m1 := mtOpctxInit m0 (m0.at_ 3) c.pbits with hm1
  rw [show m0.at_ 3 = 8 by unfold RsaDer.Mem.at_; rw [f3]] at hm1
  obtain ⟨o, u⟩ := partsInit_spec 12 m0 8 c.pbits (by unfold bitsSize; rw [ew]; omega)
  change Obj (mtOpctxInit _ _ _) _ _ _ at o
  change ∀ j, _ → mtOpctxInit _ _ _ j = _ at u
  rw [← hm1, ew] at o
  rw [← hm1, ew] at u
  have k1 : ∀ j < 8, m1 j = m0 j := fun j hj => u j (by omega)
  set m2 := m1.put (m1.at_ 0) (BitVec.ofNat 32 (bitsWcnt c.pbits)) with hm2
  rw [show m1.at_ 0 = mtPos w 0 by unfold RsaDer.Mem.at_; rw [k1 _ (by decide), f0]; omega, ew] at hm2
  have k2 : ∀ j < 8, m2 j = m0 j := fun j hj => by rw [hm2, put_ne _ _ _ _ (by unfold mtPos; omega)]; exact k1 j hj
  set m3 := m2.put (m2.at_ 1) (BitVec.ofNat 32 (bitsWcnt c.pbits)) with hm3
  rw [show m2.at_ 1 = mtPos w 1 by unfold RsaDer.Mem.at_; rw [k2 _ (by decide), f1]; omega, ew] at hm3
  have k3 : ∀ j < 8, m3 j = m0 j := fun j hj => by rw [hm3, put_ne _ _ _ _ (by unfold mtPos; omega)]; exact k2 j hj
  have e : mtInit c m = m3.put (mtPos w 2) (BitVec.ofNat 32 w) := by
    have : mtInit c m = m3.put (m3.at_ 2) (BitVec.ofNat 32 (bitsWcnt c.pbits)) := rfl
    rw [this, show m3.at_ 2 = mtPos w 2 by unfold RsaDer.Mem.at_; rw [k3 _ (by decide), f2]; omega, ew]
  have k4 : ∀ j < 8, mtInit c m j = m0 j := fun j hj => by rw [e, put_ne _ _ _ _ (by unfold mtPos; omega)]; exact k3 j hj
  have far : ∀ j, (j < 20 + 12 * (w + 1) ∨ 20 + 15 * (w + 1) ≤ j) → mtInit c m j = m1 j := fun j hj => by
    rw [e, put_ne _ _ _ _ (by unfold mtPos; omega), hm3, put_ne _ _ _ _ (by unfold mtPos; omega), hm2, put_ne _ _ _ _ (by unfold mtPos; omega)]
  refine ⟨_, rfl, ?_, ?_, ?_, fun j hj => ?_⟩
  · refine laid_of mtFi mtFo (mtPos w) (fun _ => 8) ew.symm (by omega) (fun f hf => ?_) (fun f hf => ?_) ?_
    · simp only [mtFi, List.mem_cons, List.not_mem_nil, or_false] at hf
      rcases hf with rfl | rfl | rfl
      · exact ⟨by rw [k4 _ (by decide)]; exact f0, by
          rw [e, put_ne _ _ _ _ (by unfold mtPos; omega), hm3, put_ne _ _ _ _ (by unfold mtPos; omega), hm2, put_self]⟩
      · exact ⟨by rw [k4 _ (by decide)]; exact f1, by rw [e, put_ne _ _ _ _ (by unfold mtPos; omega), hm3, put_self]⟩
      · exact ⟨by rw [k4 _ (by decide)]; exact f2, by rw [e, put_self]⟩
    · simp only [mtFo, List.mem_cons, List.not_mem_nil, or_false] at hf
      subst hf
      exact ⟨by rw [k4 _ (by decide)]; exact f3, o.congr fun j j1 j2 => far j (by omega), by omega⟩
    · have perm : List.Perm ((0, 8) :: (mtFo.flatMap fun f =>
          (8, f.2) :: (List.range f.2).map fun i => (8 + f.2 + (w + 1) * i, 1 + w)) ++ mtFi.map fun f => (mtPos w f, 1 + w))
          ((0, 8) :: mtFi.map (fun f => (mtPos w f, 1 + w)) ++
        mtFo.flatMap fun f => (8, f.2) :: (List.range f.2).map fun i => (8 + f.2 + (w + 1) * i, 1 + w)) := List.Perm.cons _ List.perm_append_comm
      refine Apart.perm (apart_of_chain ?_ ?_) perm
      · simp only [mtFo, List.flatMap_cons, List.flatMap_nil, mtPos, mtFi, List.range_succ, List.range_zero, List.nil_append, List.map_append, List.map_cons, List.map_nil,
          List.append_nil, List.cons_append, List.isChain_cons_cons, List.isChain_singleton, and_true]
        omega
      · simp only [mtFo, List.flatMap_cons, List.flatMap_nil, mtPos, mtFi, List.range_succ, List.range_zero, List.nil_append, List.map_append, List.map_cons, List.map_nil,
          List.append_nil, List.cons_append, List.mem_cons, List.not_mem_nil, or_false, forall_eq_or_imp, forall_eq]
        omega
  · exact long_two _ _ _ (by rw [k4 _ (by decide), hd _ (by decide), g]; rfl) (by rw [k4 _ (by decide), hd _ (by decide), g]; rfl)
  · exact long_two _ _ _ (by rw [k4 _ (by decide), hd _ (by decide), g]; rfl) (by rw [k4 _ (by decide), hd _ (by decide), g]; rfl)
  · rw [far j (by omega), u j (by omega)]; exact s0 j (by omega)

/-! ## The curves of the library -/

/-- C86: the sizes of the objects of the seven curves are computed from a number of bits that needs as many octets as the modulus does. -/
theorem C86_curves (p : BitVec 64) : (∀ c ∈ [p256 p, p384 p, sm2 p], c.plen = (c.bits + 7) / 8 ∧ eccSize c 0 < 2 ^ 32) ∧
    (∀ c ∈ [ed25519 p, ed448 p], (c.pbits + 7) / 8 = (c.bits + 7) / 8 ∧ edSize c 0 < 2 ^ 32) ∧
    ∀ c ∈ [x25519 p, x448 p], (c.pbits + 7) / 8 = (c.bits + 7) / 8 ∧ mtSize c < 2 ^ 32 := by
  simp only [List.mem_cons, List.not_mem_nil, or_false, forall_eq_or_imp, forall_eq]
  exact ⟨⟨⟨by show 32 = (256 + 7) / 8; rfl, by show eccSize (p256 0) 0 < 2 ^ 32; decide⟩, ⟨by show 48 = (384 + 7) / 8; rfl, by show eccSize (p384 0) 0 < 2 ^ 32; decide⟩,
    ⟨by show 32 = (256 + 7) / 8; rfl, by show eccSize (sm2 0) 0 < 2 ^ 32; decide⟩⟩,
    ⟨⟨by show (255 + 7) / 8 = (256 + 7) / 8; decide, by show edSize (ed25519 0) 0 < 2 ^ 32; decide⟩, ⟨rfl, by show edSize (ed448 0) 0 < 2 ^ 32; decide⟩⟩,
    ⟨rfl, by show mtSize (x25519 0) < 2 ^ 32; decide⟩, ⟨rfl, by show mtSize (x448 0) < 2 ^ 32; decide⟩⟩

/-- ECDSA over P-384 with a hash function of 216 octets of state: setting up, then writing a private key and a status, meets the hypotheses. -/
example (m : Mem) : KeepsLayout eccFi eccFo 40 7 (eccSize (p384 5) 216) (eccInit (p384 5) 216 m)
    (((eccInit (p384 5) 216 m).put (part (eccInit (p384 5) 216 m) 0 0 + 1) 12345).put 7 0xffffffff#32) := by
  obtain ⟨b, w, N, hN, hb, h12, hw, hsz, f0, f2, fo, o, c0, c2, hh, hu⟩ := eccInit_shape (p384 5) 216 m rfl rfl (by decide)
  have hw' : w = 15 := hw
  have hb' : b = 94 := by have : hdrSize 216 = 160 := rfl; omega
  subst hw' hb'
  rw [← hN]
  have L := eccLaid h12 hw hsz (by decide) f0 f2 fo o c0 c2
  rw [part_four f0]
  refine ⟨fun j hj h7 => ?_, fun f hf i hi => ?_, fun i hi => ?_, fun j hj => ?_⟩
  · rw [put_ne _ _ _ _ h7, put_ne _ _ _ _ (by omega)]
  · have hg : 94 ≤ part N 0 f.1 ∧ part N 0 f.1 + i < 94 + 18 * 16 + 19 := by
      rw [part_four (fo f hf)]
      simp only [eccFo, List.mem_cons, List.not_mem_nil, or_false] at hf
      rcases hf with rfl | rfl | rfl | rfl | rfl <;> simp only [eccBase] at hi ⊢ <;> omega
    rw [put_ne _ _ _ _ (by omega), put_ne _ _ _ _ (by omega)]
  · rw [L.2.1] at hi
    have : ∀ i ∈ eccPlaces 94 15, i ≠ 7 ∧ i ≠ 94 + 18 * (15 + 1) + 18 + 1 := by decide
    rw [put_ne _ _ _ _ (this i hi).1, put_ne _ _ _ _ (this i hi).2]
  · have : eccSize (p384 5) 216 = 1728 := by decide
    rw [put_ne _ _ _ _ (by omega), put_ne _ _ _ _ (by omega)]

/-- An ECDH-KEM context over P-256, an Ed25519 context with a hash function of 216 octets of state, an X448 context. -/
example (m : Mem) := C86_kem (p256 7) m rfl (by decide)
example (m : Mem) (a : HashObj) (ha : a.contextBytes = 216) := C86_eddsa (ed25519 7) a m (by decide) (by omega) (by rw [ha]; decide)
example (m : Mem) := C86_xecdh (x448 7) m rfl (by decide)

end Props
