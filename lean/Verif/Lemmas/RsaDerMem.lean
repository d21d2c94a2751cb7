import Verif.Lemmas.RsaDer
import Verif.Spec.RsaCtx
import Verif.Lemmas.Rsa
import Mathlib.Data.Nat.Size

/-! The RSA key codec: the contexts the parsers lay out. -/

namespace RsaDer
open Vlong Spec Der

@[simp] theorem Res.bind_ok {α β : Type} (a : α) (f : α → Res β) : (Res.ok a >>= f) = f a := rfl
@[simp] theorem Res.pure_ok {α : Type} (a : α) : (pure a : Res α) = .ok a := rfl

/-- A header word, the first word and the number of words of the object it locates, and the leading words of the object. -/
structure Ent where
  fld : Nat
  off : Nat
  len : Nat
  data : List W

/-- The header word and the leading words are in memory. -/
def Ent.Ok (m : Mem) (e : Ent) : Prop :=
  m e.fld = BitVec.ofNat 32 (4 * e.off) ∧ ∀ t (h : t < e.data.length), m (e.off + t) = e.data[t]

/-- What the parsers maintain: `h` header words, `r` words of payload laid out, the objects `L` (the last one first) and the
scalars `X` in the header. -/
structure Inv (h : Nat) (m0 m : Mem) (r : Nat) (L : List Ent) (X : List (Nat × W)) : Prop where
  ok : ∀ e ∈ L, e.Ok m
  fld : ∀ e ∈ L, e.fld < h
  off : ∀ e ∈ L, h ≤ e.off ∧ e.data.length ≤ e.len ∧ e.off + e.len ≤ h + r
  disj : L.Pairwise fun a b => b.off + b.len ≤ a.off
  nodup : (L.map (·.fld) ++ X.map (·.1)).Nodup
  sc : ∀ x ∈ X, m x.1 = x.2 ∧ x.1 < h
  out : ∀ j, h + r ≤ j → m j = m0 j

theorem Inv.start (h : Nat) (m0 : Mem) : Inv h m0 m0 0 [] [] := by
  constructor <;> simp

theorem put_at {m : Mem} {f : Nat} {k : Nat} (h : 4 * k < 2 ^ 32) (hm : m f = BitVec.ofNat 32 (4 * k)) : m.at_ f = k := by
  unfold Mem.at_
  rw [hm, BitVec.toNat_ofNat, Nat.mod_eq_of_lt h]; omega

theorem put_self (m : Mem) (i : Nat) (v : W) : m.put i v i = v := by simp [Mem.put]

theorem put_ne (m : Mem) {i j : Nat} (v : W) (h : j ≠ i) : m.put i v j = m j := by simp [Mem.put, h]

theorem Ent.Ok.congr {m m' : Mem} {e : Ent} (h : e.Ok m) (h1 : m' e.fld = m e.fld)
    (h2 : ∀ j, e.off ≤ j → j < e.off + e.data.length → m' j = m j) : e.Ok m' := by
  refine ⟨h1.trans h.1, fun t ht => ?_⟩
  rw [h2 _ (by omega) (by omega), h.2 t ht]

/-- A new object at the end of the payload. -/
theorem Inv.add {h : Nat} {m0 m m' : Mem} {r : Nat} {L : List Ent} {X : List (Nat × W)} (I : Inv h m0 m r L X) {f len : Nat}
    {data : List W} (hf : f < h) (hn : f ∉ L.map (·.fld) ++ X.map (·.1)) (hl : data.length ≤ len)
    (h1 : m' f = BitVec.ofNat 32 (4 * (h + r))) (h2 : ∀ t (ht : t < data.length), m' (h + r + t) = data[t])
    (h3 : ∀ j, j ≠ f → ¬ (h + r ≤ j ∧ j < h + r + len) → m' j = m j) :
    Inv h m0 m' (r + len) (⟨f, h + r, len, data⟩ :: L) X := by
  have hnL : ∀ e ∈ L, e.fld ≠ f := fun e he hc => hn (List.mem_append_left _ (List.mem_map.mpr ⟨e, he, hc⟩))
  have hnX : ∀ x ∈ X, x.1 ≠ f := fun e he hc => hn (List.mem_append_right _ (List.mem_map.mpr ⟨e, he, hc⟩))
  refine ⟨?_, ?_, ?_, ?_, ?_, ?_, ?_⟩
  · intro e he
    rcases List.mem_cons.mp he with rfl | he
    · exact ⟨h1, h2⟩
    · have := I.off e he
      have hfl := I.fld e he
      exact (I.ok e he).congr (h3 _ (hnL e he) (by omega)) (fun j j1 j2 => h3 j (by omega) (by omega))
  · intro e he
    rcases List.mem_cons.mp he with rfl | he
    · exact hf
    · exact I.fld e he
  · intro e he
    rcases List.mem_cons.mp he with rfl | he
    · exact ⟨by simp, hl, by simp; omega⟩
    · have := I.off e he; omega
  · refine List.pairwise_cons.mpr ⟨fun e he => (I.off e he).2.2, I.disj⟩
  · simp only [List.map_cons, List.cons_append]
    exact List.nodup_cons.mpr ⟨hn, I.nodup⟩
  · intro x hx
    have := I.sc x hx
    exact ⟨(h3 _ (hnX x hx) (by omega)).trans this.1, this.2⟩
  · intro j hj
    rw [h3 j (by omega) (by omega), I.out j (by omega)]

/-- A new scalar in the header. -/
theorem Inv.scalar {h : Nat} {m0 m : Mem} {r : Nat} {L : List Ent} {X : List (Nat × W)} (I : Inv h m0 m r L X) {f : Nat} (v : W)
    (hf : f < h) (hn : f ∉ L.map (·.fld) ++ X.map (·.1)) : Inv h m0 (m.put f v) r L ((f, v) :: X) := by
  have hnL : ∀ e ∈ L, e.fld ≠ f := fun e he hc => hn (List.mem_append_left _ (List.mem_map.mpr ⟨e, he, hc⟩))
  have hnX : ∀ x ∈ X, x.1 ≠ f := fun e he hc => hn (List.mem_append_right _ (List.mem_map.mpr ⟨e, he, hc⟩))
  refine ⟨?_, I.fld, I.off, I.disj, ?_, ?_, ?_⟩
  · intro e he
    have := I.off e he
    exact (I.ok e he).congr (put_ne _ _ (hnL e he)) (fun j j1 j2 => put_ne _ _ (by omega))
  · have := I.nodup
    rw [List.map_cons, List.nodup_middle]
    exact List.nodup_cons.mpr ⟨hn, this⟩
  · intro x hx
    rcases List.mem_cons.mp hx with rfl | hx
    · exact ⟨put_self _ _ _, hf⟩
    · rw [put_ne _ _ (hnX x hx)]; exact I.sc x hx
  · intro j hj
    rw [put_ne _ _ (by omega), I.out j hj]

/-- The first word of a reserved object is set. -/
theorem Inv.set {h : Nat} {m0 m : Mem} {r : Nat} {L1 L2 : List Ent} {X : List (Nat × W)} {f o len : Nat}
    (I : Inv h m0 m r (L1 ++ ⟨f, o, len, []⟩ :: L2) X) (v : W) (hl : 0 < len) :
    Inv h m0 (m.put o v) r (L1 ++ ⟨f, o, len, [v]⟩ :: L2) X := by
  have hw := I.off ⟨f, o, len, []⟩ (by simp)
  simp only at hw
  have hd := List.pairwise_append.mp I.disj
  have hd2 := List.pairwise_cons.mp hd.2.1
  have key : ∀ e : Ent, e ∈ L1 ∨ e ∈ L2 → e.Ok (m.put o v) := by
    intro e he
    have hm : e ∈ L1 ++ ⟨f, o, len, []⟩ :: L2 := by rcases he with he | he <;> simp [he]
    have hfl := I.fld e hm
    have ho := I.off e hm
    refine (I.ok e hm).congr (put_ne _ _ (by omega)) (fun j j1 j2 => put_ne _ _ ?_)
    rcases he with he | he
    · have := hd.2.2 e he ⟨f, o, len, []⟩ (by simp)
      simp only at this; omega
    · have := hd2.1 e he
      simp only at this; omega
  refine ⟨?_, ?_, ?_, ?_, ?_, ?_, ?_⟩
  · intro e he
    rcases List.mem_append.mp he with he | he
    · exact key e (Or.inl he)
    · rcases List.mem_cons.mp he with rfl | he
      · have hfl := I.fld ⟨f, o, len, []⟩ (by simp)
        refine ⟨?_, fun t ht => ?_⟩
        · simp only at hfl ⊢
          rw [put_ne _ _ (by omega)]
          exact (I.ok ⟨f, o, len, []⟩ (by simp)).1
        · simp only [List.length_cons, List.length_nil] at ht
          have : t = 0 := by omega
          subst this
          simp [put_self]
      · exact key e (Or.inr he)
  · intro e he
    rcases List.mem_append.mp he with he | he
    · exact I.fld e (by simp [he])
    · rcases List.mem_cons.mp he with rfl | he
      · exact I.fld ⟨f, o, len, []⟩ (by simp)
      · exact I.fld e (by simp [he])
  · intro e he
    rcases List.mem_append.mp he with he | he
    · exact I.off e (by simp [he])
    · rcases List.mem_cons.mp he with rfl | he
      · exact ⟨hw.1, by simp; omega, hw.2.2⟩
      · exact I.off e (by simp [he])
  · refine List.pairwise_append.mpr ⟨hd.1, List.pairwise_cons.mpr ⟨hd2.1, hd2.2⟩, ?_⟩
    intro a ha b hb
    rcases List.mem_cons.mp hb with rfl | hb
    · exact hd.2.2 a ha ⟨f, o, len, []⟩ (by simp)
    · exact hd.2.2 a ha b (by simp [hb])
  · have := I.nodup
    simpa using this
  · intro x hx
    have := I.sc x hx
    rw [put_ne _ _ (by omega)]; exact this
  · intro j hj
    rw [put_ne _ _ (by omega), I.out j hj]

/-- The words of an integer the parsers place. -/
def intData (c : List Byte) : List W := BitVec.ofNat 32 (decodeInteger c).length :: decodeInteger c

theorem length_intData (c : List Byte) : (intData c).length = bytesWcnt c.length + 1 := by
  unfold intData
  rw [List.length_cons, (Props.C08_decode c).2]

theorem Inv.placeInt {h : Nat} {m0 m : Mem} {r : Nat} {L : List Ent} {X : List (Nat × W)} (I : Inv h m0 m r L X) {f : Nat}
    (c : List Byte) (hf : f < h) (hn : f ∉ L.map (·.fld) ++ X.map (·.1)) (hs : 4 * (h + r) < 2 ^ 32) :
    ∃ m', RsaDer.placeInt f h (some m) (4 * r) c = (some m', 4 * (r + (bytesWcnt c.length + 1))) ∧
      Inv h m0 m' (r + (bytesWcnt c.length + 1)) (⟨f, h + r, bytesWcnt c.length + 1, intData c⟩ :: L) X := by
  have ha : (m.put f (BitVec.ofNat 32 (4 * h + 4 * r))).at_ f = h + r :=
    put_at hs (by rw [put_self]; congr 1; omega)
  have hlen := (Props.C08_decode c).2
  refine ⟨(m.put f (BitVec.ofNat 32 (4 * h + 4 * r))).wr (h + r) (decodeInteger c), ?_, I.add hf hn (by rw [length_intData]) ?_ ?_ ?_⟩
  · unfold RsaDer.placeInt bytesSize
    simp only [Option.map_some, ha]
    congr 1; omega
  · unfold Mem.wr
    rw [if_neg (by omega), if_neg (by omega), put_self]; congr 1; omega
  · intro t ht
    unfold Mem.wr
    cases t with
    | zero => simp [intData]
    | succ t =>
      have ht' : t < (decodeInteger c).length := by rw [length_intData] at ht; omega
      rw [if_neg (by omega), if_pos (by omega), show h + r + (t + 1) - (h + r) - 1 = t by omega]
      simp [intData, ht']
  · intro j j1 j2
    unfold Mem.wr
    rw [hlen, if_neg (by omega), if_neg (by omega), put_ne _ _ j1]

theorem Inv.placeWork {h : Nat} {m0 m : Mem} {r : Nat} {L : List Ent} {X : List (Nat × W)} (I : Inv h m0 m r L X) {f : Nat}
    (len : Nat) (hf : f < h) (hn : f ∉ L.map (·.fld) ++ X.map (·.1)) :
    ∃ m', RsaDer.placeWork f h (some m) (4 * r) (bytesSize len) = (some m', 4 * (r + (bytesWcnt len + 1))) ∧
      Inv h m0 m' (r + (bytesWcnt len + 1)) (⟨f, h + r, bytesWcnt len + 1, []⟩ :: L) X := by
  refine ⟨m.put f (BitVec.ofNat 32 (4 * h + 4 * r)), ?_, I.add hf hn (by simp) ?_ ?_ ?_⟩
  · unfold RsaDer.placeWork bytesSize
    simp only [Option.map_some]
    congr 1; omega
  · rw [put_self]; congr 1; omega
  · intro t ht; simp at ht
  · intro j j1 j2
    rw [put_ne _ _ j1]

theorem Inv.setCount {h : Nat} {m0 m : Mem} {r : Nat} {L1 L2 : List Ent} {X : List (Nat × W)} {f o : Nat} {len : Nat}
    (I : Inv h m0 m r (L1 ++ ⟨f, o, bytesWcnt len + 1, []⟩ :: L2) X) (hs : 4 * (h + r) < 2 ^ 32) :
    ∃ m', RsaDer.setCount f (bytesSize len) (some m) = some m' ∧
      Inv h m0 m' r (L1 ++ ⟨f, o, bytesWcnt len + 1, [BitVec.ofNat 32 (bytesWcnt len)]⟩ :: L2) X := by
  have hw := I.off ⟨f, o, bytesWcnt len + 1, []⟩ (by simp)
  simp only at hw
  have ha : m.at_ f = o := put_at (by omega) (I.ok ⟨f, o, bytesWcnt len + 1, []⟩ (by simp)).1
  refine ⟨m.put o (BitVec.ofNat 32 (bytesWcnt len)), ?_, I.set _ (by omega)⟩
  unfold RsaDer.setCount bytesSize
  simp only [Option.map_some, ha]
  congr 3; omega

/-- The integer an object holds. -/
theorem Ent.vlong {m : Mem} {f o len : Nat} {c : List Byte} (h : (⟨f, o, len, intData c⟩ : Ent).Ok m) (ho : 4 * o < 2 ^ 32)
    (hc : c.length < 2 ^ 32) : m.at_ f = o ∧ m.vlong o = decodeInteger c ∧ (m o).toNat = bytesWcnt c.length := by
  have hlen := (Props.C08_decode c).2
  have h0 := h.2 0 (by simp [intData])
  simp only [intData, List.getElem_cons_zero, Nat.add_zero, hlen] at h0
  have h1 : (m o).toNat = bytesWcnt c.length := by
    rw [h0, BitVec.toNat_ofNat, Nat.mod_eq_of_lt]; unfold bytesWcnt; omega
  refine ⟨put_at ho h.1, ?_, h1⟩
  unfold Mem.vlong
  rw [h1, ← hlen]
  apply List.ext_getElem (by simp)
  intro t t1 t2
  have h2 := h.2 (t + 1) (by simp [intData]; omega)
  simp only [intData, List.getElem_cons_succ] at h2
  simp only [List.getElem_map, List.getElem_range]
  rw [← h2]; congr 1; omega

theorem Inv.setBits {h : Nat} {m0 m : Mem} {r : Nat} {L : List Ent} {X : List (Nat × W)} {f f' o len : Nat} {c : List Byte}
    (I : Inv h m0 m r L X) (he : (⟨f', o, len, intData c⟩ : Ent) ∈ L) (hs : 4 * (h + r) < 2 ^ 32) (hc : c.length < 2 ^ 32)
    (hf : f < h) (hn : f ∉ L.map (·.fld) ++ X.map (·.1)) (hlen : 0 < len) :
    ∃ m', RsaDer.setBits f f' (some m) = some m' ∧
      Inv h m0 m' r L ((f, BitVec.ofNat 32 ((topbit (decodeInteger c)).getD 0)) :: X) := by
  have hw := I.off _ he
  simp only at hw
  obtain ⟨h1, h2, -⟩ := Ent.vlong (I.ok _ he) (by omega) hc
  refine ⟨_, ?_, I.scalar _ hf hn⟩
  unfold RsaDer.setBits
  simp only [Option.map_some, h1, h2]

end RsaDer

namespace RsaDer
open Vlong Spec Der

theorem ctxAt_eq (m : Mem) (f : Nat) : ctxAt m f = m.at_ f := rfl

theorem val_range_map (g : Nat → W) (c : Nat) : val ((List.range c).map g) = ((List.range c).map fun t => (g t).toNat * 2 ^ (32 * t)).sum := by
  induction c with
  | zero => rfl
  | succ c ih =>
    rw [List.range_succ, List.map_append, List.map_append, List.sum_append, ← ih]
    rw [Rsa.val_append]
    simp [val]
    ring

theorem ctxNat_eq (m : Mem) (f : Nat) : ctxNat m f = val (m.vlong (m.at_ f)) := by
  unfold ctxNat Mem.vlong ctxCount
  rw [val_range_map]; rfl

/-- The object is the integer `v`. -/
def Ent.Holds (e : Ent) (f v : Nat) : Prop :=
  e.fld = f ∧ ∃ c, e.data = intData c ∧ beNat c = v ∧ e.len = bytesWcnt c.length + 1 ∧ c.length < 2 ^ 31 ∧
    MinimalNonneg c

/-- The word count of the object is its room. -/
def Ent.Full (e : Ent) : Prop := 0 < e.len ∧ e.len < 2 ^ 32 ∧ e.data.head? = some (BitVec.ofNat 32 (e.len - 1))

theorem Ent.Holds.full {e : Ent} {f v : Nat} (h : e.Holds f v) : e.Full := by
  obtain ⟨-, c, h1, -, h2, h3, -⟩ := h
  refine ⟨by omega, by rw [h2]; unfold bytesWcnt; omega, ?_⟩
  rw [h1, intData, h2, (Props.C08_decode c).2]; simp

theorem Inv.at {h : Nat} {m0 m : Mem} {r : Nat} {L : List Ent} {X : List (Nat × W)} (I : Inv h m0 m r L X)
    (hs : 4 * (h + r) < 2 ^ 32) {e : Ent} (he : e ∈ L) (hf : e.Full) :
    ctxAt m e.fld = e.off ∧ ctxCount m e.fld + 1 = e.len ∧ (m e.fld).toNat = 4 * e.off := by
  have ho := I.off e he
  have hk := I.ok e he
  have hf1 := hf.1
  have h1 : ctxAt m e.fld = e.off := put_at (by omega) hk.1
  have h2 : (m e.fld).toNat = 4 * e.off := by rw [hk.1, BitVec.toNat_ofNat, Nat.mod_eq_of_lt (by omega)]
  refine ⟨h1, ?_, h2⟩
  unfold ctxCount
  rw [h1]
  obtain ⟨-, h4, h5⟩ := hf
  cases hd : e.data with
  | nil => rw [hd] at h5; simp at h5
  | cons a l =>
    have := hk.2 0 (by rw [hd]; simp)
    simp only [Nat.add_zero, hd, List.getElem_cons_zero] at this
    rw [hd] at h5
    simp only [List.head?_cons, Option.some.injEq] at h5
    rw [this, h5, BitVec.toNat_ofNat, Nat.mod_eq_of_lt (by omega)]
    omega

theorem Inv.laidOut {h : Nat} {m0 m : Mem} {r : Nat} {L : List Ent} {X : List (Nat × W)} (I : Inv h m0 m r L X)
    (hs : 4 * (h + r) < 2 ^ 32) (hfull : ∀ e ∈ L, e.Full) (fs : List Nat) (hsub : ∀ f ∈ fs, f ∈ L.map (·.fld)) :
    LaidOut m h (4 * (h + r)) fs := by
  have get : ∀ f ∈ fs, ∃ e ∈ L, e.fld = f := fun f hf => by simpa using hsub f hf
  refine ⟨?_, ?_, ?_, ?_⟩
  · intro f hf
    obtain ⟨e, he, rfl⟩ := get f hf
    exact I.fld e he
  · intro f hf
    obtain ⟨e, he, rfl⟩ := get f hf
    rw [(I.at hs he (hfull e he)).2.2]; omega
  · intro f hf
    obtain ⟨e, he, rfl⟩ := get f hf
    obtain ⟨a1, a2, -⟩ := I.at hs he (hfull e he)
    have := I.off e he
    rw [a1]; omega
  · intro f hf g hg hfg
    obtain ⟨e, he, rfl⟩ := get f hf
    obtain ⟨e', he', rfl⟩ := get g hg
    obtain ⟨a1, a2, -⟩ := I.at hs he (hfull e he)
    obtain ⟨b1, b2, -⟩ := I.at hs he' (hfull e' he')
    have : e ≠ e' := fun hc => hfg (by rw [hc])
    have hp := I.disj
    rw [List.pairwise_iff_forall_sublist] at hp
    have key : [e, e'].Sublist L ∨ [e', e].Sublist L := by
      clear hp I a1 a2 b1 b2 hf hg hfg hfull get hsub
      induction L with
      | nil => simp at he
      | cons x L ih =>
        rcases List.mem_cons.mp he with h1 | h1
        · rcases List.mem_cons.mp he' with h2 | h2
          · exact absurd (h1.trans h2.symm) this
          · left; subst h1; exact List.Sublist.cons_cons _ (List.singleton_sublist.mpr h2)
        · rcases List.mem_cons.mp he' with h2 | h2
          · right; subst h2; exact List.Sublist.cons_cons _ (List.singleton_sublist.mpr h1)
          · rcases ih h1 h2 with h | h
            · exact Or.inl (h.cons _)
            · exact Or.inr (h.cons _)
    rcases key with h | h
    · have := hp h; omega
    · have := hp h; omega

theorem Inv.nat {h : Nat} {m0 m : Mem} {r : Nat} {L : List Ent} {X : List (Nat × W)} (I : Inv h m0 m r L X)
    (hs : 4 * (h + r) < 2 ^ 32) {e : Ent} (he : e ∈ L) {f v : Nat} (hh : e.Holds f v) : ctxNat m f = v := by
  obtain ⟨h1, c, h2, h3, h4, h5, -⟩ := hh
  have ho := I.off e he
  have hk := I.ok e he
  obtain ⟨fld, off, len, data⟩ := e
  simp only at h1 h2 h4 ho
  subst h1 h2
  obtain ⟨a1, a2, -⟩ := Ent.vlong hk (by omega) (by omega)
  rw [ctxNat_eq, a1, a2, (Props.C08_decode c).1, h3]

theorem minimalNonneg_bounds {l : List Byte} (h : MinimalNonneg l) :
    0 < l.length ∧ 2 * beNat l < 256 ^ l.length ∧ (l.length = 1 ∨ 256 ^ (l.length - 1) ≤ 2 * beNat l) := by
  obtain ⟨b, t, rfl, h1, h2⟩ := h
  have ht := beNat_lt t
  rw [Der.beNat_cons]
  refine ⟨by simp, ?_, ?_⟩
  · have : b.toNat * 256 ^ t.length ≤ 127 * 256 ^ t.length := Nat.mul_le_mul_right _ (by omega)
    rw [List.length_cons, Nat.pow_succ]; omega
  · rcases h2 with rfl | h2 | ⟨b', t', rfl, h2⟩
    · left; rfl
    · right
      have : 1 * 256 ^ t.length ≤ b.toNat * 256 ^ t.length :=
        Nat.mul_le_mul_right _ (Nat.pos_of_ne_zero fun h0 => h2 (BitVec.eq_of_toNat_eq h0))
      simp only [List.length_cons, Nat.add_sub_cancel]; omega
    · right
      rw [Der.beNat_cons]
      have : 128 * 256 ^ t'.length ≤ b'.toNat * 256 ^ t'.length := Nat.mul_le_mul_right _ h2
      simp only [List.length_cons, Nat.add_sub_cancel, Nat.pow_succ]
      omega

/-- The number of content octets of a DER INTEGER. -/
theorem minimalNonneg_length {l : List Byte} (h : MinimalNonneg l) : l.length = Nat.size (beNat l) / 8 + 1 := by
  obtain ⟨h0, h1, h2⟩ := minimalNonneg_bounds h
  obtain ⟨k, hk⟩ : ∃ k, l.length = k + 1 := ⟨l.length - 1, by omega⟩
  rw [hk] at h1 h2 ⊢
  simp only [Nat.add_sub_cancel] at h2
  have u : Nat.size (beNat l) ≤ 8 * k + 7 := by
    apply Nat.size_le.mpr
    have : (256 : Nat) ^ (k + 1) = 2 * 2 ^ (8 * k + 7) := by
      rw [show (256 : Nat) = 2 ^ 8 from rfl, ← Nat.pow_mul, ← Nat.pow_succ']; congr 1
    omega
  have lo : 8 * k ≤ Nat.size (beNat l) := by
    rcases h2 with h2 | h2
    · omega
    · by_cases hk0 : k = 0
      · omega
      · apply Nat.le_of_pred_lt
        apply Nat.lt_size.mpr
        have : (256 : Nat) ^ k = 2 * 2 ^ (8 * k - 1) := by
          rw [show (256 : Nat) = 2 ^ 8 from rfl, ← Nat.pow_mul, ← Nat.pow_succ']; congr 1; omega
        show 2 ^ (8 * k - 1) ≤ _
        omega
  omega

/-- The word count of a placed integer. -/
theorem Inv.count {h : Nat} {m0 m : Mem} {r : Nat} {L : List Ent} {X : List (Nat × W)} (I : Inv h m0 m r L X)
    (hs : 4 * (h + r) < 2 ^ 32) {e : Ent} (he : e ∈ L) {f v : Nat} (hh : e.Holds f v) : ctxCount m f = 2 + (Nat.size v / 8 + 5) / 4 := by
  have := (I.at hs he hh.full).2.1
  obtain ⟨rfl, c, -, rfl, h4, -, h5⟩ := hh
  have := minimalNonneg_length h5
  unfold bytesWcnt at h4
  omega

theorem topbit_size (x : List W) (h : x ≠ []) : (topbit x).getD 0 = Nat.size (val x) := by
  obtain ⟨t, h1, h2, h3⟩ := Props.C06_topbit x h
  rw [h1, Option.getD_some]
  apply Nat.le_antisymm
  · rcases h3 with h3 | h3
    · omega
    · by_contra hc
      have : val x < 2 ^ Nat.size (val x) := Nat.lt_size_self _
      have := Nat.pow_le_pow_right (n := 2) (by decide) (show Nat.size (val x) ≤ t - 1 by omega)
      omega
  · exact Nat.size_le.mpr h2

end RsaDer
