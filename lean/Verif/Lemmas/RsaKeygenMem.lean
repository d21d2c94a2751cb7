import Verif.Lemmas.RsaKeygenOdd
import Verif.Lemmas.RsaDerMem

/-! RSA key generation: objects in the context. -/

namespace RsaKeygen
open Vlong Spec RsaDer

/-- The integer object at word `i` is `v`. -/
def Holds (m : Mem) (i : Nat) (v : List W) : Prop :=
  v.length < 2 ^ 32 ∧ m i = BitVec.ofNat 32 v.length ∧ ∀ t (h : t < v.length), m (i + 1 + t) = v[t]

theorem Holds.vlong {m : Mem} {i : Nat} {v : List W} (h : Holds m i v) : m.vlong i = v := by
  unfold Mem.vlong
  rw [h.2.1, BitVec.toNat_ofNat, Nat.mod_eq_of_lt h.1]
  apply List.ext_getElem
  · simp
  · intro t h1 h2
    simp [h.2.2 t h2]

theorem Holds.congr {m m' : Mem} {i : Nat} {v : List W} (h : Holds m i v)
    (hm : ∀ j, i ≤ j → j < i + 1 + v.length → m' j = m j) : Holds m' i v := by
  refine ⟨h.1, ?_, fun t ht => ?_⟩
  · rw [hm i (by omega) (by omega)]; exact h.2.1
  · rw [hm _ (by omega) (by omega)]; exact h.2.2 t ht

theorem wr_holds (m : Mem) (i : Nat) (v : List W) (h : v.length < 2 ^ 32) : Holds (m.wr i v) i v := by
  refine ⟨h, by simp [Mem.wr], fun t ht => ?_⟩
  unfold Mem.wr
  rw [if_neg (by omega), if_pos (by omega)]
  have : i + 1 + t - i - 1 = t := by omega
  rw [this, List.getD_eq_getElem?_getD, List.getElem?_eq_getElem ht]; rfl

theorem wr_out (m : Mem) (i : Nat) (v : List W) {j : Nat} (h : j < i ∨ i + 1 + v.length ≤ j) : m.wr i v j = m j := by
  unfold Mem.wr
  rw [if_neg (by omega), if_neg (by omega)]

theorem scratch_out (m : Mem) (lo hi : Nat) (g : Nat → W) {j : Nat} (h : j < lo ∨ hi ≤ j) : scratch m lo hi g j = m j := by
  unfold scratch
  rw [if_neg (by omega)]

/-- Writing the words an object already has changes nothing. -/
theorem wr_same {m : Mem} {i : Nat} {v : List W} (h : Holds m i v) : m.wr i v = m := by
  funext j
  unfold Mem.wr
  split
  · rename_i hj; rw [hj]; exact h.2.1.symm
  split
  · rename_i h1 h2
    rw [List.getD_eq_getElem?_getD, List.getElem?_eq_getElem (by omega)]
    have := h.2.2 (j - i - 1) (by omega)
    rw [show i + 1 + (j - i - 1) = j by omega] at this
    exact this.symm
  · rfl

theorem wr_wr (m : Mem) (i : Nat) (v w : List W) (h : v.length = w.length) : (m.wr i v).wr i w = m.wr i w := by
  funext j
  unfold Mem.wr
  split
  · rfl
  · split
    · rfl
    · rename_i h1 h2
      rw [if_neg (by omega)]

/-- A header word, the first word of the object it locates, and the words of the object. -/
structure Obj where
  fld : Nat
  off : Nat
  v : List W

/-- What key generation maintains: the objects `L` (the last one first) below `ul`, the scalars `X`; the header words `pend` are not set
yet; nothing from `lim` on is touched. -/
structure KInv (h lim : Nat) (m0 m : Mem) (ul : Nat) (L : List Obj) (X : List (Nat × W)) (pend : List Nat) : Prop where
  holds : ∀ o ∈ L, Holds m o.off o.v
  at_ : ∀ o ∈ L, o.fld ∉ pend → m o.fld = BitVec.ofNat 32 (4 * o.off)
  fld : ∀ o ∈ L, o.fld < h
  off : ∀ o ∈ L, h ≤ o.off ∧ o.off + 1 + o.v.length ≤ ul
  disj : L.Pairwise fun a b => b.off + 1 + b.v.length ≤ a.off
  nodup : (L.map (·.fld) ++ X.map (·.1)).Nodup
  sc : ∀ x ∈ X, m x.1 = x.2 ∧ x.1 < h
  out : ∀ j, lim ≤ j → m j = m0 j
  ge : h ≤ ul

theorem pairwise_either {α : Type} {R : α → α → Prop} {L : List α} (hp : L.Pairwise R) :
    ∀ a ∈ L, ∀ b ∈ L, a ≠ b → R a b ∨ R b a := by
  induction L with
  | nil => simp
  | cons x L ih =>
    obtain ⟨h1, h2⟩ := List.pairwise_cons.mp hp
    intro a ha b hb hne
    rcases List.mem_cons.mp ha with rfl | ha'
    · rcases List.mem_cons.mp hb with rfl | hb
      · exact absurd rfl hne
      · exact Or.inl (h1 b hb)
    · rcases List.mem_cons.mp hb with rfl | hb
      · exact Or.inr (h1 a ha')
      · exact ih h2 a ha' b hb hne

variable {h lim : Nat} {m0 m m' : Mem} {ul : Nat} {L : List Obj} {X : List (Nat × W)} {pend : List Nat}

theorem KInv.nfld (I : KInv h lim m0 m ul L X pend) {f : Nat} (hn : f ∉ L.map (·.fld) ++ X.map (·.1)) :
    (∀ o ∈ L, o.fld ≠ f) ∧ ∀ x ∈ X, x.1 ≠ f :=
  ⟨fun o ho hc => hn (List.mem_append_left _ (List.mem_map.mpr ⟨o, ho, hc⟩)),
    fun x hx hc => hn (List.mem_append_right _ (List.mem_map.mpr ⟨x, hx, hc⟩))⟩

/-- Work in the free memory. -/
theorem KInv.frame (I : KInv h lim m0 m ul L X pend) (hm : ∀ j, j < ul ∨ lim ≤ j → m' j = m j) : KInv h lim m0 m' ul L X pend := by
  have hge := I.ge
  refine ⟨?_, ?_, I.fld, I.off, I.disj, I.nodup, ?_, ?_, I.ge⟩
  · intro o ho
    have := I.off o ho
    exact (I.holds o ho).congr fun j _ _ => hm j (by omega)
  · intro o ho hp
    have := I.fld o ho
    rw [hm _ (by omega)]; exact I.at_ o ho hp
  · intro x hx
    have := (I.sc x hx).2
    rw [hm _ (by omega)]; exact I.sc x hx
  · intro j hj
    rw [hm j (by omega), I.out j hj]

/-- A new object. -/
theorem KInv.add (I : KInv h lim m0 m ul L X pend) {f : Nat} {v : List W} (hf : f < h) (hn : f ∉ L.map (·.fld) ++ X.map (·.1))
    (hv : Holds m' ul v) (hp : f ∉ pend → m' f = BitVec.ofNat 32 (4 * ul)) (hlim : ul ≤ lim)
    (hm : ∀ j, j < ul ∨ lim ≤ j → j ≠ f → m' j = m j) :
    KInv h lim m0 m' (ul + 1 + v.length) (⟨f, ul, v⟩ :: L) X pend := by
  have hge := I.ge
  obtain ⟨nL, nX⟩ := I.nfld hn
  refine ⟨?_, ?_, ?_, ?_, ?_, ?_, ?_, ?_, by omega⟩
  · intro o ho
    rcases List.mem_cons.mp ho with rfl | ho
    · exact hv
    · have := I.off o ho
      exact (I.holds o ho).congr fun j _ _ => hm j (by omega) (by omega)
  · intro o ho hq
    rcases List.mem_cons.mp ho with rfl | ho
    · exact hp hq
    · have := I.fld o ho
      rw [hm _ (by omega) (nL o ho)]; exact I.at_ o ho hq
  · intro o ho
    rcases List.mem_cons.mp ho with rfl | ho
    · exact hf
    · exact I.fld o ho
  · intro o ho
    rcases List.mem_cons.mp ho with rfl | ho
    · exact ⟨hge, by simp⟩
    · have := I.off o ho; omega
  · refine List.pairwise_cons.mpr ⟨fun o ho => (I.off o ho).2, I.disj⟩
  · simp only [List.map_cons, List.cons_append, List.nodup_cons]
    exact ⟨hn, I.nodup⟩
  · intro x hx
    have := (I.sc x hx).2
    rw [hm _ (by omega) (nX x hx)]; exact I.sc x hx
  · intro j hj
    rw [hm j (by omega) (by omega), I.out j hj]

/-- An object gets other words. -/
theorem KInv.set (I : KInv h lim m0 m ul L X pend) {f i : Nat} {v v' : List W} (ho : ⟨f, i, v⟩ ∈ L) (hl : v'.length = v.length)
    (hv : Holds m' i v') (hm : ∀ j, (j < ul ∨ lim ≤ j) → (j < i ∨ i + 1 + v.length ≤ j) → m' j = m j) (hlim : ul ≤ lim) :
    KInv h lim m0 m' ul (L.map fun o => if o.fld = f then ⟨f, i, v'⟩ else o) X pend := by
  have hge := I.ge
  have hoff := I.off _ ho
  simp only at hoff
  have uniq : ∀ o ∈ L, o.fld = f → o = ⟨f, i, v⟩ := by
    intro o h1 h2
    have nd : (L.map (·.fld)).Nodup := I.nodup.sublist (List.sublist_append_left _ _)
    exact List.inj_on_of_nodup_map nd h1 ho h2
  have dis : ∀ o ∈ L, o.fld ≠ f → o.off + 1 + o.v.length ≤ i ∨ i + 1 + v.length ≤ o.off := by
    intro o h1 h2
    have hp := I.disj
    have := pairwise_either hp
    rcases this o h1 _ ho (fun hc => h2 (by rw [hc])) with h3 | h3
    · right; exact h3
    · left; exact h3
  have fldmap : (L.map fun o => if o.fld = f then (⟨f, i, v'⟩ : Obj) else o).map (·.fld) = L.map (·.fld) := by
    rw [List.map_map]
    apply List.map_congr_left
    intro o _
    simp only [Function.comp]
    split
    · rename_i hh; exact hh.symm
    · rfl
  refine ⟨?_, ?_, ?_, ?_, ?_, ?_, ?_, ?_, I.ge⟩
  · intro o h1
    obtain ⟨o', h2, rfl⟩ := List.mem_map.mp h1
    split
    · exact hv
    · rename_i hne
      have := I.off o' h2
      have := dis o' h2 hne
      exact (I.holds o' h2).congr fun j _ _ => hm j (by omega) (by omega)
  · intro o h1 hq
    obtain ⟨o', h2, rfl⟩ := List.mem_map.mp h1
    have key : o'.fld ∉ pend → m' o'.fld = BitVec.ofNat 32 (4 * o'.off) := by
      intro hq
      have := I.fld o' h2
      rw [hm _ (by omega) (by omega)]; exact I.at_ o' h2 hq
    by_cases hf : o'.fld = f
    · have e := uniq o' h2 hf
      subst e
      simp only [if_true] at hq ⊢
      exact key hq
    · simp only [hf, if_false] at hq ⊢
      exact key hq
  · intro o h1
    obtain ⟨o', h2, rfl⟩ := List.mem_map.mp h1
    split
    · have := I.fld _ ho; exact this
    · exact I.fld o' h2
  · intro o h1
    obtain ⟨o', h2, rfl⟩ := List.mem_map.mp h1
    split
    · simp only; omega
    · exact I.off o' h2
  · rw [List.pairwise_map]
    refine I.disj.imp_of_mem ?_
    intro a b ha hb hab
    by_cases h1 : a.fld = f <;> by_cases h2 : b.fld = f
    · have e1 := uniq a ha h1
      have e2 := uniq b hb h2
      subst e1
      rw [e2] at hab
      simp only at hab
      omega
    · have e1 := uniq a ha h1
      subst e1
      simp only [if_true, h2, if_false]
      exact hab
    · have e1 := uniq b hb h2
      subst e1
      simp only [if_true, h1, if_false]
      rw [hl]; exact hab
    · simp only [h1, h2, if_false]; exact hab
  · rw [fldmap]; exact I.nodup
  · intro x hx
    have := (I.sc x hx).2
    rw [hm _ (by omega) (by omega)]; exact I.sc x hx
  · intro j hj
    rw [hm j (by omega) (by omega), I.out j hj]

/-- The header word of an object is set. -/
theorem KInv.bind (I : KInv h lim m0 m ul L X pend) {f i : Nat} {v : List W} (ho : ⟨f, i, v⟩ ∈ L) (hlim : ul ≤ lim) :
    KInv h lim m0 (m.put f (BitVec.ofNat 32 (4 * i))) ul L X (pend.filter (· ≠ f)) := by
  have hge := I.ge
  have hfh := I.fld _ ho
  simp only at hfh
  have uniq : ∀ o ∈ L, o.fld = f → o = ⟨f, i, v⟩ := by
    intro o h1 h2
    have nd : (L.map (·.fld)).Nodup := I.nodup.sublist (List.sublist_append_left _ _)
    exact List.inj_on_of_nodup_map nd h1 ho h2
  refine ⟨?_, ?_, I.fld, I.off, I.disj, I.nodup, ?_, ?_, I.ge⟩
  · intro o h1
    have := I.off o h1
    exact (I.holds o h1).congr fun j _ _ => put_ne _ _ (by omega)
  · intro o h1 hq
    by_cases hf : o.fld = f
    · rw [uniq o h1 hf]; exact put_self _ _ _
    · rw [put_ne _ _ hf]
      exact I.at_ o h1 (fun hc => hq (List.mem_filter.mpr ⟨hc, by simpa using hf⟩))
  · intro x hx
    have hne : x.1 ≠ f := by
      intro hc
      have := List.disjoint_of_nodup_append I.nodup (a := f) (List.mem_map.mpr ⟨_, ho, rfl⟩) (List.mem_map.mpr ⟨x, hx, hc⟩)
      exact this
    rw [put_ne _ _ hne]; exact I.sc x hx
  · intro j hj
    rw [put_ne _ _ (by omega), I.out j hj]

/-- Reading through a header word. -/
theorem KInv.read (I : KInv h lim m0 m ul L X pend) (hul : 4 * ul < 2 ^ 32) {o : Obj} (ho : o ∈ L) (hp : o.fld ∉ pend) :
    m.at_ o.fld = o.off ∧ m.vlong o.off = o.v := by
  have := I.off o ho
  exact ⟨put_at (by omega) (I.at_ o ho hp), (I.holds o ho).vlong⟩

/-- The final layout. -/
theorem KInv.inv (I : KInv h lim m0 m ul L X []) (hout : ∀ j, ul ≤ j → m j = m0 j) :
    Inv h m0 m (ul - h) (L.map fun o => ⟨o.fld, o.off, o.v.length + 1, BitVec.ofNat 32 o.v.length :: o.v⟩) X := by
  have hge := I.ge
  refine ⟨?_, ?_, ?_, ?_, ?_, I.sc, ?_⟩
  · intro e he
    obtain ⟨o, ho, rfl⟩ := List.mem_map.mp he
    refine ⟨I.at_ o ho (by simp), fun t ht => ?_⟩
    have hh := I.holds o ho
    simp only at ht ⊢
    cases t with
    | zero => simpa using hh.2.1
    | succ t =>
      simp only [List.length_cons] at ht
      rw [List.getElem_cons_succ]
      have := hh.2.2 t (by omega)
      rw [← this]; congr 1; omega
  · intro e he
    obtain ⟨o, ho, rfl⟩ := List.mem_map.mp he
    exact I.fld o ho
  · intro e he
    obtain ⟨o, ho, rfl⟩ := List.mem_map.mp he
    have := I.off o ho
    simp only [List.length_cons]; omega
  · rw [List.pairwise_map]
    refine I.disj.imp ?_
    intro a b hab
    simp only; omega
  · rw [List.map_map]
    exact I.nodup
  · intro j hj
    exact hout j (by omega)

end RsaKeygen
