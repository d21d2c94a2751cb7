import Verif.Lemmas.RsaKeygenMem

/-! RSA key generation: the phases. -/

namespace RsaKeygen
open Vlong Spec RsaDer NumTheory

variable {h lim : Nat} {m0 m m' : Mem} {ul : Nat} {L : List Obj} {X : List (Nat × W)} {pend : List Nat}

theorem KInv.add' (I : KInv h lim m0 m ul L X pend) {f len : Nat} {v : List W} (hlen : v.length = len) (hf : f < h)
    (hn : f ∉ L.map (·.fld) ++ X.map (·.1))
    (hv : Holds m' ul v) (hp : f ∉ pend → m' f = BitVec.ofNat 32 (4 * ul)) (hlim : ul ≤ lim)
    (hm : ∀ j, j < ul ∨ lim ≤ j → j ≠ f → m' j = m j) :
    KInv h lim m0 m' (ul + (len + 1)) (⟨f, ul, v⟩ :: L) X pend := by
  have := I.add hf hn hv hp hlim hm
  rw [show ul + (len + 1) = ul + 1 + v.length by omega]; exact this

/-! ## The primes -/

/-- The words of a prime: a candidate that the primality test took. -/
structure Prm (rng : Rng) (mf f b : Nat) (w : List W) : Prop where
  len : w.length = f
  cand : ∃ k, genOdd b (rng k) = some w ∧ millerRabin w 5 (fun i => rng (k + 1 + i)) mf = some true

theorem Prm.odd {rng : Rng} {mf f b : Nat} {w : List W} (hp : Prm rng mf f b w) (hb : b ≤ 32 * f) :
    val w % 2 = 1 ∧ 31 * 2 ^ (b - 5) ≤ val w ∧ val w < 2 ^ b ∧ 33 ≤ b := by
  obtain ⟨k, h1, -⟩ := hp.cand
  have hl := genOdd_length h1
  have hlen := hp.len
  have := genOdd_odd (bits := b) (d := rng k) (by rw [← hl.1, hlen]; exact hb) h1
  exact ⟨this.1, this.2.1, this.2.2, hl.2⟩

theorem Prm.big {rng : Rng} {mf f b : Nat} {w : List W} (hp : Prm rng mf f b w) (hb : b ≤ 32 * f) : 2 < val w := by
  obtain ⟨-, h1, -, h2⟩ := hp.odd hb
  have : 1 ≤ 2 ^ (b - 5) := Nat.one_le_two_pow
  omega

theorem search_spec {rng : Rng} {junk : Junk} {mf f b ul : Nat} (hrng : ∀ k, (rng k).length = f) (hf : f < 2 ^ 32) :
    ∀ (fuel : Nat) (s s' : St), search rng junk mf f b ul fuel s = some s' →
      ∃ w, Prm rng mf f b w ∧ Holds s'.m ul w ∧ ∀ j, j < ul ∨ ul + 4 * (f + 1) ≤ j → s'.m j = s.m j := by
  intro fuel
  induction fuel with
  | zero => intro s s' h; simp [search] at h
  | succ fuel ih =>
    intro s s' h
    rw [search] at h
    cases hg : genOdd b (rng s.k) with
    | none => rw [hg] at h; simp at h
    | some w =>
      rw [hg] at h
      simp only at h
      have hl : w.length = f := (genOdd_length hg).1.trans (hrng _)
      cases hr : mrRun w rng mf (s.k + 1) 5 with
      | none => rw [hr] at h; simp at h
      | some x =>
        obtain ⟨r, k⟩ := x
        rw [hr] at h
        simp only at h
        have fr : ∀ j, j < ul ∨ ul + 4 * (f + 1) ≤ j →
            scratch (s.m.wr ul w) (ul + (f + 1)) (ul + 4 * (f + 1)) (junk 0 k) j = s.m j := by
          intro j hj
          rw [scratch_out _ _ _ _ (by omega), wr_out _ _ _ (by rw [hl]; omega)]
        cases r with
        | true =>
          simp only [if_true, Option.some.injEq] at h
          subst h
          refine ⟨w, ⟨hl, s.k, hg, mrRun_mr hr⟩, ?_, fr⟩
          exact (wr_holds _ _ _ (by omega)).congr fun j h1 h2 => scratch_out _ _ _ _ (by omega)
        | false =>
          simp only [Bool.false_eq_true, if_false] at h
          obtain ⟨w', h1, h2, h3⟩ := ih _ _ h
          exact ⟨w', h1, h2, fun j hj => (h3 j hj).trans (fr j hj)⟩

theorem primes_spec {rng : Rng} {junk : Junk} {mf cf f b : Nat} (hrng : ∀ k, (rng k).length = f) (hf : f < 2 ^ 32) :
    ∀ (flds : List Nat) (ul : Nat) (s s' : St) (ul' : Nat) (L : List Obj), primes rng junk mf cf f b flds ul s = some (s', ul') →
      KInv h lim m0 s.m ul L X [] → (flds ++ (L.map (·.fld) ++ X.map (·.1))).Nodup → (∀ x ∈ flds, x < h) →
      ul + (flds.length + 3) * (f + 1) ≤ lim →
      ∃ (L' : List Obj) (P : Nat → List W), ul' = ul + flds.length * (f + 1) ∧ KInv h lim m0 s'.m ul' (L' ++ L) X [] ∧
        L'.map (·.fld) = flds.reverse ∧ ∀ x ∈ flds, Prm rng mf f b (P x) ∧ ∃ i, ⟨x, i, P x⟩ ∈ L' := by
  intro flds
  induction flds with
  | nil =>
    intro ul s s' ul' L hs I _ _ _
    simp only [primes, Option.some.injEq, Prod.mk.injEq] at hs
    obtain ⟨rfl, rfl⟩ := hs
    exact ⟨[], fun _ => [], by simp, by simpa using I, by simp, by simp⟩
  | cons fld flds ih =>
    intro ul s s' ul' L hs I hn hh hlim
    rw [primes] at hs
    cases h1 : search rng junk mf f b ul cf s with
    | none => rw [h1] at hs; simp at hs
    | some s1 =>
      rw [h1] at hs
      simp only [Option.bind_eq_bind, Option.bind_some] at hs
      obtain ⟨w, hw, hholds, hfr⟩ := search_spec hrng hf _ _ _ h1
      simp only [List.length_cons, Nat.add_mul] at hlim
      simp only [List.cons_append, List.nodup_cons] at hn
      have hfl : fld < h := hh fld (by simp)
      have hge := I.ge
      have I1 : KInv h lim m0 (s1.m.put fld (BitVec.ofNat 32 (4 * ul))) (ul + (f + 1)) (⟨fld, ul, w⟩ :: L) X [] := by
        refine I.add' hw.len hfl (fun hc => hn.1 (List.mem_append_right _ hc)) ?_ (fun _ => put_self _ _ _) (by omega) ?_
        · exact hholds.congr fun j h1 h2 => put_ne _ _ (by omega)
        · intro j hj hjf
          rw [put_ne _ _ hjf, hfr j (by omega)]
      obtain ⟨L', P, e1, I2, e2, e3⟩ := ih (ul + (f + 1)) _ s' ul' _ hs I1
        (by
          simp only [List.map_cons, List.cons_append]
          refine List.nodup_middle.mpr ?_
          simp only [List.nodup_cons]
          exact hn) (fun x hx => hh x (by simp [hx])) (by rw [Nat.add_mul]; omega)
      refine ⟨L' ++ [⟨fld, ul, w⟩], fun x => if x = fld then w else P x, ?_, ?_, ?_, ?_⟩
      · rw [e1]; simp only [List.length_cons, Nat.add_mul]; omega
      · simpa using I2
      · simp [e2]
      · intro x hx
        rcases List.mem_cons.mp hx with rfl | hx
        · simp only [if_true]
          exact ⟨hw, ul, by simp⟩
        · have hne : x ≠ fld := fun hc => hn.1 (List.mem_append_left _ (hc ▸ hx))
          simp only [hne, if_false]
          obtain ⟨a, i, hi⟩ := e3 x hx
          exact ⟨a, i, List.mem_append_left _ hi⟩

/-! ## The private exponent -/

theorem length_small (c : Nat) (x : W) : (small c x).length = c := by simp [small]

theorem val_small (c : Nat) (x : W) (hc : 0 < c) : val (small c x) = x.toNat := by
  obtain ⟨c, rfl⟩ : ∃ k, c = k + 1 := ⟨c - 1, by omega⟩
  unfold small
  rw [List.range_succ_eq_map]
  simp only [List.map_cons, if_true, List.map_map, val]
  have : ∀ l : List Nat, val (l.map ((fun i => if i = 0 then x else 0) ∘ Nat.succ)) = 0 := by
    intro l
    induction l with
    | nil => rfl
    | cons a l ih => simp [val]; exact ih
  rw [this]; omega

theorem adds_pred (r : List W) (hr : 0 < val r) :
    (adds r.length r (-1#64) 0).length = r.length ∧ val (adds r.length r (-1#64) 0) = val r - 1 := by
  obtain ⟨h1, h2⟩ := Props.C01_adds r.length r (-1#64) 0 (by decide) (by decide)
  refine ⟨h1, ?_⟩
  have hlt := val_lt r
  have e : ((-1#64 : BitVec 64)).toInt = -1 := by decide
  rw [e] at h2
  rw [Int.emod_eq_of_lt (by simp; omega) (by simp only [Nat.mul_zero, Int.pow_zero, Int.mul_one]; push_cast [← Int.natCast_pow] at hlt ⊢; have : ((val r : Nat) : Int) < ((2 ^ (32 * r.length) : Nat) : Int) := by exact_mod_cast hlt
                                             push_cast at this; omega)] at h2
  simp only [Nat.mul_zero, Int.pow_zero, Int.mul_one] at h2
  omega

theorem adds_succ (r r' : List W) (hl : r'.length = r.length) (hr : 0 < val r) (h : val r' = val r - 1) : adds r'.length r' 1#64 0 = r := by
  obtain ⟨h1, h2⟩ := Props.C01_adds r'.length r' 1#64 0 (by decide) (by decide)
  apply val_inj (by omega)
  have hlt := val_lt r
  have e : ((1#64 : BitVec 64)).toInt = 1 := by decide
  rw [e, hl] at h2
  have h3 : ((val r : Nat) : Int) < 2 ^ (32 * r.length) := by exact_mod_cast hlt
  rw [Int.emod_eq_of_lt (by simp; omega) (by simp only [Nat.mul_zero, Int.pow_zero, Int.mul_one]; omega)] at h2
  simp only [Nat.mul_zero, Int.pow_zero, Int.mul_one] at h2
  rw [hl]
  omega

/-- Two equal objects at the same place. -/
theorem wr_in (m m' : Mem) (i : Nat) (v : List W) {j : Nat} (h1 : i ≤ j) (h2 : j < i + 1 + v.length) : m.wr i v j = m'.wr i v j := by
  unfold Mem.wr
  split
  · rfl
  · rw [if_pos (by omega), if_pos (by omega)]

theorem mulPhi_spec {vm fld i : Nat} {r v : List W} (I : KInv h lim m0 m ul L X pend) (hul : 4 * ul < 2 ^ 32) (hvm : vm < 2 ^ 32)
    (ho : ⟨fld, i, r⟩ ∈ L) (hp : fld ∉ pend) (hr : 0 < val r) (hv : Holds m ul v) (hlv : v.length = vm)
    (hlt : val v * (val r - 1) < 2 ^ (32 * vm)) :
    ∃ m' v', mulPhi vm ul m fld = some m' ∧ Holds m' ul v' ∧ v'.length = vm ∧ val v' = val v * (val r - 1) ∧
      ∀ j, j < ul ∨ ul + 2 * (vm + 1) ≤ j → m' j = m j := by
  obtain ⟨e1, e2⟩ := I.read hul ho hp
  simp only at e1 e2
  have hfh := I.fld _ ho
  have hoff := I.off _ ho
  simp only at hfh hoff
  have hholds := I.holds _ ho
  simp only at hholds
  have hr32 := hholds.1
  obtain ⟨l1, v1⟩ := adds_pred r hr
  have hne : r ≠ [] := by rintro rfl; simp [val] at hr
  generalize hr' : adds r.length r (-1#64) 0 = r' at l1 v1
  have hne' : r' ≠ [] := by
    intro hc; rw [hc] at l1; simp only [List.length_nil] at l1
    exact hne (List.length_eq_zero_iff.mp l1.symm)
  obtain ⟨⟨t1, ht, lt, vt⟩, -⟩ := Props.C03_mulv_plain vm v r' hne'
  rw [v1, Nat.mod_eq_of_lt hlt] at vt
  have b1 : bump m i (-1#64) = m.wr i r' := by unfold bump; rw [e2, hr']
  have a1 : (m.wr i r').at_ fld = i := by
    unfold Mem.at_; rw [wr_out _ _ _ (by omega)]; exact e1
  have a2 : (m.wr i r').vlong ul = v := (hv.congr fun j h1 h2 => wr_out _ _ _ (by omega)).vlong
  have a3 : (m.wr i r').vlong i = r' := (wr_holds _ _ _ (by omega)).vlong
  have c1 : ((m.wr i r').wr (ul + (vm + 1)) t1).at_ fld = i := by
    unfold Mem.at_; rw [wr_out _ _ _ (by omega)]; exact a1
  have c2 : ((m.wr i r').wr (ul + (vm + 1)) t1).vlong i = r' :=
    ((wr_holds m i r' (by omega)).congr fun j h1 h2 => wr_out _ _ _ (by omega)).vlong
  have b2 : bump ((m.wr i r').wr (ul + (vm + 1)) t1) i 1#64 = ((m.wr i r').wr (ul + (vm + 1)) t1).wr i r := by
    unfold bump; rw [c2, adds_succ r r' l1 hr v1]
  have d1 : (((m.wr i r').wr (ul + (vm + 1)) t1).wr i r).vlong (ul + (vm + 1)) = t1 :=
    ((wr_holds (m.wr i r') (ul + (vm + 1)) t1 (by omega)).congr fun j h1 h2 => wr_out _ _ _ (by omega)).vlong
  refine ⟨(((m.wr i r').wr (ul + (vm + 1)) t1).wr i r).wr ul t1, t1, ?_, wr_holds _ _ _ (by omega), lt, vt, ?_⟩
  · unfold mulPhi
    simp only [e1, b1, a1, a2, a3, ht, Option.bind_eq_bind, Option.bind_some, c1, b2, d1]
    rfl
  · intro j hj
    rw [wr_out _ _ _ (by omega)]
    by_cases hin : i ≤ j ∧ j < i + 1 + r.length
    · rw [wr_in _ m i r hin.1 hin.2, wr_same hholds]
    · rw [wr_out _ i r (by omega), wr_out _ _ _ (by omega), wr_out _ _ _ (by omega)]

theorem phi_spec {vm : Nat} {P : Nat → List W} (I : KInv h lim m0 m ul L X []) (hul : 4 * ul < 2 ^ 32) (hvm : vm < 2 ^ 32)
    (hlim : ul + 2 * (vm + 1) ≤ lim) : ∀ (flds : List Nat) (m : Mem) (v : List W), KInv h lim m0 m ul L X [] →
    (∀ x ∈ flds, 1 < val (P x) ∧ ∃ i, ⟨x, i, P x⟩ ∈ L) →
    Holds m ul v → v.length = vm → 0 < val v → val v * (flds.map fun x => val (P x) - 1).prod < 2 ^ (32 * vm) →
    ∃ m' v', flds.foldlM (mulPhi vm ul) m = some m' ∧ Holds m' ul v' ∧ v'.length = vm ∧
      val v' = val v * (flds.map fun x => val (P x) - 1).prod ∧ ∀ j, j < ul ∨ ul + 2 * (vm + 1) ≤ j → m' j = m j := by
  intro flds
  induction flds with
  | nil =>
    intro m v _ _ hv hl _ _
    exact ⟨m, v, by simp, hv, hl, by simp, by simp⟩
  | cons x flds ih =>
    intro m v I hP hv hl h0 hlt
    obtain ⟨h1, i, hi⟩ := hP x (by simp)
    have hpos : 0 < (flds.map fun x => val (P x) - 1).prod := by
      apply List.prod_pos
      intro a ha
      obtain ⟨y, hy, rfl⟩ := List.mem_map.mp ha
      have := (hP y (by simp [hy])).1
      omega
    simp only [List.map_cons, List.prod_cons] at hlt ⊢
    obtain ⟨m1, v1, e1, hv1, l1, w1, f1⟩ := mulPhi_spec I hul hvm hi (by simp) (by omega) hv hl
      (lt_of_le_of_lt (Nat.mul_le_mul_left _ (Nat.le_mul_of_pos_right _ hpos)) hlt)
    have I1 : KInv h lim m0 m1 ul L X [] := I.frame fun j hj => f1 j (by omega)
    obtain ⟨m2, v2, e2, hv2, l2, w2, f2⟩ := ih m1 v1 I1 (fun y hy => hP y (by simp [hy])) hv1 l1
      (by rw [w1]; exact Nat.mul_pos h0 (by omega)) (by rw [w1, Nat.mul_assoc]; exact hlt)
    refine ⟨m2, v2, ?_, hv2, l2, by rw [w2, w1, Nat.mul_assoc], fun j hj => (f2 j hj).trans (f1 j hj)⟩
    rw [List.foldlM_cons, e1]
    exact e2

/-- The product of the predecessors of the primes. -/
def phi (flds : List Nat) (P : Nat → List W) : Nat := (flds.map fun x => val (P x) - 1).prod

theorem exponent_spec {junk : Junk} {vm : Nat} {flds : List Nat} {P : Nat → List W} {s : St}
    (I : KInv h lim m0 s.m ul L X []) (hul : 4 * ul < 2 ^ 32) (hvm : vm < 2 ^ 32) (hvm0 : 0 < vm)
    (hlim : ul + 7 * (vm + 1) ≤ lim) (hP : ∀ x ∈ flds, 1 < val (P x) ∧ ∃ i, ⟨x, i, P x⟩ ∈ L)
    (h9 : 9 < h) (hn : 9 ∉ L.map (·.fld) ++ X.map (·.1)) (hphi : 1 < phi flds P) (hfit : phi flds P < 2 ^ (32 * vm)) :
    (Nat.gcd 65537 (phi flds P) = 1 → ∃ m' d, exponent junk vm flds ul s = some (.go ⟨m', s.k⟩ (ul + (vm + 1))) ∧
      KInv h lim m0 m' (ul + (vm + 1)) (⟨9, ul, d⟩ :: L) X [] ∧ d.length = vm ∧ val d < phi flds P ∧
      val d * 65537 % phi flds P = 1) ∧
    (Nat.gcd 65537 (phi flds P) ≠ 1 → ∃ m', exponent junk vm flds ul s = some (.restart ⟨m', s.k⟩) ∧
      KInv h lim m0 m' ul L X []) := by
  have I1 : KInv h lim m0 (s.m.wr ul (small vm 1#32)) ul L X [] := I.frame fun j hj => wr_out _ _ _ (by rw [length_small]; omega)
  have hh1 := wr_holds s.m ul (small vm 1#32) (by rw [length_small]; exact hvm)
  have hs1 : val (small vm 1#32) = 1 := val_small _ _ hvm0
  obtain ⟨m2, v, e2, hv2, l2, w2, f2⟩ := phi_spec (P := P) I1 hul hvm (by omega) flds _ _ I1 hP hh1 (length_small _ _)
    (by rw [hs1]; decide) (by rw [hs1, Nat.one_mul]; exact hfit)
  rw [hs1, Nat.one_mul] at w2
  change val v = phi flds P at w2
  have I2 : KInv h lim m0 m2 ul L X [] := I1.frame fun j hj => f2 j (by omega)
  generalize ht5 : ul + 5 * (vm + 1) = t5
  generalize ht6 : ul + 6 * (vm + 1) = t6
  have l65 : (small vm 65537#32).length = vm := length_small _ _
  have v65 : val (small vm 65537#32) = 65537 := val_small _ _ hvm0
  have a1 : (m2.wr t5 (small vm 65537#32)).vlong ul = v := (hv2.congr fun j h1 h2 => wr_out _ _ _ (by rw [l65]; omega)).vlong
  generalize hm3 : m2.wr t5 (small vm 65537#32) = m3 at a1
  have a2 : (m3.wr t6 v).vlong ul = v := by
    refine (hv2.congr fun j h1 h2 => ?_).vlong
    rw [wr_out _ _ _ (by omega), ← hm3, wr_out _ _ _ (by rw [l65]; omega)]
  have a3 : (m3.wr t6 v).vlong t5 = small vm 65537#32 := by
    rw [← hm3]
    exact ((wr_holds m2 t5 _ (by rw [l65]; exact hvm)).congr fun j h1 h2 => wr_out _ _ _ (by rw [l65] at h2; omega)).vlong
  have hh4 : Holds (m3.wr t6 v) t6 v := wr_holds _ _ _ (by omega)
  generalize hm4 : m3.wr t6 v = m4 at a2 a3 hh4
  have f4 : ∀ j, j < ul ∨ lim ≤ j → m4 j = m2 j := by
    intro j hj
    rw [← hm4, wr_out _ _ _ (by omega), ← hm3, wr_out _ _ _ (by rw [l65]; omega)]
  have fr : ∀ g, KInv h lim m0 (scratch m4 ul t6 g) ul L X [] := fun g => I2.frame fun j hj => by
    rw [scratch_out _ _ _ _ (by omega), f4 j hj]
  obtain ⟨g1, g2⟩ := Props.C36_egcd vm 65539 (small vm 65537#32) v hvm0 l65 l2 (by rw [v65])
  rw [v65, w2] at g1 g2
  constructor
  · intro hg
    obtain ⟨y, ey, ly, -⟩ := g1 hg
    obtain ⟨b1, b2⟩ := Props.C36_egcd_imod vm 65539 (small vm 65537#32) v y hvm0 l65 l2 (by rw [w2]; exact hphi) (by rw [v65]) ey
    rw [w2] at b1
    rw [w2, v65] at b2
    have lz : (imodInplace y v).length = vm := by
      rw [(Props.C04_imod y v (by rintro rfl; simp at ly; omega) (by omega) (by omega)).1, ly]
    have c1 : ((scratch m4 ul t6 (junk 1 s.k)).wr ul y).vlong ul = y := (wr_holds _ _ _ (by omega)).vlong
    have c2 : ((scratch m4 ul t6 (junk 1 s.k)).wr ul y).vlong t6 = v := by
      refine (hh4.congr fun j h1 h2 => ?_).vlong
      rw [wr_out _ _ _ (by omega), scratch_out _ _ _ _ (by omega)]
    refine ⟨((((scratch m4 ul t6 (junk 1 s.k)).wr ul y).wr ul (imodInplace y v)).put 9 (BitVec.ofNat 32 (4 * ul))), imodInplace y v,
      ?_, ?_, lz, b1, b2⟩
    · unfold exponent
      simp only [e2, Option.bind_eq_bind, Option.bind_some, ht5, ht6, hm3, a1, hm4, a2, a3, ey, c1, c2]
      rfl
    · have hge := I.ge
      refine (fr (junk 1 s.k)).add' lz h9 hn ?_ (fun _ => put_self _ _ _) (by omega) ?_
      · exact (wr_holds _ _ _ (by omega)).congr fun j h1 h2 => put_ne _ _ (by omega)
      · intro j hj hj9
        rw [put_ne _ _ hj9, wr_out _ _ _ (by omega), wr_out _ _ _ (by omega)]
  · intro hg
    refine ⟨scratch m4 ul t6 (junk 1 s.k), ?_, fr _⟩
    unfold exponent
    simp only [e2, Option.bind_eq_bind, Option.bind_some, ht5, ht6, hm3, a1, hm4, a2, a3, g2 hg]
    rfl

end RsaKeygen
