import Verif.Lemmas.RsaKeygenCrt

/-! RSA key generation: one attempt, and the run. -/

namespace RsaKeygen
open Vlong Spec RsaDer NumTheory

theorem mem_primeFlds (c x : Nat) : x ∈ primeFlds c ↔ x = 12 ∨ x = 10 ∨ ∃ i < c - 2, x = 15 + 3 * i := by
  unfold primeFlds
  simp only [List.mem_cons, List.mem_map, List.mem_range]
  constructor
  · rintro (h | h | ⟨i, h1, h2⟩)
    · exact Or.inl h
    · exact Or.inr (Or.inl h)
    · exact Or.inr (Or.inr ⟨i, h1, h2.symm⟩)
  · rintro (h | h | ⟨i, h1, h2⟩)
    · exact Or.inl h
    · exact Or.inr (Or.inl h)
    · exact Or.inr (Or.inr ⟨i, h1, h2.symm⟩)

theorem nodup_primeFlds (c : Nat) : (primeFlds c).Nodup := by
  unfold primeFlds
  simp only [List.nodup_cons, List.mem_cons, List.mem_map, List.mem_range]
  refine ⟨?_, ?_, ?_⟩
  · rintro (h | ⟨i, _, h⟩) <;> omega
  · rintro ⟨i, _, h⟩; omega
  · exact List.Nodup.map (fun a b h => by omega) List.nodup_range

theorem length_primeFlds (c : Nat) (hc : 2 ≤ c) : (primeFlds c).length = c := by
  simp [primeFlds]; omega

theorem KInv.weaken {h lim : Nat} {m0 m : Mem} {ul : Nat} {L : List Obj} {X : List (Nat × W)} (I : KInv h lim m0 m ul L X [])
    (pend : List Nat) : KInv h lim m0 m ul L X pend :=
  ⟨I.holds, fun o ho _ => I.at_ o ho (by simp), I.fld, I.off, I.disj, I.nodup, I.sc, I.out, I.ge⟩

theorem prod_pred_lt (b : Nat) (g : Nat → Nat) : ∀ l : List Nat, (∀ x ∈ l, 0 < g x ∧ g x < 2 ^ b) → (l.map fun x => g x - 1).prod < 2 ^ (b * l.length) ∨ l = [] := by
  intro l
  induction l with
  | nil => intro _; exact Or.inr rfl
  | cons a l ih =>
    intro h
    left
    have ha := h a (by simp)
    have hb : (2 : Nat) ^ (b * (l.length + 1)) = 2 ^ b * 2 ^ (b * l.length) := by rw [← Nat.pow_add]; congr 1; ring
    simp only [List.map_cons, List.prod_cons, List.length_cons, hb]
    rcases ih (fun x hx => h x (by simp [hx])) with hl | rfl
    · exact Nat.mul_lt_mul'' (by omega) hl
    · simp; omega

theorem two_le_prod (g : Nat → Nat) : ∀ l : List Nat, (∀ x ∈ l, 2 ≤ g x) → l ≠ [] → 2 ≤ (l.map g).prod := by
  intro l
  induction l with
  | nil => simp
  | cons a l ih =>
    intro h _
    have ha := h a (by simp)
    simp only [List.map_cons, List.prod_cons]
    by_cases hl : l = []
    · subst hl; simpa using ha
    · have := ih (fun x hx => h x (by simp [hx])) hl
      calc 2 ≤ g a * 1 := by omega
        _ ≤ _ := Nat.mul_le_mul_left _ (by omega)

theorem val_padded (q : List W) (f vm : Nat) (hl : q.length = f) (hvm : f ≤ vm) :
    val ((List.range vm).map fun i => if i < f then rd q i else 0) = val q := by
  have : ((List.range vm).map fun i => if i < f then rd q i else 0) = cpy vm q := by
    unfold cpy
    apply List.map_congr_left
    intro i _
    split
    · rfl
    · unfold rd
      rw [List.getD_eq_getElem?_getD, List.getElem?_eq_none (by omega)]; rfl
  rw [this, val_cpy, Nat.mod_eq_of_lt]
  exact lt_of_lt_of_le (val_lt q) (Nat.pow_le_pow_right (by decide) (by omega))

/-- What a finished attempt leaves in the context; `b`, `f`, `vm`: bits and words of a prime, words of the modulus. -/
structure Facts (rng : Rng) (mf b f vm c h lim : Nat) (m0 m : Mem) (X : List (Nat × W)) (L : List Obj) (P T E : Nat → List W)
    (d n : List W) : Prop where
  inv : KInv h lim m0 m lim L X []
  he : ∃ i, ⟨8, i, [65537#32]⟩ ∈ L
  prime : ∀ x ∈ primeFlds c, Prm rng mf f b (P x) ∧ ∃ i, ⟨x, i, P x⟩ ∈ L
  hd : (∃ i, ⟨9, i, d⟩ ∈ L) ∧ d.length = vm ∧ val d < phi (primeFlds c) P ∧ val d * 65537 % phi (primeFlds c) P = 1
  hn : (∃ i, ⟨7, i, n⟩ ∈ L) ∧ n.length = vm ∧ val n = val (P 10) * pp P 0 (c - 1) ∧ 2 ^ (b * c - 1) ≤ val n ∧ val n < 2 ^ (b * c)
  ht : ∀ k < c - 1, (∃ i, ⟨14 + 3 * k, i, T (14 + 3 * k)⟩ ∈ L) ∧ (T (14 + 3 * k)).length = f ∧
    val (T (14 + 3 * k)) = (val (P 10) * pp P 0 k) ^ (val (P (12 + 3 * k)) - 2) % val (P (12 + 3 * k))
  hx : ∀ x ∈ primeFlds c, (∃ i, ⟨x + 1, i, E x⟩ ∈ L) ∧ (E x).length = f ∧ val (E x) = val d % (val (P x) - 1)
  hw : ∃ u, ∀ k < 5, ⟨k, u + k * (vm + 1), small vm 0#32⟩ ∈ L

/-- The words of the context in use. -/
def lastWord (f vm c : Nat) : Nat := 15 + 3 * (c - 2) + 2 + (3 * c - 1) * (f + 1) + 7 * (vm + 1)

theorem attempt_spec {rng : Rng} {junk : Junk} {mf cf bits c b f vm : Nat} (hc : 2 ≤ c) (hb : bits / c = b) (hf : Pkcs1.bitsWcnt b = f)
    (hv : Pkcs1.bitsWcnt bits = vm) (hrng : ∀ k, (rng k).length = f) (h32 : 4 * lastWord f vm c < 2 ^ 32)
    {m0 : Mem} {s : St} {v5 v6 : W} (K : Keep (15 + 3 * (c - 2)) (lastWord f vm c) m0 s.m [(6, v6), (5, v5)])
    {s1 : St} {ul1 : Nat}
    (hpr : primes rng junk mf cf f b (primeFlds c) (15 + 3 * (c - 2) + 2)
      ⟨(s.m.wr (15 + 3 * (c - 2)) [65537#32]).put 8 (BitVec.ofNat 32 (4 * (15 + 3 * (c - 2)))), s.k⟩ = some (s1, ul1)) :
    ∃ P : Nat → List W, (∀ x ∈ primeFlds c, Prm rng mf f b (P x) ∧ s1.m.vlong (s1.m.at_ x) = P x) ∧
      ∃ out, attempt rng junk mf cf bits c s = some out ∧
      ((∃ s', out = .restart s' ∧ Keep (15 + 3 * (c - 2)) (lastWord f vm c) m0 s'.m [(6, v6), (5, v5)] ∧
        (Nat.gcd 65537 (phi (primeFlds c) P) ≠ 1 ∨ ∃ k < c - 1, val (P 10) * pp P 0 (k + 1) < 2 ^ (b * (k + 2) - 1))) ∨
      ∃ s' ul' L T E d n, out = .go s' ul' ∧ Facts rng mf b f vm c (15 + 3 * (c - 2)) (lastWord f vm c) m0 s'.m [(6, v6), (5, v5)]
        L P T E d n) := by
  have hlw : lastWord f vm c = 15 + 3 * (c - 2) + 2 + (3 * c - 1) * (f + 1) + 7 * (vm + 1) := rfl
  have hfw : 3 ≤ f ∧ b + 32 ≤ 32 * f := by rw [← hf]; unfold Pkcs1.bitsWcnt; omega
  have hvw : 3 ≤ vm ∧ bits ≤ 32 * vm ∧ f ≤ vm := by
    rw [← hv, ← hf]
    have : b ≤ bits := by rw [← hb]; exact Nat.div_le_self _ _
    unfold Pkcs1.bitsWcnt; omega
  have hbc : b * c ≤ bits := by rw [← hb]; exact Nat.div_mul_le_self _ _
  obtain ⟨a, ha⟩ : ∃ a, a = c - 1 := ⟨_, rfl⟩
  have hca : c - 2 + 1 = a := by omega
  have hcm : c * (f + 1) = (f + 1) + a * (f + 1) := by
    rw [show c = 1 + a by omega, Nat.add_mul]; omega
  have hcm3 : (3 * c - 1) * (f + 1) = c * (f + 1) + a * (f + 1) + c * (f + 1) := by
    rw [← Nat.add_mul, ← Nat.add_mul]; congr 1; omega
  have ham : (f + 1) ≤ a * (f + 1) := Nat.le_mul_of_pos_left _ (by omega)
  generalize hlim : lastWord f vm c = lim at *
  generalize hh : 15 + 3 * (c - 2) = h at *
  -- the public exponent
  have I0 := K.start
  have I1 : KInv h lim m0 ((s.m.wr h [65537#32]).put 8 (BitVec.ofNat 32 (4 * h))) (h + 2) [⟨8, h, [65537#32]⟩] [(6, v6), (5, v5)] [] := by
    have := I0.add' (m' := (s.m.wr h [65537#32]).put 8 (BitVec.ofNat 32 (4 * h))) (f := 8) (len := 1) (v := [65537#32]) rfl (by omega)
      (by simp) ((wr_holds _ _ _ (by simp)).congr fun j h1 h2 => put_ne _ _ (by omega)) (fun _ => put_self _ _ _) (by omega)
      (fun j hj hjf => by rw [put_ne _ _ hjf, wr_out _ _ _ (by simp; omega)])
    exact this
  -- the primes
  obtain ⟨Lp, P, hul1, I2, hLp, hP⟩ := primes_spec hrng (by omega) (primeFlds c) (h + 2) _ s1 ul1 _ hpr I1
    (by
      refine List.nodup_append.mpr ⟨nodup_primeFlds c, by simp, ?_⟩
      intro x hx y hy hxy
      subst hxy
      rw [mem_primeFlds] at hx
      simp only [List.map_cons, List.map_nil, List.cons_append, List.nil_append, List.mem_cons, List.not_mem_nil, or_false] at hy
      rcases hx with hx | hx | ⟨i, hi, hx⟩ <;> omega)
    (by
      intro x hx
      rw [mem_primeFlds] at hx
      rcases hx with hx | hx | ⟨i, hi, hx⟩ <;> omega)
    (by rw [length_primeFlds c hc, Nat.add_mul]; omega)
  rw [length_primeFlds c hc] at hul1
  have hPL : ∀ x ∈ primeFlds c, ∃ i, ⟨x, i, P x⟩ ∈ Lp ++ [⟨8, h, [65537#32]⟩] := fun x hx => by
    obtain ⟨-, i, hi⟩ := hP x hx
    exact ⟨i, List.mem_append_left _ hi⟩
  have hPb : ∀ x ∈ primeFlds c, 2 < val (P x) ∧ val (P x) < 2 ^ b ∧ (P x).length = f := fun x hx => by
    obtain ⟨h1, -⟩ := hP x hx
    exact ⟨h1.big (by omega), (h1.odd (by omega)).2.2.1, h1.len⟩
  have hb33 : 33 ≤ b := ((hP 12 (by simp [primeFlds])).1.odd (by omega)).2.2.2
  refine ⟨P, fun x hx => ⟨(hP x hx).1, ?_⟩, ?_⟩
  · obtain ⟨i, hi⟩ := hPL x hx
    obtain ⟨e1, e2⟩ := I2.read (by omega) hi (by simp)
    simp only at e1 e2
    rw [e1, e2]
  have fl2 : ∀ x, x ∈ (Lp ++ [(⟨8, h, [65537#32]⟩ : Obj)]).map (·.fld) ↔ x ∈ primeFlds c ∨ x = 8 := by
    intro x
    rw [List.map_append, hLp]; simp
  generalize hL2 : Lp ++ [(⟨8, h, [65537#32]⟩ : Obj)] = L2 at I2 fl2 hPL
  have he2 : ∃ i, (⟨8, i, [65537#32]⟩ : Obj) ∈ L2 := ⟨h, by rw [← hL2]; simp⟩
  -- the private exponent
  have hphi1 : 1 < phi (primeFlds c) P := by
    unfold phi
    exact two_le_prod _ _ (fun x hx => by have := (hPb x hx).1; omega) (by simp [primeFlds])
  have hphi2 : phi (primeFlds c) P < 2 ^ (32 * vm) := by
    rcases prod_pred_lt b (fun x => val (P x)) (primeFlds c) (fun x hx => by have := hPb x hx; omega) with h1 | h1
    · rw [length_primeFlds c hc] at h1
      exact lt_of_lt_of_le h1 (Nat.pow_le_pow_right (by decide) (by omega))
    · simp [primeFlds] at h1
  obtain ⟨ex1, ex2⟩ := exponent_spec (junk := junk) (vm := vm) (flds := primeFlds c) (P := P) I2 (by omega) (by omega) (by omega)
    (by omega) (fun x hx => ⟨by have := (hPb x hx).1; omega, hPL x hx⟩) (by omega)
    (by
      rw [List.mem_append, fl2, mem_primeFlds]
      simp only [List.map_cons, List.map_nil, List.mem_cons, List.not_mem_nil, or_false]
      rintro (((hx | hx | ⟨i, hi, hx⟩) | hx) | hx | hx) <;> omega) hphi1 hphi2
  by_cases hg : Nat.gcd 65537 (phi (primeFlds c) P) = 1
  case neg =>
    obtain ⟨m', e1, I3⟩ := ex2 hg
    refine ⟨_, ?_, Or.inl ⟨⟨m', s1.k⟩, rfl, I3.keep, Or.inl hg⟩⟩
    unfold attempt
    simp only [hb, hf, hv, hh, hpr, Option.bind_eq_bind, Option.bind_some, e1]
    rfl
  obtain ⟨m3, d, e3, I3, ld, d1, d2⟩ := ex1 hg
  clear ex1 ex2
  -- the modulus
  generalize hul2 : ul1 + (vm + 1) = ul2 at *
  obtain ⟨iq, hq⟩ := hPL 10 (by simp [primeFlds])
  obtain ⟨q1, q2⟩ := I3.read (by omega) (List.mem_cons_of_mem _ hq) (by simp)
  simp only at q1 q2
  generalize hnv : ((List.range vm).map fun i => if i < f then rd (P 10) i else 0) = nv
  have lnv : nv.length = vm := by rw [← hnv]; simp
  have vnv : val nv = val (P 10) := by rw [← hnv]; exact val_padded _ _ _ (hPb 10 (by simp [primeFlds])).2.2 hvw.2.2
  have I4 : KInv h lim m0 (m3.wr ul2 nv) (ul2 + (vm + 1)) (⟨7, ul2, nv⟩ :: ⟨9, ul1, d⟩ :: L2) [(6, v6), (5, v5)] [7] := by
    refine (I3.weaken [7]).add' lnv (by omega) ?_ (wr_holds _ _ _ (by omega)) (by simp) (by omega)
      (fun j hj _ => wr_out _ _ _ (by omega))
    rw [List.map_cons, List.cons_append, List.mem_cons, List.mem_append, fl2, mem_primeFlds]
    simp only [List.map_cons, List.map_nil, List.mem_cons, List.not_mem_nil, or_false]
    rintro (hx | ((hx | hx | ⟨i, hi, hx⟩) | hx) | hx | hx) <;> omega
  have hchain : ∀ k < c - 1, 12 + 3 * k ∈ primeFlds c := by
    intro k hk
    rw [mem_primeFlds]
    rcases Nat.eq_zero_or_pos k with rfl | hk0
    · left; rfl
    · right; right; exact ⟨k - 1, by omega, by omega⟩
  obtain ⟨out, e5, hout⟩ := coeffs_spec (junk := junk) (P := P) (by omega) (by omega) (by omega) hfw.2 (c - 2 + 1) 0 (ul2 + (vm + 1))
    ⟨m3.wr ul2 nv, s1.k⟩ _ nv I4 (List.mem_cons_self) lnv
    (fun k hk => by
      have hm := hchain k (by omega)
      rw [Nat.zero_add]
      obtain ⟨i, hi⟩ := hPL _ hm
      have := hPb _ hm
      exact ⟨by omega, this.2.2, this.2.1, i, List.mem_cons_of_mem _ (List.mem_cons_of_mem _ hi)⟩)
    (fun k hk => by
      refine ⟨by omega, ?_⟩
      rw [List.map_cons, List.map_cons, List.cons_append, List.cons_append, List.mem_cons, List.mem_cons, List.mem_append, fl2,
        mem_primeFlds]
      simp only [List.map_cons, List.map_nil, List.mem_cons, List.not_mem_nil, or_false]
      rintro (hx | hx | ((hx | hx | ⟨i, hi, hx⟩) | hx) | hx | hx) <;> omega)
    (by rw [hca]; omega) (by rw [hca]; omega)
    (by rw [vnv]; simpa using (hPb 10 (by simp [primeFlds])).2.1)
    (by rw [show 0 + 1 + (c - 2 + 1) = c by omega]; omega)
  rw [hca] at e5 hout
  rw [vnv] at hout
  rcases hout with ⟨m', rfl, K', k, hk, hs⟩ | ⟨m6, L6, n, T, rfl, I6, r1, r2, r3, r4, r5, r6, r7, r8⟩
  · refine ⟨_, ?_, Or.inl ⟨⟨m', s1.k⟩, rfl, K', Or.inr ⟨k, by omega, by simpa using hs⟩⟩⟩
    unfold attempt
    simp only [hb, hf, hv, hh, hpr, Option.bind_eq_bind, Option.bind_some, e3, q1, q2, hnv, hca, hul2, e5]
    rfl
  -- the exponents
  have I7 := I6.bind r3 (by omega)
  simp only [ne_eq, not_true_eq_false, decide_false, Bool.false_eq_true, not_false_eq_true, List.filter_cons_of_neg, List.filter_nil] at I7
  have fl6 : ∀ x, x ∈ L6.map (·.fld) ↔ (x = 7 ∨ x = 9 ∨ x ∈ primeFlds c ∨ x = 8) ∨ ∃ k < a, x = 14 + 3 * k := by
    intro x
    rw [r1, List.map_cons, List.map_cons, List.mem_cons, List.mem_cons, fl2]
    simp
  have keep6 : ∀ o ∈ L2, o.fld ≠ 7 → o ∈ L6 := fun o h1 h2 => r2 o (List.mem_cons_of_mem _ (List.mem_cons_of_mem _ h1)) h2
  have hd6 : (⟨9, ul1, d⟩ : Obj) ∈ L6 := r2 _ (by simp) (by simp)
  have ne7 : ∀ x ∈ primeFlds c, x ≠ 7 ∧ x ≠ 9 ∧ x + 1 < h := by
    intro x hx
    rw [mem_primeFlds] at hx
    rcases hx with hx | hx | ⟨i, hi, hx⟩ <;> omega
  obtain ⟨m8, L8, E, e8, I8, s1', s2'⟩ := crtExps_spec (f := f) (P := P) (by omega) (primeFlds c) _ _ _ I7 hd6
    (by rw [length_primeFlds c hc]; omega) (by rw [length_primeFlds c hc]; omega)
    (fun x hx => by
      obtain ⟨i, hi⟩ := hPL x hx
      have := hPb x hx
      refine ⟨(ne7 x hx).2.1, by omega, this.2.2, ?_, (ne7 x hx).2.2, i, keep6 _ hi (ne7 x hx).1⟩
      calc val (P x) * 2 ^ 32 ≤ 2 ^ b * 2 ^ 32 := Nat.mul_le_mul_right _ this.2.1.le
        _ = 2 ^ (b + 32) := by rw [Nat.pow_add]
        _ ≤ _ := Nat.pow_le_pow_right (by decide) hfw.2)
    (by
      refine List.nodup_append.mpr ⟨List.Nodup.map (fun x y h => by omega) (nodup_primeFlds c), I7.nodup, ?_⟩
      intro x hx y hy hxy
      subst hxy
      obtain ⟨z, hz, rfl⟩ := List.mem_map.mp hx
      have hy' := List.mem_append.mp hy
      rw [fl6, mem_primeFlds] at hy'
      rw [mem_primeFlds] at hz
      simp only [List.map_cons, List.map_nil, List.mem_cons, List.not_mem_nil, or_false] at hy'
      rcases hz with hz | hz | ⟨i, hi, hz⟩ <;>
        rcases hy' with ((hy | hy | (hy | hy | ⟨j, hj, hy⟩) | hy) | ⟨j, hj, hy⟩) | (hy | hy) <;> omega)
  rw [length_primeFlds c hc] at e8 I8
  -- the working variables
  obtain ⟨m9, L9, e9, I9, w1, w2⟩ := works_spec (vm := vm) (by omega) [0, 1, 2, 3, 4] _ _ _ I8 (by simp only [List.length_cons, List.length_nil]; omega)
    (by intro x hx; simp only [List.mem_cons, List.not_mem_nil, or_false] at hx; omega)
    (by
      refine List.nodup_append.mpr ⟨by simp, I8.nodup, ?_⟩
      intro x hx y hy hxy
      subst hxy
      rw [List.mem_append, List.map_append, List.mem_append, s1', fl6, mem_primeFlds] at hy
      simp only [List.mem_cons, List.not_mem_nil, or_false, List.map_cons, List.map_nil, List.mem_reverse, List.mem_map] at hx hy
      rcases hy with (⟨z, hz, hy⟩ | ((hy | hy | (hy | hy | ⟨j, hj, hy⟩) | hy) | ⟨j, hj, hy⟩)) | (hy | hy)
      · rw [mem_primeFlds] at hz
        rcases hz with hz | hz | ⟨i, hi, hz⟩ <;> omega
      all_goals omega)
  have hfin : ul2 + (vm + 1) + a * (f + 1) + c * (f + 1) + [0, 1, 2, 3, 4].length * (vm + 1) = lim := by
    simp only [List.length_cons, List.length_nil]; omega
  rw [hfin] at I9
  have up : ∀ o ∈ L6, o ∈ L9 ++ (L8 ++ L6) := fun o ho => List.mem_append_right _ (List.mem_append_right _ ho)
  refine ⟨_, ?_, Or.inr ⟨⟨m9, s1.k⟩, ul2 + (vm + 1) + a * (f + 1) + c * (f + 1) + [0, 1, 2, 3, 4].length * (vm + 1), _, T, E, d, n, rfl,
    I9, ?_, ?_, ?_, ?_, ?_, ?_, ?_⟩⟩
  · unfold attempt
    simp only [hb, hf, hv, hh, hpr, Option.bind_eq_bind, Option.bind_some, e3, q1, q2, hnv, hca, hul2, e5, e8]
    rw [e9]
    rfl
  · obtain ⟨i, hi⟩ := he2
    exact ⟨i, up _ (keep6 _ hi (by simp))⟩
  · intro x hx
    obtain ⟨i, hi⟩ := hPL x hx
    exact ⟨(hP x hx).1, i, up _ (keep6 _ hi (ne7 x hx).1)⟩
  · exact ⟨⟨ul1, up _ hd6⟩, ld, d1, d2⟩
  · refine ⟨⟨_, up _ r3⟩, r4, by rw [r5, ha], ?_, ?_⟩
    · have := r6 (by omega)
      rw [show 0 + a + 1 = c by omega] at this; exact this
    · rw [show 0 + a + 1 = c by omega] at r7; exact r7
  · intro k hk
    have := r8 k (by omega)
    rw [Nat.zero_add] at this
    obtain ⟨⟨i, hi⟩, t1, t2⟩ := this
    exact ⟨⟨i, up _ hi⟩, t1, t2⟩
  · intro x hx
    obtain ⟨⟨i, hi⟩, t1, t2⟩ := s2' x hx
    exact ⟨⟨i, List.mem_append_right _ (List.mem_append_left _ hi)⟩, t1, t2⟩
  · refine ⟨ul2 + (vm + 1) + a * (f + 1) + c * (f + 1), fun k hk => List.mem_append_left _ ?_⟩
    have := w2 k (by simpa using hk)
    rw [show [0, 1, 2, 3, 4][k]'(by simpa using hk) = k by
      rcases k with _ | _ | _ | _ | _ | k
      all_goals first | rfl | omega] at this
    exact this

/-- Whatever the run returns is a finished attempt. -/
theorem run_spec {rng : Rng} {junk : Junk} {mf cf bits c b f vm : Nat} (hc : 2 ≤ c) (hb : bits / c = b) (hf : Pkcs1.bitsWcnt b = f)
    (hv : Pkcs1.bitsWcnt bits = vm) (hrng : ∀ k, (rng k).length = f) (h32 : 4 * lastWord f vm c < 2 ^ 32)
    {m0 : Mem} {v5 v6 : W} : ∀ (rf : Nat) (s s' : St), Keep (15 + 3 * (c - 2)) (lastWord f vm c) m0 s.m [(6, v6), (5, v5)] →
    run rng junk mf cf bits c rf s = some s' →
    ∃ L P T E d n, Facts rng mf b f vm c (15 + 3 * (c - 2)) (lastWord f vm c) m0 s'.m [(6, v6), (5, v5)] L P T E d n := by
  intro rf
  induction rf with
  | zero => intro s s' _ h; simp [run] at h
  | succ rf ih =>
    intro s s' K h
    rw [run] at h
    cases hp : primes rng junk mf cf f b (primeFlds c) (15 + 3 * (c - 2) + 2)
        ⟨(s.m.wr (15 + 3 * (c - 2)) [65537#32]).put 8 (BitVec.ofNat 32 (4 * (15 + 3 * (c - 2)))), s.k⟩ with
    | none =>
      have : attempt rng junk mf cf bits c s = none := by
        unfold attempt
        simp only [hb, hf, hp, Option.bind_eq_bind, Option.bind_none]
      rw [this] at h; simp at h
    | some x =>
      obtain ⟨s1, ul1⟩ := x
      obtain ⟨P, -, out, e, ho⟩ := attempt_spec hc hb hf hv hrng h32 K hp
      rw [e] at h
      rcases ho with ⟨s2, rfl, K2, -⟩ | ⟨s2, ul', L, T, E, d, n, rfl, F⟩
      · exact ih s2 s' K2 h
      · simp only [Option.some.injEq] at h
        subst h
        exact ⟨L, P, T, E, d, n, F⟩

end RsaKeygen
