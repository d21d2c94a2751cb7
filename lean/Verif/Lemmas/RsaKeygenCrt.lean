import Verif.Lemmas.RsaKeygenRun

/-! RSA key generation: the modulus, the CRT coefficients and exponents, the whole run. -/

namespace RsaKeygen
open Vlong Spec RsaDer NumTheory

variable {h lim : Nat} {m0 m m' : Mem} {ul : Nat} {L : List Obj} {X : List (Nat × W)} {pend : List Nat}

theorem adds_pred2 (r : List W) (hr : 2 ≤ val r) :
    (adds r.length r (-2#64) 0).length = r.length ∧ val (adds r.length r (-2#64) 0) = val r - 2 := by
  obtain ⟨h1, h2⟩ := Props.C01_adds r.length r (-2#64) 0 (by decide) (by decide)
  refine ⟨h1, ?_⟩
  have hlt := val_lt r
  have e : ((-2#64 : BitVec 64)).toInt = -2 := by decide
  rw [e] at h2
  have h3 : ((val r : Nat) : Int) < 2 ^ (32 * r.length) := by exact_mod_cast hlt
  rw [Int.emod_eq_of_lt (by simp; omega) (by simp only [Nat.mul_zero, Int.pow_zero, Int.mul_one]; omega)] at h2
  simp only [Nat.mul_zero, Int.pow_zero, Int.mul_one] at h2
  omega

/-- The test of `rsa-keygen.c:303-304`. -/
theorem top_test (x : List W) (i : Nat) (hlt : val x < 2 ^ (i + 1)) : rd x (i / 32) >>> (i % 32) = 0 ↔ val x < 2 ^ i := by
  have e1 : (rd x (i / 32) >>> (i % 32)).toNat = val x / 2 ^ i % 2 ^ (32 - i % 32) := by
    rw [BitVec.toNat_ushiftRight, rd_eq_ofNat, BitVec.toNat_ofNat, Nat.shiftRight_eq_div_pow, Nat.shiftRight_eq_div_pow]
    have hd := Nat.div_add_mod i 32
    have hm : i % 32 < 32 := Nat.mod_lt _ (by decide)
    generalize i / 32 = q at *
    generalize i % 32 = s at *
    rw [show (2 : Nat) ^ 32 = 2 ^ s * 2 ^ (32 - s) by rw [← Nat.pow_add]; congr 1; omega, Nat.mod_mul_right_div_self,
      Nat.div_div_eq_div_mul, ← Nat.pow_add, hd]
  have hq : val x / 2 ^ i < 2 := by
    rw [Nat.div_lt_iff_lt_mul (Nat.pow_pos (by decide)), ← Nat.pow_succ']; exact hlt
  have hm : i % 32 < 32 := Nat.mod_lt _ (by decide)
  have hp : 2 ≤ 2 ^ (32 - i % 32) := by
    calc 2 = 2 ^ 1 := rfl
      _ ≤ _ := Nat.pow_le_pow_right (by decide) (by omega)
  rw [Nat.mod_eq_of_lt (a := val x / 2 ^ i) (lt_of_lt_of_le hq hp)] at e1
  constructor
  · intro h0
    rw [h0] at e1
    have : val x / 2 ^ i = 0 := e1.symm
    rcases Nat.div_eq_zero_iff.mp this with h | h
    · exact absurd h (Nat.pow_pos (by decide)).ne'
    · exact h
  · intro hl
    apply BitVec.eq_of_toNat_eq
    rw [e1, Nat.div_eq_of_lt hl]; rfl

/-- The product of the primes `px[t - 1], ..., px[t + k - 2]`. -/
def pp (P : Nat → List W) (t k : Nat) : Nat := ((List.range k).map fun j => val (P (12 + 3 * (t + j)))).prod

theorem pp_succ (P : Nat → List W) (t k : Nat) : pp P t (k + 1) = val (P (12 + 3 * t)) * pp P (t + 1) k := by
  unfold pp
  rw [List.range_succ_eq_map, List.map_cons, List.prod_cons, List.map_map]
  congr 2
  apply List.map_congr_left
  intro j _
  simp only [Function.comp]
  congr 2; omega

theorem pp_zero (P : Nat → List W) (t : Nat) : pp P t 0 = 1 := rfl

/-- What a restart leaves. -/
structure Keep (h lim : Nat) (m0 m : Mem) (X : List (Nat × W)) : Prop where
  nodup : (X.map (·.1)).Nodup
  sc : ∀ x ∈ X, m x.1 = x.2 ∧ x.1 < h
  out : ∀ j, lim ≤ j → m j = m0 j

theorem KInv.keep (I : KInv h lim m0 m ul L X pend) : Keep h lim m0 m X :=
  ⟨I.nodup.sublist (List.sublist_append_right _ _), I.sc, I.out⟩

theorem Keep.start (K : Keep h lim m0 m X) : KInv h lim m0 m h [] X [] :=
  ⟨by simp, by simp, by simp, by simp, by simp, by simpa using K.nodup, K.sc, K.out, le_refl _⟩

/-- One coefficient. -/
theorem modexp_inv (f : Nat) (base e r : List W) (hl : r.length ≤ f) (hroom : val r * 2 ^ 32 ≤ 2 ^ (32 * f)) (he : e ≠ [])
    (hb : val base < val r) :
    ∃ o, modexpv f base e (some (Rsa.modBy r)) = some o ∧ o.length = f ∧ val o = val base ^ val e % val r := by
  obtain ⟨o, h1, h2, h3, h4⟩ := Props.C05_modexpv f base e (Rsa.modBy r) (val r) (val r) (by
    intro l hl'
    obtain ⟨l', a1, a2, a3⟩ := remvInplace_val l r (by omega)
    exact ⟨l', a1, by omega, by rw [a3, Nat.mod_mod], by rw [a3]; exact Nat.mod_lt _ (by omega)⟩) (by omega) hroom he hb
  exact ⟨o, h1, h2, by rw [← h4, Nat.mod_eq_of_lt h3]⟩

theorem coeffs_spec {junk : Junk} {b f vm t6 : Nat} {P : Nat → List W} (hvm : vm < 2 ^ 32) (hf : f < 2 ^ 32)
    (hb0 : 0 < b) (hroom : b + 32 ≤ 32 * f) : ∀ (n t ul : Nat) (s : St) (L : List Obj) (nv : List W),
    KInv h lim m0 s.m ul L X [7] → ⟨7, t6, nv⟩ ∈ L → nv.length = vm →
    (∀ k < n, 2 ≤ val (P (12 + 3 * (t + k))) ∧ (P (12 + 3 * (t + k))).length = f ∧ val (P (12 + 3 * (t + k))) < 2 ^ b ∧
      ∃ i, ⟨12 + 3 * (t + k), i, P (12 + 3 * (t + k))⟩ ∈ L) →
    (∀ k < n, 14 + 3 * (t + k) < h ∧ 14 + 3 * (t + k) ∉ L.map (·.fld) ++ X.map (·.1)) →
    ul + n * (f + 1) + 3 * (f + 1) + (vm + 1) ≤ lim → 4 * (ul + n * (f + 1)) < 2 ^ 32 → val nv < 2 ^ (b * (t + 1)) →
    b * (t + 1 + n) ≤ 32 * vm →
    ∃ out, coeffs junk b f vm t6 n t ul s = some out ∧
      ((∃ m', out = .restart ⟨m', s.k⟩ ∧ Keep h lim m0 m' X ∧ ∃ k < n, val nv * pp P t (k + 1) < 2 ^ (b * (t + k + 2) - 1)) ∨
      (∃ (m' : Mem) (L' : List Obj) (nv' : List W) (T : Nat → List W), out = .go ⟨m', s.k⟩ (ul + n * (f + 1)) ∧ KInv h lim m0 m' (ul + n * (f + 1)) L' X [7] ∧
        (∀ x, x ∈ L'.map (·.fld) ↔ x ∈ L.map (·.fld) ∨ ∃ k < n, x = 14 + 3 * (t + k)) ∧
        (∀ o ∈ L, o.fld ≠ 7 → o ∈ L') ∧ ⟨7, t6, nv'⟩ ∈ L' ∧ nv'.length = vm ∧ val nv' = val nv * pp P t n ∧
        (0 < n → 2 ^ (b * (t + n + 1) - 1) ≤ val nv') ∧ val nv' < 2 ^ (b * (t + n + 1)) ∧
        ∀ k < n, (∃ i, ⟨14 + 3 * (t + k), i, T (14 + 3 * (t + k))⟩ ∈ L') ∧ (T (14 + 3 * (t + k))).length = f ∧
          val (T (14 + 3 * (t + k))) =
            (val nv * pp P t k) ^ (val (P (12 + 3 * (t + k))) - 2) % val (P (12 + 3 * (t + k))))) := by
  intro n
  induction n with
  | zero =>
    intro t ul s L nv I h7 hl _ _ _ _ hlt _
    refine ⟨_, rfl, Or.inr ⟨s.m, L, nv, fun _ => [], by simp, by simpa using I, by simp, fun o ho _ => ho, h7, hl, by simp [pp_zero],
      by simp, by simpa using hlt, by simp⟩⟩
  | succ n ih =>
    intro t ul s L nv I h7 hl hP hfr hlim h32 hlt hfit
    obtain ⟨p2, pl, plt, ir, hir⟩ := hP 0 (by omega)
    obtain ⟨hfh, hfn⟩ := hfr 0 (by omega)
    simp only [Nat.add_zero] at p2 pl plt hir hfh hfn
    rw [Nat.add_mul] at hlim h32
    simp only [Nat.one_mul] at hlim h32
    generalize hr : P (12 + 3 * t) = r at p2 pl plt hir
    have hge := I.ge
    have o1 := I.off _ hir
    have o2 := I.off _ h7
    have n1 := I.fld _ hir
    simp only at o1 o2 n1
    have hx7 : ⟨12 + 3 * t, ir, r⟩ ≠ (⟨7, t6, nv⟩ : Obj) := by
      intro hc
      have := congrArg Obj.fld hc
      simp only at this
      omega
    have dis : t6 + 1 + nv.length ≤ ir ∨ ir + 1 + r.length ≤ t6 := by
      rcases pairwise_either I.disj _ hir _ h7 hx7 with h | h <;> simp only at h
      · left; exact h
      · right; exact h
    have rdx : ∀ mk : Mem, (∀ j, j < ul → j ≠ 14 + 3 * t → mk j = s.m j) →
        mk.at_ (12 + 3 * t) = ir ∧ mk.vlong ir = r ∧ mk.vlong t6 = nv := by
      intro mk hmk
      obtain ⟨a, b⟩ := I.read (by omega) hir (by simp; omega)
      simp only at a b
      refine ⟨?_, ?_, ?_⟩
      · unfold Mem.at_
        rw [hmk _ (by omega) (by omega)]; exact a
      · exact ((I.holds _ hir).congr fun j h1 h2 => hmk j (by simp only at h2; omega) (by simp only at h1; omega)).vlong
      · exact ((I.holds _ h7).congr fun j h1 h2 => hmk j (by simp only at h2; omega) (by simp only at h1; omega)).vlong
    have hrm : val r * 2 ^ 32 ≤ 2 ^ (32 * f) := by
      calc val r * 2 ^ 32 ≤ 2 ^ b * 2 ^ 32 := Nat.mul_le_mul_right _ plt.le
        _ = 2 ^ (b + 32) := by rw [Nat.pow_add]
        _ ≤ _ := Nat.pow_le_pow_right (by decide) (by omega)
    -- the remainder
    obtain ⟨r1, e1, l1, v1⟩ := Rsa.rem_val f nv r (by omega) (by omega) hrm
    obtain ⟨a1, a2, a3⟩ := rdx s.m (fun _ _ _ => rfl)
    obtain ⟨b1, b2, -⟩ := rdx (s.m.wr ul r1) (fun j h1 _ => wr_out _ _ _ (by omega))
    -- the exponent
    obtain ⟨l2, v2⟩ := adds_pred2 r (by omega)
    rw [pl] at l2 v2
    generalize he : adds f r (-2#64) 0 = e at l2 v2
    have agree2 : ∀ j, j < ul → j ≠ 14 + 3 * t → ((s.m.wr ul r1).wr (ul + (f + 1)) e) j = s.m j := by
      intro j h1 _
      rw [wr_out _ _ _ (by omega), wr_out _ _ _ (by omega)]
    obtain ⟨c1, c2, -⟩ := rdx _ agree2
    have c3 : ((s.m.wr ul r1).wr (ul + (f + 1)) e).vlong ul = r1 :=
      ((wr_holds s.m ul r1 (by omega)).congr fun j h1 h2 => wr_out _ _ _ (by omega)).vlong
    have c4 : ((s.m.wr ul r1).wr (ul + (f + 1)) e).vlong (ul + (f + 1)) = e := (wr_holds _ _ _ (by omega)).vlong
    generalize hm2 : (s.m.wr ul r1).wr (ul + (f + 1)) e = m2 at c1 c2 c3 c4 agree2
    have out2 : ∀ j, ul + 2 * (f + 1) ≤ j → m2 j = s.m j := by
      intro j hj
      rw [← hm2, wr_out _ _ _ (by omega), wr_out _ _ _ (by omega)]
    obtain ⟨o, e3, l3, v3⟩ := modexp_inv f r1 e r (by omega) hrm (by rintro rfl; simp at l2; omega)
      (by rw [v1]; exact Nat.mod_lt _ (by omega))
    rw [v1, v2, ← Nat.pow_mod] at v3
    generalize hm5 : ((scratch m2 (ul + 2 * (f + 1)) (ul + 4 * (f + 1)) (junk (2 + t) s.k)).wr ul o).put (14 + 3 * t)
      (BitVec.ofNat 32 (4 * ul)) = m5
    have agree5 : ∀ j, j < ul → j ≠ 14 + 3 * t → m5 j = s.m j := by
      intro j h1 h2
      rw [← hm5, put_ne _ _ h2, wr_out _ _ _ (by omega), scratch_out _ _ _ _ (by omega), agree2 j h1 h2]
    have out5 : ∀ j, ul + 4 * (f + 1) ≤ j → m5 j = s.m j := by
      intro j hj
      rw [← hm5, put_ne _ _ (by omega), wr_out _ _ _ (by omega), scratch_out _ _ _ _ (by omega), out2 j (by omega)]
    have hold5 : Holds m5 ul o := by
      rw [← hm5]
      exact (wr_holds _ _ _ (by omega)).congr fun j h1 h2 => put_ne _ _ (by omega)
    have fld5 : m5 (14 + 3 * t) = BitVec.ofNat 32 (4 * ul) := by rw [← hm5]; exact put_self _ _ _
    obtain ⟨d1, d2, d3⟩ := rdx m5 agree5
    -- the product
    obtain ⟨⟨x, e4, l4, v4⟩, -⟩ := Props.C03_mulv_plain vm nv r (by rintro rfl; simp [val] at p2)
    have hbt : b * (t + 2) ≤ 32 * vm :=
      le_trans (Nat.mul_le_mul_left _ (by omega)) hfit
    have hlt' : val nv * val r < 2 ^ (b * (t + 2)) := by
      calc val nv * val r < 2 ^ (b * (t + 1)) * 2 ^ b := Nat.mul_lt_mul'' hlt plt
        _ = 2 ^ (b * (t + 2)) := by rw [← Nat.pow_add]; congr 1
    rw [Nat.mod_eq_of_lt (lt_of_lt_of_le hlt' (Nat.pow_le_pow_right (by decide) hbt))] at v4
    generalize hm6 : m5.wr (ul + 4 * (f + 1)) x = m6
    have f1 : m6.vlong (ul + 4 * (f + 1)) = x := by rw [← hm6]; exact (wr_holds _ _ _ (by omega)).vlong
    have agree6 : ∀ j, j < ul + (f + 1) → m6 j = m5 j := fun j hj => by rw [← hm6, wr_out _ _ _ (by omega)]
    have I6 : KInv h lim m0 m6 (ul + (f + 1)) (⟨14 + 3 * t, ul, o⟩ :: L) X [7] := by
      refine I.add' l3 hfh hfn (hold5.congr fun j h1 h2 => agree6 j (by omega))
        (fun _ => by rw [agree6 _ (by omega)]; exact fld5) (by omega) ?_
      intro j hj hjf
      rcases hj with hj | hj
      · rw [agree6 j (by omega), agree5 j hj hjf]
      · rw [← hm6, wr_out _ _ _ (by omega), out5 j (by omega)]
    generalize hm7 : m6.wr t6 x = m7
    have hold7 : Holds m7 t6 x := by rw [← hm7]; exact wr_holds _ _ _ (by omega)
    have I7 := I6.set (m' := m7) (f := 7) (i := t6) (v := nv) (v' := x) (List.mem_cons_of_mem _ h7) (by omega) hold7
      (fun j _ h2 => by rw [← hm7, wr_out _ _ _ (by omega)]) (by omega)
    generalize hL7 : ((⟨14 + 3 * t, ul, o⟩ :: L : List Obj).map fun o => if o.fld = 7 then ⟨7, t6, x⟩ else o) = L7 at I7
    have m7a : ∀ o' ∈ L, o'.fld ≠ 7 → o' ∈ L7 := by
      intro o' h1 h2
      rw [← hL7]
      exact List.mem_map.mpr ⟨o', List.mem_cons_of_mem _ h1, by simp [h2]⟩
    have m7b : ⟨14 + 3 * t, ul, o⟩ ∈ L7 := by
      rw [← hL7]
      exact List.mem_map.mpr ⟨_, List.mem_cons_self, by simp; omega⟩
    have m7c : ⟨7, t6, x⟩ ∈ L7 := by
      rw [← hL7]
      exact List.mem_map.mpr ⟨_, List.mem_cons_of_mem _ h7, by simp⟩
    have m7d : ∀ y, y ∈ L7.map (·.fld) ↔ y = 14 + 3 * t ∨ y ∈ L.map (·.fld) := by
      intro y
      have : L7.map (·.fld) = (14 + 3 * t) :: L.map (·.fld) := by
        rw [← hL7, List.map_map]
        rw [← List.map_cons (f := Obj.fld) (a := (⟨14 + 3 * t, ul, o⟩ : Obj))]
        apply List.map_congr_left
        intro o' _
        simp only [Function.comp]
        split
        · rename_i hh; exact hh.symm
        · rfl
      rw [this, List.mem_cons]
    -- unfold one round
    have hstep : coeffs junk b f vm t6 (n + 1) t ul s =
        (if rd x ((b * (t + 2) - 1) / 32) >>> ((b * (t + 2) - 1) % 32) = 0 then some (.restart ⟨m7, s.k⟩)
        else coeffs junk b f vm t6 n (t + 1) (ul + (f + 1)) ⟨m7, s.k⟩) := by
      have g1 : m7.vlong t6 = x := hold7.vlong
      rw [coeffs]
      simp only [a1, a2, a3, e1, Option.bind_eq_bind, Option.bind_some, b1, b2, he, hm2, c1, c2, c3, c4, e3, hm5, d1, d2, d3, e4,
        hm6, f1, hm7, g1]
      rfl
    have htop := top_test x (b * (t + 2) - 1) (by
      have : 0 < b * (t + 2) := Nat.mul_pos hb0 (by omega)
      rw [v4, show b * (t + 2) - 1 + 1 = b * (t + 2) by omega]; exact hlt')
    by_cases hz : rd x ((b * (t + 2) - 1) / 32) >>> ((b * (t + 2) - 1) % 32) = 0
    · rw [hstep, if_pos hz]
      refine ⟨_, rfl, Or.inl ⟨m7, rfl, I7.keep, 0, by omega, ?_⟩⟩
      have := htop.mp hz
      rw [pp_succ, pp_zero, Nat.mul_one, hr, ← v4]
      simpa using this
    · rw [hstep, if_neg hz]
      have hge2 : 2 ^ (b * (t + 2) - 1) ≤ val x := by
        by_contra hc
        exact hz (htop.mpr (by omega))
      obtain ⟨out, g1, g2⟩ := ih (t + 1) (ul + (f + 1)) ⟨m7, s.k⟩ L7 x I7 m7c l4
        (fun k hk => by
          have := hP (k + 1) (by omega)
          rw [show t + (k + 1) = t + 1 + k by omega] at this
          obtain ⟨q1, q2, q3, i, q4⟩ := this
          exact ⟨q1, q2, q3, i, m7a _ q4 (by simp only; omega)⟩)
        (fun k hk => by
          have := hfr (k + 1) (by omega)
          rw [show t + (k + 1) = t + 1 + k by omega] at this
          refine ⟨this.1, fun hc => this.2 ?_⟩
          rw [List.mem_append, m7d] at hc
          rw [List.mem_append]
          rcases hc with (hc | hc) | hc
          · omega
          · exact Or.inl hc
          · exact Or.inr hc)
        (by omega) (by omega) (by rw [v4]; exact hlt') (by rw [show t + 1 + 1 + n = t + 1 + (n + 1) by omega]; exact hfit)
      refine ⟨out, g1, ?_⟩
      rcases g2 with ⟨m', rfl, K, k, hk, hs⟩ | ⟨m', L', nv', T, rfl, I', q1, q2, q3, q4, q5, q6, q7, q8⟩
      · left
        refine ⟨m', rfl, K, k + 1, by omega, ?_⟩
        rw [pp_succ, hr, ← Nat.mul_assoc, ← v4, show t + (k + 1) + 2 = t + 1 + k + 2 by omega]; exact hs
      · right
        have hu : ul + (n + 1) * (f + 1) = ul + (f + 1) + n * (f + 1) := by rw [Nat.add_mul]; omega
        refine ⟨m', L', nv', fun y => if y = 14 + 3 * t then o else T y, by rw [hu], by rw [hu]; exact I', ?_, ?_, q3, q4, ?_, ?_, ?_, ?_⟩
        · intro y
          rw [q1, m7d]
          constructor
          · rintro ((h1 | h1) | ⟨k, hk, h1⟩)
            · exact Or.inr ⟨0, by omega, by omega⟩
            · exact Or.inl h1
            · exact Or.inr ⟨k + 1, by omega, by omega⟩
          · rintro (h1 | ⟨k, hk, h1⟩)
            · exact Or.inl (Or.inr h1)
            · rcases Nat.eq_zero_or_pos k with rfl | hk0
              · exact Or.inl (Or.inl (by omega))
              · exact Or.inr ⟨k - 1, by omega, by omega⟩
        · intro o' h1 h2
          exact q2 o' (m7a o' h1 h2) h2
        · rw [q5, pp_succ, hr, v4, Nat.mul_assoc]
        · intro _
          rcases Nat.eq_zero_or_pos n with rfl | hn0
          · rw [q5, pp_zero, Nat.mul_one]
            simpa using hge2
          · have := q6 hn0
            rw [show t + (n + 1) + 1 = t + 1 + n + 1 by omega]; exact this
        · rw [show t + (n + 1) + 1 = t + 1 + n + 1 by omega]; exact q7
        · intro k hk
          rcases Nat.eq_zero_or_pos k with rfl | hk0
          · simp only [Nat.add_zero, if_true, pp_zero, Nat.mul_one, hr]
            exact ⟨⟨ul, q2 _ m7b (by simp only; omega)⟩, l3, v3⟩
          · obtain ⟨k, rfl⟩ : ∃ k', k = k' + 1 := ⟨k - 1, by omega⟩
            have := q8 k (by omega)
            rw [show t + 1 + k = t + (k + 1) by omega] at this
            have hne : ¬ 14 + 3 * (t + (k + 1)) = 14 + 3 * t := by omega
            simp only [hne, if_false]
            refine ⟨this.1, this.2.1, ?_⟩
            rw [this.2.2, pp_succ, hr, v4, Nat.mul_assoc]

/-! ## The CRT exponents and the working variables -/

theorem crtExp_spec {f fld i i9 : Nat} {r d : List W} (I : KInv h lim m0 m ul L X []) (hul : 4 * ul < 2 ^ 32) (hf : f < 2 ^ 32)
    (ho : ⟨fld, i, r⟩ ∈ L) (h9 : ⟨9, i9, d⟩ ∈ L) (hne : fld ≠ 9) (hr : 1 < val r) (hl : r.length = f)
    (hroom : val r * 2 ^ 32 ≤ 2 ^ (32 * f)) (hfh : fld + 1 < h) (hn : fld + 1 ∉ L.map (·.fld) ++ X.map (·.1))
    (hlim : ul + (f + 1) ≤ lim) :
    ∃ m' v, crtExp f (m, ul) fld = some (m', ul + (f + 1)) ∧ v.length = f ∧ val v = val d % (val r - 1) ∧
      KInv h lim m0 m' (ul + (f + 1)) (⟨fld + 1, ul, v⟩ :: L) X [] := by
  obtain ⟨e1, e2⟩ := I.read hul ho (by simp)
  obtain ⟨e3, e4⟩ := I.read hul h9 (by simp)
  have n1 := I.fld _ ho
  have n2 := I.fld _ h9
  have o1 := I.off _ ho
  have o2 := I.off _ h9
  have hholds := I.holds _ ho
  have hholds9 := I.holds _ h9
  simp only at e1 e2 e3 e4 n1 n2 o1 o2 hholds hholds9
  have hge := I.ge
  have dis : i + 1 + r.length ≤ i9 ∨ i9 + 1 + d.length ≤ i := by
    rcases pairwise_either I.disj _ ho _ h9 (fun hc => hne (congrArg Obj.fld hc)) with h | h <;> simp only at h
    · right; exact h
    · left; exact h
  obtain ⟨l1, v1⟩ := adds_pred r (by omega)
  generalize hr' : adds r.length r (-1#64) 0 = r' at l1 v1
  have b1 : bump m i (-1#64) = m.wr i r' := by unfold bump; rw [e2, hr']
  have a1 : (m.wr i r').at_ fld = i := by unfold Mem.at_; rw [wr_out _ _ _ (by omega)]; exact e1
  have a9 : (m.wr i r').at_ 9 = i9 := by unfold Mem.at_; rw [wr_out _ _ _ (by omega)]; exact e3
  have a2 : (m.wr i r').vlong i9 = d := (hholds9.congr fun j h1 h2 => wr_out _ _ _ (by omega)).vlong
  have a3 : (m.wr i r').vlong i = r' := (wr_holds _ _ _ (by omega)).vlong
  obtain ⟨v, ev, lv, vv⟩ := Rsa.rem_val f d r' (by omega) (by omega)
    (le_trans (Nat.mul_le_mul_right _ (by omega)) hroom)
  rw [v1] at vv
  have c1 : ((m.wr i r').wr ul v).at_ fld = i := by unfold Mem.at_; rw [wr_out _ _ _ (by omega)]; exact a1
  have c2 : ((m.wr i r').wr ul v).vlong i = r' :=
    ((wr_holds m i r' (by omega)).congr fun j h1 h2 => wr_out _ _ _ (by omega)).vlong
  have b2 : bump ((m.wr i r').wr ul v) i 1#64 = ((m.wr i r').wr ul v).wr i r := by
    unfold bump; rw [c2, adds_succ r r' l1 (by omega) v1]
  refine ⟨(((m.wr i r').wr ul v).wr i r).put (fld + 1) (BitVec.ofNat 32 (4 * ul)), v, ?_, lv, vv, ?_⟩
  · unfold crtExp
    simp only [e1, b1, a1, a9, a2, a3, ev, Option.bind_eq_bind, Option.bind_some, c1, b2]
    rfl
  · refine I.add' lv hfh hn ?_ (fun _ => put_self _ _ _) (by omega) ?_
    · refine (wr_holds (m.wr i r') ul v (by omega)).congr fun j h1 h2 => ?_
      rw [put_ne _ _ (by omega), wr_out _ _ _ (by omega)]
    · intro j hj hjf
      rw [put_ne _ _ hjf]
      by_cases hin : i ≤ j ∧ j < i + 1 + r.length
      · rw [wr_in _ m i r hin.1 hin.2, wr_same hholds]
      · rw [wr_out _ i r (by omega), wr_out _ _ _ (by omega), wr_out _ _ _ (by omega)]

theorem crtExps_spec {f i9 : Nat} {d : List W} {P : Nat → List W} (hf : f < 2 ^ 32) :
    ∀ (flds : List Nat) (m : Mem) (ul : Nat) (L : List Obj), KInv h lim m0 m ul L X [] → ⟨9, i9, d⟩ ∈ L →
    4 * (ul + flds.length * (f + 1)) < 2 ^ 32 → ul + flds.length * (f + 1) ≤ lim →
    (∀ x ∈ flds, x ≠ 9 ∧ 1 < val (P x) ∧ (P x).length = f ∧ val (P x) * 2 ^ 32 ≤ 2 ^ (32 * f) ∧ x + 1 < h ∧ ∃ i, ⟨x, i, P x⟩ ∈ L) →
    ((flds.map fun y => y + 1) ++ (L.map (fun o : Obj => o.fld) ++ X.map (fun x : Nat × W => x.1))).Nodup →
    ∃ (m' : Mem) (L' : List Obj) (E : Nat → List W), flds.foldlM (crtExp f) (m, ul) = some (m', ul + flds.length * (f + 1)) ∧
      KInv h lim m0 m' (ul + flds.length * (f + 1)) (L' ++ L) X [] ∧ L'.map (·.fld) = (flds.map (· + 1)).reverse ∧
      ∀ x ∈ flds, (∃ i, ⟨x + 1, i, E x⟩ ∈ L') ∧ (E x).length = f ∧ val (E x) = val d % (val (P x) - 1) := by
  intro flds
  induction flds with
  | nil =>
    intro m ul L I _ _ _ _ _
    exact ⟨m, [], fun _ => [], by simp, by simpa using I, by simp, by simp⟩
  | cons x flds ih =>
    intro m ul L I h9 h32 hlim hP hn
    simp only [List.length_cons, Nat.add_mul, Nat.one_mul] at h32 hlim
    obtain ⟨p1, p2, p3, p4, p5, i, p6⟩ := hP x (by simp)
    simp only [List.map_cons, List.cons_append, List.nodup_cons] at hn
    obtain ⟨m1, v, e1, lv, vv, I1⟩ := crtExp_spec I (by omega) hf p6 h9 p1 p2 p3 p4 p5
      (fun hc => hn.1 (List.mem_append_right _ hc)) (by omega)
    obtain ⟨m2, L', E, e2, I2, q1, q2⟩ := ih m1 (ul + (f + 1)) _ I1 (List.mem_cons_of_mem _ h9) (by omega) (by omega)
      (fun y hy => by
        obtain ⟨a1, a2, a3, a4, a5, j, a6⟩ := hP y (by simp [hy])
        exact ⟨a1, a2, a3, a4, a5, j, List.mem_cons_of_mem _ a6⟩)
      (by
        simp only [List.map_cons, List.cons_append]
        refine List.nodup_middle.mpr ?_
        simp only [List.nodup_cons]
        exact hn)
    have hu : ul + (x :: flds).length * (f + 1) = ul + (f + 1) + flds.length * (f + 1) := by
      simp only [List.length_cons, Nat.add_mul]; omega
    refine ⟨m2, L' ++ [⟨x + 1, ul, v⟩], fun y => if y = x then v else E y, ?_, ?_, ?_, ?_⟩
    · rw [List.foldlM_cons, e1, hu]; exact e2
    · rw [hu]; simpa using I2
    · simp [q1]
    · intro y hy
      by_cases hyx : y = x
      · subst hyx
        simp only [if_true]
        exact ⟨⟨ul, by simp⟩, lv, vv⟩
      · simp only [hyx, if_false]
        rcases List.mem_cons.mp hy with h | h
        · exact absurd h hyx
        · obtain ⟨⟨j, hj⟩, a, b⟩ := q2 y h
          exact ⟨⟨j, List.mem_append_left _ hj⟩, a, b⟩

theorem works_spec {vm : Nat} (hvm : vm < 2 ^ 32) : ∀ (flds : List Nat) (m : Mem) (ul : Nat) (L : List Obj), KInv h lim m0 m ul L X [] →
    ul + flds.length * (vm + 1) ≤ lim → (∀ x ∈ flds, x < h) → (flds ++ (L.map (·.fld) ++ X.map (·.1))).Nodup →
    ∃ (m' : Mem) (L' : List Obj), flds.foldl (works vm) (m, ul) = (m', ul + flds.length * (vm + 1)) ∧
      KInv h lim m0 m' (ul + flds.length * (vm + 1)) (L' ++ L) X [] ∧ L'.map (·.fld) = flds.reverse ∧
      ∀ (k : Nat) (hk : k < flds.length), ⟨flds[k], ul + k * (vm + 1), small vm 0#32⟩ ∈ L' := by
  intro flds
  induction flds with
  | nil =>
    intro m ul L I _ _ _
    exact ⟨m, [], by simp, by simpa using I, by simp, by simp⟩
  | cons x flds ih =>
    intro m ul L I hlim hh hn
    simp only [List.length_cons, Nat.add_mul, Nat.one_mul] at hlim
    simp only [List.cons_append, List.nodup_cons] at hn
    have hfl : x < h := hh x (by simp)
    have hge := I.ge
    have I1 : KInv h lim m0 ((m.wr ul (small vm 0#32)).put x (BitVec.ofNat 32 (4 * ul))) (ul + (vm + 1)) (⟨x, ul, small vm 0#32⟩ :: L) X [] := by
      refine I.add' (length_small _ _) hfl (fun hc => hn.1 (List.mem_append_right _ hc)) ?_ (fun _ => put_self _ _ _) (by omega) ?_
      · exact (wr_holds _ _ _ (by rw [length_small]; exact hvm)).congr fun j h1 h2 => put_ne _ _ (by omega)
      · intro j hj hjf
        rw [put_ne _ _ hjf, wr_out _ _ _ (by rw [length_small]; omega)]
    obtain ⟨m2, L', e2, I2, q1, q2⟩ := ih _ (ul + (vm + 1)) _ I1 (by omega) (fun y hy => hh y (by simp [hy]))
      (by
        simp only [List.map_cons, List.cons_append]
        refine List.nodup_middle.mpr ?_
        simp only [List.nodup_cons]
        exact hn)
    have hu : ul + (x :: flds).length * (vm + 1) = ul + (vm + 1) + flds.length * (vm + 1) := by
      simp only [List.length_cons, Nat.add_mul]; omega
    refine ⟨m2, L' ++ [⟨x, ul, small vm 0#32⟩], ?_, ?_, ?_, ?_⟩
    · rw [List.foldl_cons, hu]; exact e2
    · rw [hu]; simpa using I2
    · simp [q1]
    · intro k hk
      cases k with
      | zero => simp
      | succ k =>
        have := q2 k (by simpa using hk)
        rw [show ul + (vm + 1) + k * (vm + 1) = ul + (k + 1) * (vm + 1) by rw [Nat.add_mul]; omega] at this
        exact List.mem_append_left _ this

end RsaKeygen
