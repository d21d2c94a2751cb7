import Verif.Spec.Aead
import Verif.Spec.Mac
import Verif.Spec.CtrDrbg
import Verif.Lemmas.Blocks
import Verif.Lemmas.CtrDrbg

/-!
# The modes depend on the block cipher only through its values on blocks

Used to replace the modelled cipher by the one of its standard, which agree on blocks (and are arbitrary elsewhere).
-/
namespace ModeCongr
open Spec

abbrev Str := List (BitVec 8)
variable {E E' : Str → Str}

theorem xorBytes_len (a b : Str) : (xorBytes a b).length = min a.length b.length := by simp [xorBytes]

theorem streamXor_congr (r : Nat) {F F' : Nat → Str} (h : ∀ i, F i = F' i) (P : Str) : streamXor r F P = streamXor r F' P := by
  rw [show F = F' from funext h]

theorem gcmCipher_congr (h : ∀ x, x.length = 16 → E x = E' x) (iv : Str) (hiv : iv.length = 12) (P : Str) : gcmCipher E iv P = gcmCipher E' iv P :=
  streamXor_congr 16 (fun i => h _ (by simp [hiv, beN])) P

theorem gcmTag_congr (mul : Str → Str → Str) (h : ∀ x, x.length = 16 → E x = E' x) (iv : Str) (hiv : iv.length = 12) (A C : Str) :
    gcmTag mul E iv A C = gcmTag mul E' iv A C := by
  unfold gcmTag
  rw [h (iv ++ beN 4 1) (by simp [hiv, beN]), h (List.replicate 16 0) (by simp)]

/-- Chaining over blocks. -/
theorem fold_congr (h : ∀ x, x.length = 16 → E x = E' x) (hl : ∀ x, x.length = 16 → (E x).length = 16) (f : Str → Str → Str)
    (hf : ∀ a b : Str, a.length = 16 → b.length = 16 → (f a b).length = 16) :
    ∀ (bs : List Str), (∀ b ∈ bs, b.length = 16) → ∀ Y : Str, Y.length = 16 →
      bs.foldl (fun Y B => E (f Y B)) Y = bs.foldl (fun Y B => E' (f Y B)) Y ∧ (bs.foldl (fun Y B => E (f Y B)) Y).length = 16
  | [], _, Y, hY => ⟨rfl, hY⟩
  | b :: bs, hb, Y, hY => by
    have hx := hf Y b hY (hb b (by simp))
    have := fold_congr h hl f hf bs (fun c hc => hb c (by simp [hc])) (E (f Y b)) (hl _ hx)
    simp only [List.foldl_cons]
    rw [← h _ hx]
    exact this

theorem ccmCtr_len (N : Str) (hN : N.length ≤ 13) (i : Nat) : (ccmCtr N i).length = 16 := by simp [ccmCtr, beN]; omega

theorem ccmCipher_congr (h : ∀ x, x.length = 16 → E x = E' x) (N : Str) (hN : N.length ≤ 13) (P : Str) : ccmCipher E N P = ccmCipher E' N P :=
  streamXor_congr 16 (fun i => h _ (ccmCtr_len N hN _)) P

theorem ccmTag_congr (h : ∀ x, x.length = 16 → E x = E' x) (hl : ∀ x, x.length = 16 → (E x).length = 16) (N : Str) (hN : N.length ≤ 13) (A P : Str)
    (t : Nat) : ccmTag E N A P t = ccmTag E' N A P t := by
  unfold ccmTag ccmMac
  rw [h _ (ccmCtr_len N hN 0),
    (fold_congr h hl (fun Y B => xorBytes B Y) (fun a b ha hb => by rw [xorBytes_len]; omega) _ (fun b hb => Spec.mem_blocks_length hb)
      (List.replicate 16 0) (by simp)).1]

theorem cmac_congr (h : ∀ x, x.length = 16 → E x = E' x) (hl : ∀ x, x.length = 16 → (E x).length = 16) (m : Str) : cmac E m = cmac E' m := by
  unfold cmac
  have hb : ∀ b ∈ initBlocks 16 m, b.length = 16 := by
    intro b hb
    unfold initBlocks at hb
    obtain ⟨i, hi, rfl⟩ := List.mem_map.mp hb
    rw [List.mem_range] at hi
    rw [List.length_take, List.length_drop]
    have : i + 1 ≤ (m.length - 1) / 16 := hi
    have := Nat.div_mul_le_self (m.length - 1) 16
    omega
  have hc := fold_congr h hl xorBytes (fun a b ha hb => by rw [xorBytes_len]; omega) _ hb (List.replicate 16 0) (by simp)
  simp only
  rw [← hc.1, ← h (List.replicate 16 0) (by simp)]
  have hlast : (lastBlock 16 m).length ≤ 16 := by
    unfold lastBlock
    rw [List.length_drop]
    omega
  apply h
  rw [xorBytes_len, hc.2]
  split
  · rename_i hx
    rw [xorBytes_len, hx]
    simp [bytes128, beN]
  · rw [xorBytes_len]
    simp [bytes128, beN]
    omega

/-! ### CTR_DRBG -/
section
open Spec.CtrDrbg
variable {F F' : Str → Str → Str} {b k : Nat} (hb : 4 ≤ b) (hF : ∀ K x, K.length = k → x.length = b → F K x = F' K x)
  (hl : ∀ K x, K.length = k → x.length = b → (F K x).length = b)

theorem ctr_len (hb : 4 ≤ b) (V : Str) (hV : V.length = b) (i : Nat) : (ctr b V i).length = b := by
  unfold ctr
  simp [beN]
  omega
include hb hF

theorem keystream_congr (K V : Str) (hK : K.length = k) (hV : V.length = b) (n : Nat) : keystream F b K V n = keystream F' b K V n := by
  unfold keystream
  congr 1
  funext i
  exact hF _ _ hK (ctr_len hb V hV _)

theorem update_congr (D : Str) (s : Str × Str) (hK : s.1.length = k) (hV : s.2.length = b) : update F b k D s = update F' b k D s := by
  unfold update
  rw [keystream_congr hb hF _ _ hK hV]

theorem instantiate_congr (D : Str) : instantiate F b k D = instantiate F' b k D := by
  unfold instantiate
  exact update_congr hb hF D _ (by simp) (by simp)

theorem output_congr (s : Str × Str) (hK : s.1.length = k) (hV : s.2.length = b) (n : Nat) : output F b s n = output F' b s n := by
  unfold output
  rw [keystream_congr hb hF _ _ hK hV]

include hl
theorem bcc_congr (K data : Str) (hK : K.length = k) : bcc F b K data = bcc F' b K data ∧ (bcc F b K data).length = b := by
  unfold bcc
  have : ∀ (bs : List Str) (c : Str), c.length = b →
      bs.foldl (fun c x => F K (xorOnto c x)) c = bs.foldl (fun c x => F' K (xorOnto c x)) c ∧
        (bs.foldl (fun c x => F K (xorOnto c x)) c).length = b := by
    intro bs
    induction bs with
    | nil => exact fun c hc => ⟨rfl, hc⟩
    | cons x bs ih =>
      intro c hc
      have hx : (xorOnto c x).length = b := by simp [xorOnto, hc]
      simp only [List.foldl_cons]
      rw [← hF K _ hK hx]
      exact ih _ (hl K _ hK hx)
  exact this _ _ (by simp)

theorem df_congr (input : Str) (n : Nat) : df F b k input n = df F' b k input n := by
  unfold df
  simp only
  have hK : ((List.range k).map (BitVec.ofNat 8)).length = k := by simp
  have e : ∀ S : Str, ((List.range (nblk b (k + b))).flatMap fun i => bcc F b ((List.range k).map (BitVec.ofNat 8)) (beN 4 i ++ List.replicate (b - 4) 0 ++ S)) =
      (List.range (nblk b (k + b))).flatMap fun i => bcc F' b ((List.range k).map (BitVec.ofNat 8)) (beN 4 i ++ List.replicate (b - 4) 0 ++ S) := by
    intro S
    congr 1
    funext i
    exact (bcc_congr hb hF hl _ _ hK).1
  generalize hS : (beN 4 input.length ++ beN 4 n ++ input ++ [0x80] ++ zeroPad b (beN 4 input.length ++ beN 4 n ++ input ++ [0x80]).length) = S
  rw [← e S]
  have hlen : (((List.range (nblk b (k + b))).flatMap fun i => bcc F b ((List.range k).map (BitVec.ofNat 8)) (beN 4 i ++ List.replicate (b - 4) 0 ++ S)).take
      (k + b)).length = k + b := by
    have : ∀ c, ((List.range c).flatMap fun i => bcc F b ((List.range k).map (BitVec.ofNat 8)) (beN 4 i ++ List.replicate (b - 4) 0 ++ S)).length = c * b := by
      intro c
      induction c with
      | zero => simp
      | succ c ih => rw [List.range_succ, List.flatMap_append, List.length_append, ih]; simp [(bcc_congr hb hF hl _ _ hK).2, Nat.succ_mul]
    rw [List.length_take, this]
    apply Nat.min_eq_left
    unfold nblk
    have h0 : 0 < b := by omega
    have h1 := Nat.div_add_mod (k + b + (b - 1)) b
    have h2 := Nat.mod_lt (k + b + (b - 1)) h0
    rw [Nat.mul_comm] at h1
    omega
  generalize (((List.range (nblk b (k + b))).flatMap fun i => bcc F b ((List.range k).map (BitVec.ofNat 8)) (beN 4 i ++ List.replicate (b - 4) 0 ++ S)).take
      (k + b)) = temp at hlen
  congr 2
  funext i
  have hk : (temp.take k).length = k := by rw [List.length_take]; omega
  have : ∀ j, ((F (temp.take k))^[j] (temp.drop k)) = ((F' (temp.take k))^[j] (temp.drop k)) ∧ ((F (temp.take k))^[j] (temp.drop k)).length = b := by
    intro j
    induction j with
    | zero => exact ⟨rfl, by rw [Function.iterate_zero, id, List.length_drop]; omega⟩
    | succ j ih =>
      rw [Function.iterate_succ_apply', Function.iterate_succ_apply', ← ih.1]
      exact ⟨hF _ _ hk ih.2, hl _ _ hk ih.2⟩
  exact (this _).1
end

end ModeCongr
