import Verif.Lemmas.Chacha
import Verif.Props.Poly1305

/-!
# C24, C25: ChaCha20-Poly1305 (`src/1-symm/chacha.c`, `src/2-encryption/chacha20-poly1305.c`)
-/
namespace Props
open Spec Chacha

/-- C25.  The block function: whatever the context held before, after keying and setting the nonce the 64 bytes
produced for counter `c` are the ChaCha20 block of RFC 8439. -/
theorem C25_chacha20_block (s : List (BitVec 32)) (hs : s.length = 16) (key nonce : List (BitVec 8)) (hk : key.length = 32) (hn : nonce.length = 12) (c : Nat) :
    (keyBlock (setState (setState s (some key) none) none (some nonce)) (BitVec.ofNat 32 c)).2 = chachaBlock key nonce c :=
  (keyBlock_spec _ key nonce (setState_nonce _ key nonce (setState_key s hs key hk) hn) c).2

/-- Test of the modelled code against RFC 8439 2.3.2 (first word of the block). -/
example : ((keyBlock (setState (setState (List.replicate 16 0#32) (some ((List.range 32).map (BitVec.ofNat 8))) none) none
    (some [0, 0, 0, 9, 0, 0, 0, 0x4a, 0, 0, 0, 0])) (BitVec.ofNat 32 1)).2).take 8 = [0x10, 0xf1, 0xe7, 0xe4, 0xd1, 0x3b, 0x59, 0x15] := by
  decide +kernel

/-- The contexts a caller can have for a key: initialised, then used for any number of encryptions and
decryptions (successful or not). -/
inductive ChachaReach (key : List (BitVec 8)) : Ctx → Prop
  | init (x x' : Ctx) : x.state.length = 16 → key.length = 32 → Chacha.init x key = some x' → ChachaReach key x'
  | enc (x x' : Ctx) (iv A : List (BitVec 8)) (len inp out tlen : Nat) (m m' : Spec.Mem) (T : List (BitVec 8)) :
      ChachaReach key x → A.length < 2 ^ 64 → Streamable inp out len → Chacha.encrypt x iv A len inp out tlen m = some (x', m', T) → ChachaReach key x'
  | dec (x : Ctx) (iv A T : List (BitVec 8)) (len inp out : Nat) (m : Spec.Mem) :
      ChachaReach key x → A.length < 2 ^ 64 → Streamable inp out len → ChachaReach key (Chacha.decrypt x iv A len inp out T m).2.1

theorem ChachaReach.hasKey {key : List (BitVec 8)} {x : Ctx} (h : ChachaReach key x) : HasKey x.state key := by
  induction h with
  | init x x' h16 hk hi =>
    unfold Chacha.init at hi
    rw [if_neg (by omega)] at hi
    injection hi with hi
    subst hi
    exact setState_key _ h16 _ hk
  | enc x x' iv A len inp out tlen m m' T hr hA hs he ih =>
    by_cases hp : iv.length = 12 ∧ len < 2 ^ 38
    · obtain ⟨y, hy, e⟩ := Chacha.encrypt_spec x key iv A len inp out tlen m ih hp.1 hA hp.2 hs
      rw [e] at he
      injection he with he
      injection he with he _
      subst he
      exact hy
    · unfold Chacha.encrypt at he
      rw [if_pos (by omega)] at he
      cases he
  | dec x iv A T len inp out m hr hA hs ih =>
    by_cases hp : iv.length = 12 ∧ len < 2 ^ 38
    · obtain ⟨y, hy, e⟩ := Chacha.decrypt_spec x key iv A T len inp out m ih hp.1 hA hp.2 hs
      rw [e]
      split <;> exact hy
    · rw [decrypt_refuse_state _ _ _ _ _ _ _ _ (by omega)]
      exact ih

/-- C25.  For every key there is a tag function (16 bytes; the RFC 8439 tag whenever the Poly1305 accumulator is at least
35, otherwise that of the accumulator or of the accumulator plus 2^130-5, see C21) such that for every context in use with
that key and all nonces, associated data, messages, tag lengths and placements: encryption stores the RFC 8439 ciphertext,
changes no other byte and outputs the tag cut or zero-extended; decryption accepts exactly the tags that match and stores
the RFC 8439 plaintext, and changes no byte of memory when it rejects. -/
theorem C25_chacha_poly1305 (key : List (BitVec 8)) :
    ∃ tag : List (BitVec 8) → List (BitVec 8) → List (BitVec 8) → List (BitVec 8),
      (∀ iv A C, (tag iv A C).length = 16 ∧
        (leNat (tag iv A C) = chachaTag key iv A C ∨ leNat (tag iv A C) = (chachaTag key iv A C + p1305) % 2 ^ 128) ∧
        (35 ≤ chachaAcc key iv A C → leNat (tag iv A C) = chachaTag key iv A C)) ∧
      ∀ (x : Ctx) (iv A T : List (BitVec 8)) (len inp out tlen : Nat) (m : Spec.Mem), ChachaReach key x → iv.length = 12 → A.length < 2 ^ 64 →
        len < 2 ^ 38 → Streamable inp out len →
        (∃ x', Chacha.encrypt x iv A len inp out tlen m =
          some (x', storeAt m out (chachaCipher key iv (bytesAt m inp len)), fitTo (tag iv A (chachaCipher key iv (bytesAt m inp len))) tlen)) ∧
        (∃ x', Chacha.decrypt x iv A len inp out T m =
          if T = fitTo (tag iv A (bytesAt m inp len)) T.length then (true, x', storeAt m out (chachaCipher key iv (bytesAt m inp len)))
          else (false, x', m)) := by
  refine ⟨codeTag key, fun iv A C => ⟨(Poly1305.tag_leNat _).2, ?_, ?_⟩, ?_⟩
  · exact C21_tag_two_values _ (by simp [chachaPolyKey, length_chachaBlock]) _ (fun b hb => mem_blocks_length hb)
  · intro h
    exact (C21_poly1305_partial _ (by simp [chachaPolyKey, length_chachaBlock]) _ (fun b hb => mem_blocks_length hb) h).2
  · intro x iv A T len inp out tlen m hr hiv hA hlen hs
    obtain ⟨x1, _, e1⟩ := Chacha.encrypt_spec x key iv A len inp out tlen m hr.hasKey hiv hA hlen hs
    obtain ⟨x2, _, e2⟩ := Chacha.decrypt_spec x key iv A T len inp out m hr.hasKey hiv hA hlen hs
    exact ⟨⟨x1, e1⟩, ⟨x2, e2⟩⟩

/-- C25.  Round trip, with any two contexts in use for the key. -/
theorem C25_roundtrip (key : List (BitVec 8)) (x y : Ctx) (hx : ChachaReach key x) (hy : ChachaReach key y) (iv A : List (BitVec 8)) (len inp out out2 tlen : Nat) (m : Spec.Mem)
    (hiv : iv.length = 12) (hA : A.length < 2 ^ 64) (hlen : len < 2 ^ 38) (hs : Streamable inp out len) (hs2 : Streamable out out2 len) :
    ∃ x' m1 T, Chacha.encrypt x iv A len inp out tlen m = some (x', m1, T) ∧
      (Chacha.decrypt y iv A len out out2 T m1).1 = true ∧
      bytesAt (Chacha.decrypt y iv A len out out2 T m1).2.2 out2 len = bytesAt m inp len := by
  obtain ⟨x1, _, e1⟩ := Chacha.encrypt_spec x key iv A len inp out tlen m hx.hasKey hiv hA hlen hs
  refine ⟨x1, _, _, e1, ?_⟩
  obtain ⟨C, hC⟩ : ∃ C, C = chachaCipher key iv (bytesAt m inp len) := ⟨_, rfl⟩
  rw [← hC]
  have hCl : C.length = len := by rw [hC, length_cipher, Aead.length_bytesAt]
  have hb : bytesAt (storeAt m out C) out len = C := by
    apply Aead.list_ext_getD (by rw [Aead.length_bytesAt, hCl])
    intro k hk
    rw [Aead.length_bytesAt] at hk
    rw [Aead.getD_bytesAt _ _ _ _ hk]
    unfold storeAt
    rw [if_pos (by omega), show out + k - out = k by omega]
  obtain ⟨x2, _, e2⟩ := Chacha.decrypt_spec y key iv A (fitTo (codeTag key iv A C) tlen) len out out2 (storeAt m out C) hy.hasKey hiv hA hlen hs2
  rw [e2, hb, Aead.length_fitTo, if_pos rfl]
  refine ⟨rfl, ?_⟩
  have hP : chachaCipher key iv C = bytesAt m inp len := by
    rw [hC]; unfold chachaCipher
    exact Aead.streamXor_twice 64 (by omega) _ (fun i => length_chachaBlock _ _ _) _
  simp only []
  rw [hP]
  apply Aead.list_ext_getD (by rw [Aead.length_bytesAt, Aead.length_bytesAt])
  intro k hk
  rw [Aead.length_bytesAt] at hk
  rw [Aead.getD_bytesAt _ _ _ _ hk]
  unfold storeAt
  rw [if_pos (by rw [Aead.length_bytesAt]; omega), show out2 + k - out2 = k by omega]

/-- C25.  Bad key, nonce and message lengths are refused; nothing is written. -/
theorem C25_refusals (x : Ctx) (iv A T K : List (BitVec 8)) (len inp out tlen : Nat) (m : Spec.Mem) :
    (K.length ≠ 32 → Chacha.init x K = none) ∧
    (iv.length ≠ 12 ∨ 2 ^ 38 ≤ len → Chacha.encrypt x iv A len inp out tlen m = none ∧ Chacha.decrypt x iv A len inp out T m = (false, x, m)) := by
  refine ⟨fun h => if_pos h, fun h => ⟨?_, decrypt_refuse_state _ _ _ _ _ _ _ _ h⟩⟩
  unfold Chacha.encrypt
  exact if_pos h

/-- Non-vacuity for C25: a context is reachable, and after an encryption another one is. -/
example : ∃ x x' : Ctx, ChachaReach (List.replicate 32 5#8) x ∧ ChachaReach (List.replicate 32 5#8) x' ∧ x.state ≠ x'.state := by
  let z : Poly1305.Ctx := ⟨Poly1305.zero, Poly1305.zero, Poly1305.zero⟩
  have h0 : ChachaReach (List.replicate 32 5#8) ⟨setState (List.replicate 16 0) (some (List.replicate 32 5#8)) none, z⟩ :=
    ChachaReach.init ⟨List.replicate 16 0, z⟩ _ (by simp) (by simp) (if_neg (by simp))
  refine ⟨_, _, h0, ChachaReach.dec _ (List.replicate 12 9#8) [] [1#8] 0 0 0 (fun _ => 0) h0 (by simp) (Or.inl (le_refl _)), ?_⟩
  intro h
  have := congrArg (fun l => l.getD 13 0) h
  revert this
  rw [Chacha.decrypt, if_neg (by simp), if_neg (by simp)]
  simp only []
  split
  · decide +kernel
  · rw [cryptLoop, if_neg (by omega)]
    decide +kernel

/-- C24 (ChaCha20-Poly1305, partial).  For messages of at most 2^38 - 64 bytes the block function is applied to pairwise
distinct states for the one-time key (`Z`) and the message blocks (`B i`).  Missing: the accepted lengths
2^38 - 63 .. 2^38 - 1, for which it is false (`C24_chacha_onetime_key_reused`). -/
theorem C24_chacha_distinct_partial (key iv : List (BitVec 8)) (len : Nat) (hlen : len ≤ 2 ^ 38 - 64) :
    ∃ (Z : Nat → BitVec 32) (B : Nat → Nat → BitVec 32),
      (∀ i j, i < (len + 63) / 64 → j < (len + 63) / 64 → B i = B j → i = j) ∧ (∀ i, i < (len + 63) / 64 → B i ≠ Z) ∧
      chachaPolyKey key iv = (chachaCore Z).take 32 ∧
      ∀ (x : Ctx) (A : List (BitVec 8)) (inp out tlen : Nat) (m : Spec.Mem), ChachaReach key x → iv.length = 12 → A.length < 2 ^ 64 → Streamable inp out len →
        ∃ x' T, Chacha.encrypt x iv A len inp out tlen m =
          some (x', storeAt m out (streamXor 64 (fun i => chachaCore (B i)) (bytesAt m inp len)), T) := by
  have inj : ∀ x y, x < 2 ^ 32 → y < 2 ^ 32 → chachaState key iv x = chachaState key iv y → x = y := by
    intro x y hx hy h
    have := congrArg BitVec.toNat (congrFun h 12)
    unfold chachaState at this
    simp only [Nat.reduceLT, if_false, if_true] at this
    rw [BitVec.toNat_ofNat, BitVec.toNat_ofNat] at this
    omega
  refine ⟨chachaState key iv 0, fun i => chachaState key iv (i + 1), ?_, ?_, rfl, ?_⟩
  · intro i j hi hj h
    have := inj _ _ (by omega) (by omega) h
    omega
  · intro i hi h
    have := inj _ _ (by omega) (by omega) h
    omega
  · intro x A inp out tlen m hx hiv hA hs
    obtain ⟨x1, _, e1⟩ := Chacha.encrypt_spec x key iv A len inp out tlen m hx.hasKey hiv hA (by omega) hs
    exact ⟨x1, _, e1⟩

/-- C24.  For the accepted lengths above 2^38 - 64 the last block of the message is enciphered with the very block whose
first 32 bytes are the one-time Poly1305 key: for every key, nonce, associated data and message. -/
theorem C24_chacha_onetime_key_reused (key iv A : List (BitVec 8)) (x : Ctx) (hx : ChachaReach key x) (hiv : iv.length = 12) (hA : A.length < 2 ^ 64)
    (len inp out tlen : Nat) (hlo : 2 ^ 38 - 64 < len) (hhi : len < 2 ^ 38) (m : Spec.Mem) (hs : Streamable inp out len) :
    ∃ x' m' T, Chacha.encrypt x iv A len inp out tlen m = some (x', m', T) ∧
      ∀ k, k < len - (2 ^ 38 - 64) → k < 32 →
        m' (out + (2 ^ 38 - 64 + k)) = m (inp + (2 ^ 38 - 64 + k)) ^^^ (chachaPolyKey key iv).getD k 0 := by
  obtain ⟨x1, _, e1⟩ := Chacha.encrypt_spec x key iv A len inp out tlen m hx.hasKey hiv hA hhi hs
  refine ⟨x1, _, _, e1, fun k hk h32 => ?_⟩
  unfold storeAt
  rw [if_pos (by rw [length_cipher, Aead.length_bytesAt]; omega), show out + (2 ^ 38 - 64 + k) - out = 2 ^ 38 - 64 + k by omega]
  unfold chachaCipher
  rw [Aead.getD_streamXor 64 (by omega) _ (fun i => length_chachaBlock _ _ _) _ _ (by rw [Aead.length_bytesAt]; omega),
    Aead.getD_bytesAt _ _ _ _ (by omega), show (2 ^ 38 - 64 + k) / 64 + 1 = 2 ^ 32 by omega, show (2 ^ 38 - 64 + k) % 64 = k by omega]
  have : chachaBlock key iv (2 ^ 32) = chachaBlock key iv 0 := by
    unfold chachaBlock
    have : chachaState key iv (2 ^ 32) = chachaState key iv 0 := by
      funext i
      unfold chachaState
      rw [show (BitVec.ofNat 32 (2 ^ 32)) = BitVec.ofNat 32 0 from rfl]
    rw [this]
  rw [this]
  unfold chachaPolyKey
  rw [List.getD_eq_getElem?_getD (l := List.take _ _), List.getElem?_take, if_pos h32, List.getD_eq_getElem?_getD]

end Props
