import Verif.Lemmas.Blake3Tree

namespace Blake3
open Spec
open Spec.Blake3 (Output chunkOutput parentOutput)

variable {comp : List Word → List Byte → BitVec 64 → Word → Word → List Word}

/-- Same context but for `branches_filled`, the order and the nodes. -/
structure Frame' (x y : Ctx) : Prop where
  k : y.k = x.k
  t : y.t = x.t
  keyed : y.keyed = x.keyed
  fin : y.finalize = x.finalize
  lf : y.lf = x.lf

theorem Frame.weak {x y : Ctx} (f : Frame x y) : Frame' x y := ⟨f.k, f.t, f.keyed, f.fin, f.lf⟩
theorem Frame'.refl (x : Ctx) : Frame' x x := ⟨rfl, rfl, rfl, rfl, rfl⟩
theorem Frame'.trans {x y z : Ctx} (a : Frame' x y) (b : Frame' y z) : Frame' x z :=
  ⟨b.k.trans a.k, b.t.trans a.t, b.keyed.trans a.keyed, b.fin.trans a.fin, b.lf.trans a.lf⟩
theorem keyOf_frame' {x y : Ctx} (f : Frame' x y) : keyOf y = keyOf x := by
  unfold keyOf; rw [f.k, f.keyed]

theorem RepL_transferK {M : List Byte} {x y : Ctx} (f1 : y.k = x.k) (f2 : y.keyed = x.keyed) :
    ∀ (hs : List Nat) (ix iy s : Nat),
    (∀ j, j < hs.length → node y (iy + j) = node x (ix + j)) → RepL comp M x ix s hs → RepL comp M y iy s hs := by
  have hk : keyOf y = keyOf x := by unfold keyOf; rw [f1, f2]
  intro hs
  induction hs with
  | nil => intro ix iy s _ _; trivial
  | cons h hs ih =>
    intro ix iy s hn hr
    refine ⟨?_, ih (ix + 1) (iy + 1) _ ?_ hr.2⟩
    · have := hr.1
      unfold RepAt at this ⊢
      have e := hn 0 (by simp)
      simp only [Nat.add_zero] at e
      rw [hk, f2, e]; exact this
    · intro j hj
      have := hn (j + 1) (by rw [List.length_cons]; omega)
      rw [show iy + 1 + j = iy + (j + 1) by omega, show ix + 1 + j = ix + (j + 1) by omega]; exact this

theorem RepL_transfer' {M : List Byte} {x y : Ctx} (f : Frame' x y) (hs : List Nat) (ix iy s : Nat)
    (h : ∀ j, j < hs.length → node y (iy + j) = node x (ix + j)) (r : RepL comp M x ix s hs) :
    RepL comp M y iy s hs := RepL_transferK f.k f.keyed hs ix iy s h r

/-- What the climb establishes. -/
structure Climbed (comp : List Word → List Byte → BitVec 64 → Word → Word → List Word) (M : List Byte)
    (x y : Ctx) (hs hs' : List Nat) : Prop where
  wf : WF y
  fr : Frame' x y
  bf : y.bf = hs'.length
  le : hs'.length ≤ hs.length
  ne : hs ≠ [] → hs' ≠ []
  ch : chunks hs' = chunks hs
  desc : Desc hs'
  rep : RepL comp M y 0 0 hs'
  rest : ∀ j, hs.length + j < 65 → node y (hs'.length + j) = node x (hs.length + j)
  fresh : ∀ j, 65 ≤ hs.length + j → hs'.length + j < 65 → Leaf x.keyed (node y (hs'.length + j)) []
  root : hs'.length = 1 → hs.length = 1 ∨ (node y 0).hashed = false

theorem climb_spec (ok : CompOK comp) (M : List Byte) : ∀ (N : Nat) (x : Ctx) (i : Nat) (hs : List Nat),
    x.bf * 66 + (x.bf - i) ≤ N → WF x → x.finalize = false → x.bf = hs.length → hs.length ≤ 65 →
    RepL comp M x 0 0 hs → (2 ≤ chunks hs → 1024 * (chunks hs - 1) < M.length) → hs.Pairwise (· ≥ ·) → Desc (hs.take (i + 1)) →
    ∃ hs', Climbed comp M x (climbLoop comp x i) hs hs' := by
  intro N
  induction N using Nat.strong_induction_on with
  | _ N IH =>
  intro x i hs hN w hf hbf hlen hrep hM hsort hdesc
  unfold climbLoop
  by_cases c : i + 1 < x.bf
  · rw [if_pos c]
    -- split the list at i
    obtain ⟨A, h1, h2, B, rfl, hA⟩ : ∃ A h1 h2 B, hs = A ++ h1 :: h2 :: B ∧ A.length = i := by
      refine ⟨hs.take i, hs[i]'(by omega), hs[i + 1]'(by omega), hs.drop (i + 2), ?_, by rw [List.length_take]; omega⟩
      rw [List.getElem_cons_drop, List.getElem_cons_drop, List.take_append_drop]
    have hrep' := (RepL_append A _ 0 0).1 hrep
    simp only [Nat.zero_add] at hrep'
    rw [hA] at hrep'
    obtain ⟨rA, r1, r2, rB⟩ := hrep'
    have e1 : (node x i).height = h1 := r1.height
    have e2 : (node x (i + 1)).height = h2 := r2.height
    rw [e1, e2]
    have hsplit : (A ++ h1 :: h2 :: B).length = A.length + 2 + B.length := by simp; omega
    rw [hsplit, hA] at hlen hbf
    have hdA : Desc (A ++ [h1]) := by
      have : (A ++ h1 :: h2 :: B).take (i + 1) = A ++ [h1] := by
        rw [← hA]
        rw [List.take_append, List.take_of_length_le (by omega), Nat.add_sub_cancel_left]; rfl
      rw [← this]; exact hdesc
    by_cases ch : h1 = h2
    · rw [if_pos ch]
      subst ch
      simp only []
      obtain ⟨w1, f1, g1, g2, g3, g4, g5⟩ := merge_spec ok w hf (by omega) r1 r2
      -- the joined output
      have hch : chunks (A ++ h1 :: h1 :: B) = chunks A + 2 ^ h1 + 2 ^ h1 + chunks B := by
        rw [chunks_append, chunks_cons, chunks_cons]; omega
      have hp : 0 < 2 ^ h1 := Nat.pow_pos (by decide)
      have hj := sub_join (comp := comp) (keyOf x) x.keyed M (chunks A) h1 (2 ^ h1) hp (le_refl _)
        (by rw [hch] at hM; have := hM (by omega); omega)
      rw [← hj, show 2 ^ h1 + 2 ^ h1 = 2 ^ (h1 + 1) by rw [Nat.pow_succ]; omega] at g2
      -- commit or not
      set y := merge comp x i with hy
      have key : ∃ z, (if i > 0 ∨ y.bf > 2 then commit comp y i else y) = z ∧ WF z ∧ Frame x z ∧
          RepAt comp z i (h1 + 1) (sub comp (keyOf x) x.keyed M (chunks A) (2 ^ (h1 + 1))) ∧
          (∀ j, j < 65 → j ≠ i → node z j = node y j) ∧ (¬ (i > 0 ∨ y.bf > 2) → (node z 0).hashed = false) := by
        by_cases cc : i > 0 ∨ y.bf > 2
        · rw [if_pos cc]
          have g2' : RepAt comp y i (h1 + 1) (sub comp (keyOf x) x.keyed M (chunks A) (2 ^ (h1 + 1))) := g2
          obtain ⟨k1, k2, k3, k4, k5⟩ := commit_spec ok w1 (by rw [f1.fin]; exact hf) (by omega) g2' g1
          exact ⟨_, rfl, k1, f1.trans k2, k3, k5, fun h => absurd cc h⟩
        · rw [if_neg cc]
          have : i = 0 := by omega
          exact ⟨_, rfl, w1, f1, g2, fun _ _ _ => rfl, fun _ => by rw [this] at g1; exact g1⟩
      obtain ⟨z, ez, wz, fz, rz, nz, hz⟩ := key
      rw [ez]
      set z' : Ctx := { z with bf := x.bf - 1 } with hz'
      have wz' : WF z' := ⟨wz.nl, wz.nd, wz.nb, wz.ln, wz.kl⟩
      have fz' : Frame' x z' := ⟨fz.k, fz.t, fz.keyed, fz.fin, fz.lf⟩
      have nodez : ∀ j, node z' j = node z j := fun j => rfl
      have hlow : ∀ j, j < i → node z' j = node x j := by
        intro j hj; rw [nodez, nz j (by omega) (by omega), g3 j hj]
      have hhigh : ∀ j, i < j → j < 64 → node z' j = node x (j + 1) := by
        intro j hj hj2; rw [nodez, nz j (by omega) (by omega), g4 j hj hj2]
      have h64 : Leaf x.keyed (node z' 64) [] := by
        rw [nodez, nz 64 (by omega) (by omega)]; exact g5
      have repz : RepL comp M z' 0 0 (A ++ (h1 + 1) :: B) := by
        rw [RepL_append]
        refine ⟨RepL_transfer' fz' A 0 0 0 (fun j hj => ?_) rA, ?_⟩
        · rw [Nat.zero_add]; exact hlow j (by omega)
        · simp only [Nat.zero_add, hA]
          refine ⟨?_, ?_⟩
          · unfold RepAt
            rw [keyOf_frame' fz', fz'.keyed]
            have := rz
            unfold RepAt at this
            rw [keyOf_frame fz, fz.keyed] at this
            exact this
          · have : chunks A + 2 ^ (h1 + 1) = chunks A + 2 ^ h1 + 2 ^ h1 := by rw [Nat.pow_succ]; omega
            rw [this]
            refine RepL_transfer' fz' B (i + 1 + 1) (i + 1) _ (fun j hj => ?_) rB
            rw [hhigh (i + 1 + j) (by omega) (by omega)]
            congr 1; omega
      have hch' : chunks (A ++ (h1 + 1) :: B) = chunks (A ++ h1 :: h1 :: B) := by
        rw [hch, chunks_append, chunks_cons, Nat.pow_succ]; omega
      have hl' : (A ++ (h1 + 1) :: B).length = i + 1 + B.length := by simp [hA]; omega
      have hsort' : (A ++ (h1 + 1) :: B).Pairwise (· ≥ ·) := by
        rw [List.pairwise_append] at hsort ⊢
        obtain ⟨s1, s2, s3⟩ := hsort
        rw [List.pairwise_cons, List.pairwise_cons] at s2
        refine ⟨s1, ?_, ?_⟩
        · rw [List.pairwise_cons]
          refine ⟨fun b hb => ?_, s2.2.2⟩
          have := s2.1 b (by simp [hb]); omega
        · intro a ha b hb
          rw [List.mem_cons] at hb
          rcases hb with rfl | hb
          · have := (List.pairwise_append.1 hdA).2.2 a ha h1 (by simp); omega
          · exact s3 a ha b (by simp [hb])
      have hdesc' : Desc ((A ++ (h1 + 1) :: B).take (0 + 1)) := by
        cases hq : (A ++ (h1 + 1) :: B) with
        | nil => simp
        | cons a l => simp
      obtain ⟨hs', C⟩ := IH (z'.bf * 66 + (z'.bf - 0)) (by rw [hz']; simp only; omega) z' 0 (A ++ (h1 + 1) :: B)
        (le_refl _) wz' (by rw [fz'.fin]; exact hf) (by rw [hz', hl']; simp only; omega) (by omega) repz
        (by rw [hch']; exact hM) hsort' hdesc'
      refine ⟨hs', ⟨C.wf, fz'.trans C.fr, C.bf, ?_, fun _ => C.ne (by simp), C.ch.trans hch', C.desc, C.rep, ?_, ?_, ?_⟩⟩
      · have := C.le; rw [hl'] at this; rw [hsplit]; omega
      · intro j hj
        rw [hsplit] at hj
        rw [C.rest j (by rw [hl']; omega), hl', hhigh _ (by omega) (by omega), hsplit]
        congr 1; omega
      · intro j hj1 hj2
        rw [hsplit] at hj1
        by_cases c65 : 65 ≤ (A ++ (h1 + 1) :: B).length + j
        · have := C.fresh j c65 hj2
          rw [fz'.keyed] at this; exact this
        · rw [C.rest j (by omega), hl']
          have : i + 1 + B.length + j = 64 := by omega
          rw [this]; exact h64
      · intro h1'
        right
        rcases C.root h1' with h | h
        · -- no further merge: exactly two nodes were there
          rw [hl'] at h
          have hi0 : i = 0 := by omega
          have hy2 : y.bf = x.bf := f1.bf
          have hnh := hz (by omega)
          have hbf1 : z'.bf = 1 := by rw [hz']; simp only; omega
          have : climbLoop comp z' 0 = z' := by
            unfold climbLoop; rw [if_neg (by omega)]
          rw [this]; exact hnh
        · exact h
    · rw [if_neg ch]
      refine IH (x.bf * 66 + (x.bf - (i + 1))) (by omega) x (i + 1) _ (le_refl _) w hf (by rw [hsplit]; omega)
        (by rw [hsplit]; omega) hrep hM hsort ?_
      have : (A ++ h1 :: h2 :: B).take (i + 1 + 1) = A ++ [h1, h2] := by
        rw [← hA, List.take_append, List.take_of_length_le (by omega)]
        congr 1
        rw [show A.length + 1 + 1 - A.length = 2 by omega]; rfl
      rw [this]
      rw [Desc, List.pairwise_append] at hdA ⊢
      have hge : h1 ≥ h2 := by
        have := (List.pairwise_append.1 hsort).2.1
        exact (List.pairwise_cons.1 this).1 h2 (by simp)
      refine ⟨hdA.1, ?_, ?_⟩
      · simp; omega
      · intro a ha b hb
        have h0 := hdA.2.2 a ha h1 (by simp)
        simp only [List.mem_cons, List.not_mem_nil, or_false] at hb
        rcases hb with rfl | rfl
        · exact h0
        · omega
  · rw [if_neg c]
    have hd : Desc hs := by
      have : hs.take (i + 1) = hs := List.take_of_length_le (by omega)
      rw [this] at hdesc; exact hdesc
    exact ⟨hs, ⟨w, Frame'.refl x, hbf, le_refl _, id, rfl, hd, hrep, fun _ _ => rfl, fun j h1 h2 => by omega, Or.inl⟩⟩

end Blake3
