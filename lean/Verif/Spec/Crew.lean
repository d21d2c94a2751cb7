/-!
# What a caller of the thread crew expects

A caller's program is a list of calls; the specification only speaks about that list.
-/
namespace Spec.Crew

/-- The number of enqueue calls since the previous wait, for each wait in the list (`k` enqueue calls precede). -/
def waitCounts {C : Type} (isWait : C → Bool) : Nat → List C → List Int
  | _, [] => []
  | k, c :: cs => if isWait c then (k : Int) :: waitCounts isWait 0 cs else waitCounts isWait (k + 1) cs

/-- The number of enqueue calls since the last wait. -/
def sinceWait {C : Type} (isWait : C → Bool) : Nat → List C → Nat
  | k, [] => k
  | k, c :: cs => if isWait c then sinceWait isWait 0 cs else sinceWait isWait (k + 1) cs

theorem waitCounts_append {C : Type} (w : C → Bool) (k : Nat) (l : List C) (c : C) :
    waitCounts w k (l ++ [c]) = if w c then waitCounts w k l ++ [(sinceWait w k l : Int)] else waitCounts w k l := by
  induction l generalizing k with
  | nil => simp only [List.nil_append, waitCounts, sinceWait]
  | cons d l ih =>
    simp only [List.cons_append, waitCounts, sinceWait]
    cases w d
    · simp only [Bool.false_eq_true, if_false]; exact ih (k + 1)
    · simp only [if_true]; rw [ih 0]; split <;> rfl

theorem sinceWait_append {C : Type} (w : C → Bool) (k : Nat) (l : List C) (c : C) :
    sinceWait w k (l ++ [c]) = if w c then 0 else sinceWait w k l + 1 := by
  induction l generalizing k with
  | nil => simp only [List.nil_append, sinceWait]
  | cons d l ih =>
    simp only [List.cons_append, sinceWait]
    cases w d
    · simp only [Bool.false_eq_true, if_false]; exact ih (k + 1)
    · simp only [if_true]; exact ih 0

end Spec.Crew
