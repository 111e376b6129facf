/-
Sequences that alternate between two values.
-/

namespace Drip.Spec

/-- `a, b, a, b, …`: the list is a prefix of that. -/
def Alternates {α : Type} (a b : α) : List α → Prop
  | [] => True
  | x :: xs => x = a ∧ Alternates b a xs

/-- An alternating list can be continued with the value that comes next. -/
theorem Alternates.snoc {α : Type} {a b x : α} {l : List α} (h : Alternates a b l) (hx : x = if l.length % 2 = 0 then a else b) : Alternates a b (l ++ [x]) := by
  induction l generalizing a b with
  | nil => exact ⟨hx, trivial⟩
  | cons y ys ih =>
    obtain ⟨h1, h2⟩ := h
    refine ⟨h1, ih h2 ?_⟩
    rw [hx, List.length_cons]
    by_cases hp : ys.length % 2 = 0
    · rw [if_pos hp, if_neg (by omega)]
    · rw [if_neg hp, if_pos (by omega)]

/-- The last value of an alternating list. -/
theorem Alternates.last {α : Type} {a b : α} {l : List α} (h : Alternates a b l) : l.getLast? = if l.length = 0 then none else if l.length % 2 = 1 then some a else some b := by
  induction l generalizing a b with
  | nil => rfl
  | cons y ys ih =>
    obtain ⟨h1, h2⟩ := h
    rw [List.getLast?_cons, ih h2, List.length_cons]
    by_cases h0 : ys.length = 0
    · rw [if_pos h0, h0]; simp [h1]
    · rw [if_neg h0, if_neg (show ¬ ys.length + 1 = 0 by omega)]
      by_cases hp : ys.length % 2 = 1
      · rw [if_pos hp, if_neg (show ¬ (ys.length + 1) % 2 = 1 by omega)]; rfl
      · rw [if_neg hp, if_pos (show (ys.length + 1) % 2 = 1 by omega)]; rfl

end Drip.Spec
