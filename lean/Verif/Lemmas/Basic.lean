/-!
# General list lemmas
-/

namespace Shellous

/-- Induction over lists from the right. -/
@[elab_as_elim]
theorem snocInduction {α : Type _} {P : List α → Prop} (l : List α) (nil : P [])
    (snoc : ∀ l a, P l → P (l ++ [a])) : P l := by
  rw [← List.reverse_reverse l]
  induction l.reverse with
  | nil => exact nil
  | cons a l ih => rw [List.reverse_cons]; exact snoc _ _ ih

end Shellous
