import Verif.TSort.Model

/-! # Specification vocabulary for tsort -/

namespace TSort
open Go

variable {α : Type}

/-- `a` is directly followed by `b` in one `Add` call. -/
def Adjacent (a b : α) (items : List α) : Prop := ∃ pre post, items = pre ++ a :: b :: post

/-- After the `Add` calls `hist`, "a before b" is in force: some call said so and no later call was
the single item `a`. -/
def Constrains (hist : List (List α)) (a b : α) : Prop :=
  ∃ pre items post, hist = pre ++ items :: post ∧ Adjacent a b items ∧ [a] ∉ post

/-- After the `Add` calls `hist`, `x` is known: it was added alone, or with a successor, or it is the
successor in a constraint in force. -/
def Known (hist : List (List α)) (x : α) : Prop :=
  [x] ∈ hist ∨ (∃ items ∈ hist, ∃ b, Adjacent x b items) ∨ ∃ a, Constrains hist a x

/-- `a` stands somewhere before `b`. -/
def Precedes (out : List α) (a b : α) : Prop := ∃ p q r, out = p ++ a :: (q ++ b :: r)

/-- There is a chain of constraints from some item back to itself. -/
def Cyclic (R : α → α → Prop) : Prop := ∃ a, Relation.TransGen R a a

end TSort
