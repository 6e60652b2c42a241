import Verif.Cut.Model

/-! # C52: cut -/

namespace Cut
open Go

/-- Exactly one of the three selections is given, as POSIX requires. -/
def WellFormed (o : Options) : Prop :=
  (o.fields ≠ [] ∧ o.bytes = [] ∧ o.chars = []) ∨ (o.fields = [] ∧ o.bytes ≠ [] ∧ o.chars = []) ∨
    (o.fields = [] ∧ o.bytes = [] ∧ o.chars ≠ [])

/-- C52: whatever the options, cut prints nothing and exits with status 1. -/
theorem C52_always_fails (o : Options) : (main o).stdout = [] ∧ (main o).exit = 1 := by
  have : ∃ e, checkArgs o.fields o.bytes o.chars o.delim o.noSplit o.suppress = some e := by
    have : ∀ n : Nat, ∃ e, (if n > 0 then some b!"only specify one of -f, -b, and -c"
        else if n = 0 then some b!"gotta specify at least one of -f, -b, and -c" else none) = some e := by
      intro n
      split
      · exact ⟨_, rfl⟩
      · exact ⟨_, if_pos (by omega)⟩
    exact this _
  obtain ⟨e, he⟩ := this
  simp [main, he]

/-- C52 is false: there is a well-formed invocation, and every well-formed one is rejected with a
message that says there is more than one selection. -/
theorem C52_rejects_well_formed :
    WellFormed { fields := b!"1" } ∧
    ∀ o, WellFormed o → main o = ⟨[], b!"Error: only specify one of -f, -b, and -c", 1⟩ := by
  refine ⟨.inl ⟨by simp, rfl, rfl⟩, ?_⟩
  rintro o (⟨h1, h2, h3⟩ | ⟨h1, h2, h3⟩ | ⟨h1, h2, h3⟩) <;> simp [main, checkArgs, h1, h2, h3]

/-- C52, the part that holds: an invocation with no selection, or with several, is rejected. -/
theorem C52_rejects_ill_formed_partial (o : Options) (_ : ¬ WellFormed o) : (main o).exit = 1 :=
  (C52_always_fails o).2

end Cut
