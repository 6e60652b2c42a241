import Verif.Diff.Patch

/-! # C15, C16: the printed diff -/

namespace Diff
open Go

theorem mem_sides (cs : List (Block Bytes)) (c : Block Bytes) (hc : c ∈ cs) (l : Bytes)
    (hl : l ∈ c.values) : l ∈ oldSide cs ∨ l ∈ newSide cs := by
  obtain ⟨k, vs⟩ := c
  cases k
  · left; exact List.mem_flatMap.2 ⟨_, hc, by simpa using hl⟩
  · right; exact List.mem_flatMap.2 ⟨_, hc, by simpa using hl⟩
  · left; exact List.mem_flatMap.2 ⟨_, hc, by simpa using hl⟩

theorem diff_lines_plain (old new : List Bytes) (ho : ∀ l ∈ old, nl ∉ l) (hn : ∀ l ∈ new, nl ∉ l) :
    ∀ c ∈ diff old new, ∀ l ∈ c.values, nl ∉ l := by
  intro c hc l hl
  obtain ⟨h1, h2⟩ := C11_reconstructs old new
  rcases mem_sides _ c hc l hl with h | h
  · exact ho l (h1 ▸ h)
  · exact hn l (h2 ▸ h)

/-- C15: the printed diff, read by an independent reader of POSIX normal diffs and applied to the
old file by an independent patcher that checks every quoted line, gives the new file. -/
theorem C15_patch_applies (old new : List Bytes) (ho : ∀ l ∈ old, nl ∉ l) (hn : ∀ l ∈ new, nl ∉ l) :
    applyPatch old (format (diff old new)) = some new := by
  have hne := (C13_normal_form old new).1
  unfold applyPatch
  rw [readPatch_format _ hne (diff_lines_plain old new ho hn)]
  have := applyHunks_hunksOf (diff old new) hne 0 0 0 [] rfl
  simp only [List.nil_append, (C11_reconstructs old new).1, (C11_reconstructs old new).2] at this
  simpa using this

example : applyPatch [b!"a", b!"b", b!"c"] (format (diff [b!"a", b!"b", b!"c"] [b!"b", b!"x", b!"y"])) =
    some [b!"b", b!"x", b!"y"] := by decide

/-- C16: the printed diff reads as a list of hunks, each naming exactly the lines it quotes, in
increasing order in both files and separated by unchanged lines. -/
theorem C16_headers_truthful (old new : List Bytes) (ho : ∀ l ∈ old, nl ∉ l)
    (hn : ∀ l ∈ new, nl ∉ l) :
    ∃ hs, readPatch (format (diff old new)) = some hs ∧ (∀ h ∈ hs, h.Truthful old new) ∧ Ordered hs := by
  have hno := C13_normal_form old new
  refine ⟨hunksOf 0 0 (diff old new), readPatch_format _ hno.1 (diff_lines_plain old new ho hn), ?_,
    ordered_hunksOf _ hno 0 0⟩
  have := truthful_hunksOf (diff old new) hno.1 0 0 [] [] rfl rfl
  simpa only [List.nil_append, (C11_reconstructs old new).1, (C11_reconstructs old new).2] using this

example : readPatch (format (diff [b!"a", b!"b", b!"c"] [b!"b", b!"x", b!"y"])) =
    some [⟨100, 1, 1, 0, 0, [b!"a"], []⟩, ⟨99, 3, 3, 2, 3, [b!"c"], [b!"x", b!"y"]⟩] := by decide

/-- C15/C16: two different files never print the same diff against the same old file. -/
theorem C15_injective (old new new' : List Bytes) (ho : ∀ l ∈ old, nl ∉ l) (hn : ∀ l ∈ new, nl ∉ l)
    (hn' : ∀ l ∈ new', nl ∉ l) (h : format (diff old new) = format (diff old new')) : new = new' := by
  have h1 := C15_patch_applies old new ho hn
  have h2 := C15_patch_applies old new' ho hn'
  rw [h, h2] at h1
  exact (Option.some.inj h1).symm

end Diff
