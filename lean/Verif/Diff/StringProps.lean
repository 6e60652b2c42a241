import Verif.Diff.Patch
import Verif.Diff.Props

/-! # C91: the printed form of the blocks of a diff -/

namespace Diff
open Go

/-- Read the printed form of a block as a marked listing: of each line that begins with one of the marks, the rest
after the mark and a blank. -/
def readMarked (marks : Bytes) (text : Bytes) : List Bytes :=
  (rawLines text).filterMap fun l => if l.head?.any marks.contains then some (l.drop 2) else none

theorem read_block (marks : Bytes) (c : Block Bytes) (m : UInt8) (hm : symbol c.kind = [m]) (h : ∀ v ∈ c.values, nl ∉ v)
    (hn : m ≠ nl) : readMarked marks c.string = if m ∈ marks then c.values else [] := by
  obtain ⟨k, vs⟩ := c
  simp only at hm h
  simp only [readMarked, Block.string, hm]
  rw [rawLines_join]
  · induction vs with
    | nil => simp
    | cons v vs ih =>
      have ih := ih (fun w hw => h w (by simp [hw]))
      by_cases hx : m ∈ marks
      · simp only [hx, if_true] at ih ⊢
        simp only [List.map_cons, List.cons_append, List.nil_append, List.filterMap_cons] at ih ⊢
        simp [hx] at ih ⊢
        exact ih
      · simp only [hx, if_false] at ih ⊢
        simp only [List.map_cons, List.cons_append, List.nil_append, List.filterMap_cons] at ih ⊢
        simp [hx] at ih ⊢
  · intro l hl
    obtain ⟨v, hv, rfl⟩ := List.mem_map.1 hl
    refine ⟨?_, by simp⟩
    simp only [List.cons_append, List.nil_append, List.mem_cons, not_or]
    exact ⟨fun e => hn e.symm, by decide, h v hv⟩

/-- **C91** The printed form of the blocks tells both files: the lines marked with a blank or `-` are the old file, those
marked with a blank or `+` the new one, in order. -/
theorem C91_listing (old new : List Bytes) (ho : ∀ l ∈ old, nl ∉ l) (hn : ∀ l ∈ new, nl ∉ l) :
    (diff old new).flatMap (fun c => readMarked b!" -" c.string) = old ∧
    (diff old new).flatMap (fun c => readMarked b!" +" c.string) = new := by
  obtain ⟨e1, e2⟩ := C11_reconstructs old new
  have hv : ∀ c ∈ diff old new, ∀ v ∈ c.values, nl ∉ v := by
    intro c hc v hv
    by_cases hk : c.kind = .add
    · refine hn v ?_
      rw [← e2]
      exact List.mem_flatMap.2 ⟨c, hc, by simp [hk, hv]⟩
    · refine ho v ?_
      rw [← e1]
      exact List.mem_flatMap.2 ⟨c, hc, by simp [hk, hv]⟩
  have key : ∀ c ∈ diff old new, readMarked b!" -" c.string = (if c.kind = .add then [] else c.values) ∧
      readMarked b!" +" c.string = (if c.kind = .minus then [] else c.values) := by
    intro c hc
    obtain ⟨k, vs⟩ := c
    have h := hv _ hc
    cases k
    · exact ⟨read_block _ _ 32 rfl h (by decide), read_block _ _ 32 rfl h (by decide)⟩
    · exact ⟨read_block _ _ 43 rfl h (by decide), read_block _ _ 43 rfl h (by decide)⟩
    · exact ⟨read_block _ _ 45 rfl h (by decide), read_block _ _ 45 rfl h (by decide)⟩
  constructor
  · refine Eq.trans ?_ e1
    simp only [oldSide, List.flatMap_def]
    exact congrArg List.flatten (List.map_congr_left fun c hc => (key c hc).1)
  · refine Eq.trans ?_ e2
    simp only [newSide, List.flatMap_def]
    exact congrArg List.flatten (List.map_congr_left fun c hc => (key c hc).2)

/-- The mark of a line and the blank after it. -/
def marked : Kind → Bytes → Bytes
  | .equal, v => 32 :: 32 :: v
  | .add, v => 43 :: 32 :: v
  | .minus, v => 45 :: 32 :: v

/-- **C91** Each line of a block is printed on a line of its own behind its mark, with a blank between them. -/
theorem C91_lines (c : Block Bytes) (h : ∀ v ∈ c.values, nl ∉ v) : rawLines c.string = c.values.map (marked c.kind) := by
  obtain ⟨k, vs⟩ := c
  have e : Block.string ⟨k, vs⟩ = join [nl] (vs.map (marked k)) := by cases k <;> rfl
  rw [e, rawLines_join]
  intro l hl
  obtain ⟨v, hv, rfl⟩ := List.mem_map.1 hl
  have := h v hv
  cases k <;> simp [marked, nl] at this ⊢ <;> exact this

example : (diff [b!"a", b!"b"] [b!"a", b!"c"]).map Block.string = [b!"  a", b!"- b", b!"+ c"] := by decide

end Diff
