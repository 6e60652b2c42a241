import Verif.Diff.Messages
import Verif.Go.ScannerProps

/-! # `diff` on files that are read piece by piece, and may fail to be read to their end (C113, C114) -/

namespace Diff
open Go

/-- main.go:83-95 `readLines`, on what the open file delivers: the lines, and whether the error it returns is not nil. -/
def readLinesFrom : Option Source → List Bytes × Bool
  | none => ([], true)
  | some r => (((newScanner r).all splitLines).1, ((newScanner r).all splitLines).2.failure.isSome)

/-- main.go:97-109 `main`; `files` are those that can be opened. The error of `readLines` is discarded. -/
def mainFrom (p : Nat → Bool) (files : Bytes → Option Source) (args : List Bytes) : Out :=
  match parseSettings args with
  | .error e => { stdout := b!"Oh heck an error: " ++ e.text p ++ [nl], stderr := [], exit := 1 }
  | .ok s =>
    { stdout := format (diff (readLinesFrom (files s.file1)).1 (readLinesFrom (files s.file2)).1) ++ [nl], stderr := [], exit := 0 }

/-- **C113** What `diff` does is determined by its arguments and the bytes of the files. -/
theorem C113_diff (p : Nat → Bool) (files : Bytes → Option Source) (hl : ∀ f r, files f = some r → r.Lively) (args : List Bytes) :
    mainFrom p files args = main p (fun f => (files f).map Source.bytes) args := by
  have key : ∀ f, (readLinesFrom (files f)).1 = readLines (fun f => (files f).map Source.bytes) f := by
    intro f
    unfold readLines
    cases h : files f with
    | none => simp [readLinesFrom, h]
    | some r => simp [readLinesFrom, h, (all_lines r (hl f r h)).1]
  unfold mainFrom main
  cases parseSettings args with
  | error e => rfl
  | ok s => simp only [key]

/-- Two files, of which the first arrives in two pieces. -/
def exampleFiles : Bytes → Option Source := fun f =>
  if f = b!"a" then some { chunks := [b!"one\ntw", b!"o\n"] } else if f = b!"b" then some { chunks := [b!"one\n"] } else none

example : (∀ f r, exampleFiles f = some r → r.Lively) ∧
    (mainFrom (fun _ => true) exampleFiles [b!"a", b!"b"]).stdout = b!"2d1\n< two\n" := by
  refine ⟨?_, by decide +kernel⟩
  intro f r h
  unfold exampleFiles at h
  split at h
  · obtain rfl := Option.some.inj h; intro c hc; simp at hc; rcases hc with rfl | rfl <;> decide
  · split at h
    · obtain rfl := Option.some.inj h; intro c hc; simp at hc; rw [hc]; decide
    · cases h

/-- **C114** (the code does not do what is expected) If a file cannot be read to its end, `diff` compares what it got of
it, and says nothing about it. -/
theorem C114_diff_ignores (p : Nat → Bool) (files files' : Bytes → Option Source) (hl : ∀ f r, files f = some r → r.Lively)
    (h : ∀ f, files' f = (files f).map (fun r => { r with err := none })) (args : List Bytes) :
    mainFrom p files args = mainFrom p files' args := by
  rw [C113_diff p files hl, C113_diff p files']
  · congr 1
    funext f
    rw [h f]
    cases files f <;> rfl
  · intro f r hr
    rw [h f] at hr
    cases hf : files f with
    | none => rw [hf] at hr; cases hr
    | some r' => rw [hf] at hr; cases hr; exact hl f r' hf

/-- **C114** `diff` finds no difference between a file and one of which it could only read as much. -/
theorem C114_diff_counterexample : ∃ (r : Source), r.err = some b!"read a: input/output error" ∧ r.Lively ∧
    mainFrom (fun _ => true) (fun f => if f = b!"a" then some r else if f = b!"b" then some { chunks := [b!"one\n"] } else none)
      [b!"a", b!"b"] = { stdout := b!"\n", stderr := [], exit := 0 } := by
  refine ⟨{ chunks := [b!"one\n"], err := some b!"read a: input/output error" }, rfl, ?_, by decide +kernel⟩
  intro c hc
  simp at hc
  rw [hc]; decide

end Diff
