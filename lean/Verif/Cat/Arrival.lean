import Verif.Cat.Props
import Verif.Go.Drain

/-! # `cat` on files that are read piece by piece (C113, C114) -/

namespace Cat
open Go

/-- main.go:12-32 `writeFile` and `write`: `io.Copy` through its buffer of 32768 bytes. -/
def writeFileFrom (file : Bytes → Except Bytes Source) (stdin : Source) (name : Bytes) : Bytes × Option Bytes × Source :=
  if name = b!"-" then readToEnd (fun _ => 32768) stdin
  else
    match file name with
    | .error e => ([], some e, stdin)
    | .ok f =>
      let x := readToEnd (fun _ => 32768) f
      (x.1, x.2.1, stdin)

/-- main.go:48-54: the loop over the operands. -/
def loopFrom (file : Bytes → Except Bytes Source) : (stdin : Source) → List Bytes → Out
  | _, [] => ⟨[], [], 0⟩
  | stdin, f :: rest =>
    match writeFileFrom file stdin f with
    | (out, some e, _) =>
      ⟨out, b!"Error encountered while attempting to read from " ++ f ++ b!": " ++ e ++ b!"\n", 0⟩
    | (out, none, stdin') =>
      let r := loopFrom file stdin' rest
      { r with stdout := out ++ r.stdout }

/-- main.go:34-55 `main`. -/
def mainFrom (file : Bytes → Except Bytes Source) (stdin : Source) (args : List Bytes) : Out :=
  loopFrom file stdin (operands args)

/-- A whole file. -/
def whole (r : Source) : Stream := ⟨r.bytes, r.err⟩

/-- The files, as whole files. -/
def wholeFiles (file : Bytes → Except Bytes Source) : Bytes → Except Bytes Stream := fun f => (file f).map whole

theorem writeFileFrom_eq (file : Bytes → Except Bytes Source) (hl : ∀ f r, file f = .ok r → r.Lively) (stdin : Source) (hs : stdin.Lively)
    (name : Bytes) : ∃ s', s'.Lively ∧ writeFileFrom file stdin name =
      ((writeFile (wholeFiles file) (whole stdin) name).1, (writeFile (wholeFiles file) (whole stdin) name).2.1, s') ∧
      whole s' = (writeFile (wholeFiles file) (whole stdin) name).2.2 := by
  unfold writeFileFrom writeFile
  split
  · rw [readToEnd_eq _ (fun _ => by decide) _ hs]
    exact ⟨{ stdin with chunks := [] }, fun _ h => (by cases h), rfl, rfl⟩
  · cases hf : file name with
    | error e => exact ⟨stdin, hs, by simp [wholeFiles, hf, Except.map], by simp [wholeFiles, hf, Except.map]⟩
    | ok r =>
      refine ⟨stdin, hs, ?_, by simp [wholeFiles, hf, Except.map]⟩
      simp [readToEnd_eq (fun _ => 32768) (fun _ => by decide) _ (hl name r hf), wholeFiles, hf, Except.map, whole]

/-- **C113** What `cat` does is determined by its arguments, the bytes of its input and the error with which reading ends,
if any; also if standard input is named more than once. -/
theorem C113_cat (file : Bytes → Except Bytes Source) (hl : ∀ f r, file f = .ok r → r.Lively) (stdin : Source) (hs : stdin.Lively)
    (args : List Bytes) : mainFrom file stdin args = main (wholeFiles file) (whole stdin) args := by
  rw [mainFrom, main]
  generalize operands args = fs
  induction fs generalizing stdin with
  | nil => rfl
  | cons f fs ih =>
    obtain ⟨s', h1, h2, h3⟩ := writeFileFrom_eq file hl stdin hs f
    rw [loopFrom, loop, h2]
    generalize writeFile (wholeFiles file) (whole stdin) f = x at h3
    obtain ⟨out, e, s2⟩ := x
    simp only at h3
    cases e with
    | some e => rfl
    | none => simp only [ih s' h1, h3]

example : mainFrom (fun _ => .ok { chunks := [b!"a\nb", b!"c"] }) { chunks := [b!"x", b!"y\n"] } [b!"-", b!"f", b!"-"] =
    { stdout := b!"xy\na\nbc", stderr := [], exit := 0 } := by decide +kernel

/-- **C114** (partial: the exit status is 0 all the same, `C47_exit_zero`) A read error on the first operand is reported,
after what could be read. -/
theorem C114_cat_partial (file : Bytes → Except Bytes Source) (hl : ∀ f r, file f = .ok r → r.Lively) (stdin : Source) (hs : stdin.Lively)
    (f : Bytes) (rest : List Bytes) (r : Source) (e : Bytes) (hu : f ≠ b!"-u") (ho : if f = b!"-" then r = stdin else file f = .ok r)
    (he : r.err = some e) : mainFrom file stdin (f :: rest) =
      { stdout := r.bytes, stderr := b!"Error encountered while attempting to read from " ++ f ++ b!": " ++ e ++ b!"\n", exit := 0 } := by
  rw [C113_cat file hl stdin hs, main]
  have h0 : operands (f :: rest) = f :: rest.filter (· ≠ b!"-u") := by
    have : (f :: rest).filter (· ≠ b!"-u") = f :: rest.filter (· ≠ b!"-u") := List.filter_cons_of_pos (by simpa using hu)
    rw [operands, this, if_neg (by simp)]
  rw [h0, loop]
  by_cases hf : f = b!"-"
  · rw [if_pos hf] at ho
    subst ho
    simp [writeFile, hf, whole, he]
  · rw [if_neg hf] at ho
    simp [writeFile, hf, wholeFiles, ho, Except.map, whole, he]

end Cat
