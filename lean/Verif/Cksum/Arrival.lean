import Verif.Cksum.Props
import Verif.Go.Drain

/-! # `cksum` on files that are read piece by piece (C113, C114) -/

namespace Cksum
open Go

/-- main.go:14-30 `run` for each operand and main.go:37-39, the loop of `main`; `size` is the room in the buffer of
`ioutil.ReadAll`. -/
def runAllFrom (size : Nat → Nat) (files : Bytes → Option Source) (openErr : Bytes → Bytes) : (stdin : Source) → List Bytes → Out
  | _, [] => { stdout := [], stderr := [], exit := 0 }
  | stdin, f :: rest =>
    if f = b!"-" then
      match readToEnd size stdin with
      | (_, some e, _) => { stdout := [], stderr := b!"couldn't read input " ++ e, exit := 1 }
      | (s, none, stdin') =>
        let r := runAllFrom size files openErr stdin' rest
        { r with stdout := line s f ++ r.stdout }
    else
      match files f with
      | none => { stdout := [], stderr := b!"couldn't open file " ++ openErr f, exit := 1 }
      | some c =>
        match readToEnd size c with
        | (_, some e, _) => { stdout := [], stderr := b!"couldn't read input " ++ e, exit := 1 }
        | (s, none, _) =>
          let r := runAllFrom size files openErr stdin rest
          { r with stdout := line s f ++ r.stdout }

/-- main.go:32-40 `main`. -/
def mainFrom (size : Nat → Nat) (files : Bytes → Option Source) (openErr : Bytes → Bytes) (stdin : Source) (args : List Bytes) : Out :=
  runAllFrom size files openErr stdin (if args = [] then [b!"-"] else args)

/-- The errors of the operating system for these files. -/
def errorsOf (files : Bytes → Option Source) (openErr : Bytes → Bytes) (stdin : Source) : Errors :=
  { openErr := openErr, readErr := fun f => if f = b!"-" then stdin.err else (files f).bind Source.err }

/-- **C113** What `cksum` does is determined by its arguments, the bytes of its input and the error with which reading
ends, if any; also if standard input is named more than once. -/
theorem C113_cksum (size : Nat → Nat) (hz : ∀ n, 0 < size n) (files : Bytes → Option Source) (hl : ∀ f r, files f = some r → r.Lively)
    (openErr : Bytes → Bytes) (stdin : Source) (hs : stdin.Lively) (args : List Bytes) :
    mainFrom size files openErr stdin args =
      main (fun f => (files f).map Source.bytes) (errorsOf files openErr stdin) stdin.bytes args := by
  rw [mainFrom, main]
  generalize (if args = [] then [b!"-"] else args) = fs
  have key : ∀ (fs : List Bytes) (s0 : Source), s0.Lively → s0.err = stdin.err →
      runAllFrom size files openErr s0 fs = runAll (fun f => (files f).map Source.bytes) (errorsOf files openErr stdin) s0.bytes fs := by
    intro fs
    induction fs with
    | nil => intro _ _ _; rfl
    | cons f fs ih =>
      intro s0 h0 he
      rw [runAllFrom, runAll]
      by_cases hf : f = b!"-"
      · have e1 : (errorsOf files openErr stdin).readErr f = s0.err := by simp [errorsOf, hf, he]
        rw [if_pos hf, if_pos hf, readToEnd_eq size hz s0 h0, e1]
        cases hc : s0.err with
        | some e => rfl
        | none =>
          have := ih { s0 with chunks := [] } (fun _ h => by cases h) he
          rw [hc] at this
          simp only
          rw [this]
          simp [Source.bytes]
      · have e1 : (errorsOf files openErr stdin).readErr f = (files f).bind Source.err := by simp [errorsOf, hf]
        rw [if_neg hf, if_neg hf, e1]
        cases hc : files f with
        | none => rfl
        | some c =>
          simp only [Option.map_some, Option.bind_some]
          rw [readToEnd_eq size hz c (hl f c hc)]
          cases hd : c.err with
          | some e => rfl
          | none => simp only [ih s0 h0 he]
  exact key fs stdin hs rfl

example : mainFrom (fun _ => 2) (fun _ => none) (fun _ => []) { chunks := [b!"1234567", b!"89"] } [] =
    { stdout := b!"930766865 9 -\n", stderr := [], exit := 0 } := by
  decide +kernel

/-- **C114** `cksum` prints no checksum of an operand that cannot be read to its end, and exits 1. -/
theorem C114_cksum (size : Nat → Nat) (hz : ∀ n, 0 < size n) (files : Bytes → Option Source) (hl : ∀ f r, files f = some r → r.Lively)
    (openErr : Bytes → Bytes) (stdin : Source) (hs : stdin.Lively) (pre post : List Bytes) (f : Bytes) (r : Source) (e : Bytes)
    (hpre : ∀ g ∈ pre, Readable (fun f => (files f).map Source.bytes) (errorsOf files openErr stdin) g)
    (ho : if f = b!"-" then r = stdin else files f = some r) (he : r.err = some e) :
    mainFrom size files openErr stdin (pre ++ f :: post) =
      { stdout := (pre.zipIdx.map fun p =>
          expectedLine p.1 ((contentOf (fun f => (files f).map Source.bytes) stdin.bytes (pre.take p.2) p.1).getD [])).flatten,
        stderr := b!"couldn't read input " ++ e, exit := 1 } := by
  rw [C113_cksum size hz files hl openErr stdin hs]
  refine C39_unreadable _ _ _ pre post f _ hpre ?_
  by_cases hf : f = b!"-"
  · rw [if_pos hf] at ho
    subst ho
    exact .reading (.inl hf) (by simp [errorsOf, hf, he])
  · rw [if_neg hf] at ho
    exact .reading (.inr ⟨r.bytes, by simp [ho]⟩) (by simp [errorsOf, hf, ho, he])

/-- The hypotheses can be met: the second of two files breaks off. -/
example : mainFrom (fun _ => 512) (fun f => if f = b!"a" then some { chunks := [b!"12345", b!"6789"] } else some { chunks := [b!"1"], err := some b!"input/output error" })
    (fun _ => []) { chunks := [] } [b!"a", b!"b", b!"a"] =
    { stdout := b!"930766865 9 a\n", stderr := b!"couldn't read input input/output error", exit := 1 } := by decide +kernel

end Cksum
