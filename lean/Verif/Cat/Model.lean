import Verif.Go.Process

/-!
# cmd/cat/main.go

Errors when writing to standard output are not modelled. `io.Copy` is modelled by its documentation:
everything readable is copied, then the read error (if any) is returned.
-/

namespace Cat
open Go

/-- An open file: its bytes, and the error that ends reading (`none`: end of file). -/
structure Stream where
  data : Bytes
  err : Option Bytes := none
  deriving DecidableEq, Repr

/-- main.go:17-32 `writeFile` with main.go:12-15 `write`: what is printed, the error, and what is left
of standard input. `file` gives the error of `os.Open` or the open file. -/
def writeFile (file : Bytes → Except Bytes Stream) (stdin : Stream) (name : Bytes) : Bytes × Option Bytes × Stream :=
  if name = b!"-" then (stdin.data, stdin.err, ⟨[], stdin.err⟩)
  else
    match file name with
    | .error e => ([], some e, stdin)
    | .ok f => (f.data, f.err, stdin)

/-- main.go:48-54: the loop over the operands, which stops at the first error. -/
def loop (file : Bytes → Except Bytes Stream) : (stdin : Stream) → List Bytes → Out
  | _, [] => ⟨[], [], 0⟩
  | stdin, f :: rest =>
    match writeFile file stdin f with
    | (out, some e, _) =>
      ⟨out, b!"Error encountered while attempting to read from " ++ f ++ b!": " ++ e ++ b!"\n", 0⟩
    | (out, none, stdin') =>
      let r := loop file stdin' rest
      { r with stdout := out ++ r.stdout }

/-- main.go:35-46: the operands, without `-u`, by default `-`. -/
def operands (args : List Bytes) : List Bytes :=
  let fs := args.filter (· ≠ b!"-u")
  if fs.length = 0 then fs ++ [b!"-"] else fs

/-- main.go:34-55 `main`. -/
def main (file : Bytes → Except Bytes Stream) (stdin : Stream) (args : List Bytes) : Out :=
  loop file stdin (operands args)

end Cat
