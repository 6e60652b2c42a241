import Verif.Diff.PatchProps
import Verif.Go.Process
import Verif.Go.Quote

/-!
# The `diff` command

Models `/repo/cmd/diff/main.go`.
-/

namespace Diff
open Go

/-- main.go:12-22 `settings`. -/
structure Settings where
  ignoreTrailingWhitespace : Bool := false
  provideContext : Bool := false
  contextSize : Int := 3
  edFormat : Bool := false
  fFormat : Bool := false
  recursive : Bool := false
  unifiedContext : Bool := false
  file1 : Bytes := []
  file2 : Bytes := []
  deriving DecidableEq, Repr

/-- The errors of `parseSettings` (main.go:38, 53, 58, 67, 74, 77). -/
inductive CmdErr
  /-- main.go:37-39, 52-54: `-C`/`-U` is the last argument -/
  | noNumber (flag : Bytes)
  /-- main.go:57-59: the argument of `-U` is no number -/
  | badNumber (arg : Bytes) (e : NumErr)
  /-- main.go:67 -/
  | thirdFile (arg : Bytes)
  /-- main.go:73-75 -/
  | noFiles
  /-- main.go:76-78 -/
  | oneFile
  deriving DecidableEq, Repr

/-- main.go:28-71, the loop of `parseSettings`. `args[i+1]` is only read under the check `i+1 < len`. -/
def parseLoop (s : Settings) : List Bytes → Except CmdErr Settings
  | [] => .ok s
  | a :: rest =>
    if a = b!"-b" then parseLoop { s with ignoreTrailingWhitespace := true } rest
    else if a = b!"-c" then parseLoop { s with provideContext := true } rest
    else if a = b!"-C" then
      match rest with
      | [] => .error (.noNumber a)
      | v :: rest' => parseLoop { s with provideContext := true, contextSize := (atoi v).1 } rest'
    else if a = b!"-e" then parseLoop { s with edFormat := true } rest
    else if a = b!"-f" then parseLoop { s with fFormat := true } rest
    else if a = b!"-r" then parseLoop { s with recursive := true } rest
    else if a = b!"-u" then parseLoop { s with unifiedContext := true } rest
    else if a = b!"-U" then
      match rest with
      | [] => .error (.noNumber a)
      | v :: rest' =>
        match atoi v with
        | (_, some e) => .error (.badNumber v e)
        | (n, none) => parseLoop { s with unifiedContext := true, contextSize := n } rest'
    else if s.file1 = [] then parseLoop { s with file1 := a } rest
    else if s.file2 = [] then parseLoop { s with file2 := a } rest
    else .error (.thirdFile a)

/-- main.go:24-81 `parseSettings`. -/
def parseSettings (args : List Bytes) : Except CmdErr Settings :=
  match parseLoop {} args with
  | .error e => .error e
  | .ok s => if s.file1 = [] then .error .noFiles else if s.file2 = [] then .error .oneFile else .ok s

/-- main.go:83-95 `readLines`: the lines, which the caller uses whatever the error says: none if the
file cannot be opened, those before the first overlong line otherwise. -/
def readLines (fs : FS) (name : Bytes) : List Bytes :=
  match fs name with
  | none => []
  | some s => (scanLines s).1

/-- The text of an error: main.go:38, 53, 67, 74, 77, and `(*strconv.NumError).Error` (package strconv). -/
def CmdErr.text (p : Nat → Bool) : CmdErr → Bytes
  | .noNumber f => b!"ah heck I though that a number was gonna follow " ++ f
  | .badNumber v .syntax => b!"strconv.Atoi: parsing " ++ quote p v ++ b!": invalid syntax"
  | .badNumber v .range => b!"strconv.Atoi: parsing " ++ quote p v ++ b!": value out of range"
  | .thirdFile a => b!"aww jeez you can only compare two files, " ++ a ++ b!" is the third"
  | .noFiles => b!"oh no you forgot to give any files"
  | .oneFile => b!"oh no you forgot to give the second file"

/-- main.go:97-109 `main`; `p` says which characters outside ASCII are printable. -/
def main (p : Nat → Bool) (fs : FS) (args : List Bytes) : Out :=
  match parseSettings args with
  | .error e => { stdout := b!"Oh heck an error: " ++ e.text p ++ [nl], stderr := [], exit := 1 }
  | .ok s =>
    { stdout := format (diff (readLines fs s.file1) (readLines fs s.file2)) ++ [nl], stderr := [], exit := 0 }

/-! ## Specification: what the arguments mean -/

/-- The options without a value. -/
def plainFlags : List Bytes := [b!"-b", b!"-c", b!"-e", b!"-f", b!"-r", b!"-u"]

/-- `args` consists of options and the operands `ops`: `-C` takes a value, `-U` a number. -/
inductive Parses : List Bytes → List Bytes → Prop
  | done : Parses [] []
  | flag {f args ops} : f ∈ plainFlags → Parses args ops → Parses (f :: args) ops
  | context {v args ops} : Parses args ops → Parses (b!"-C" :: v :: args) ops
  | unified {v args ops} : (atoi v).2 = none → Parses args ops → Parses (b!"-U" :: v :: args) ops
  | operand {a args ops} : a ∉ plainFlags → a ≠ b!"-C" → a ≠ b!"-U" → Parses args ops →
      Parses (a :: args) (a :: ops)

end Diff
