import Verif.Go.Process
import Verif.Go.Strconv

/-!
# cmd/head/main.go

A Go panic ends the process; what had been printed before stays printed. The panic's text on standard
error is not modelled. A read error (for example of a directory) comes from a `Read` call of its own, after the
calls that delivered the data.
-/

namespace Head
open Go

/-- What the process leaves: standard output, and the panic that ended it if any. -/
structure Result where
  stdout : Bytes
  panic : Option Panic
  deriving DecidableEq, Repr

/-- main.go:11-14 `settings`. -/
structure Settings where
  numLines : Int
  filenames : List Bytes
  deriving DecidableEq, Repr

/-- An open file: its bytes, and whether reading ends with an error instead of end-of-file. -/
structure Stream where
  data : Bytes
  err : Bool := false
  deriving DecidableEq, Repr

/-- The operating system: files that can be opened, and what operand number `i` reads if it is `-`
(how much of standard input earlier operands have consumed depends on buffering, so every
possibility is allowed). -/
structure World where
  file : Bytes → Option Stream
  stdinAt : Nat → Stream

/-- main.go:27-38: the loop of `parseSettings`; `panic(err)` of main.go:83 for a bad number. -/
def parseLoop (s : Settings) : List Bytes → M Settings
  | [] => .ok s
  | [a] => if a = b!"-n" then .error .index else .ok { s with filenames := s.filenames ++ [a] }
  | a :: v :: rest =>
    if a = b!"-n" then
      match atoi v with
      | (n, none) => parseLoop { s with numLines := n } rest
      | (_, some _) => .error .explicit
    else parseLoop { s with filenames := s.filenames ++ [a] } (v :: rest)

/-- main.go:40-42: the default operand. -/
def withDefault (s : Settings) : Settings :=
  if s.filenames = [] then { s with filenames := [b!"-"] } else s

/-- main.go:16-45 `parseSettings`. -/
def parseSettings (args : List Bytes) : M Settings :=
  if args = [] then .ok ⟨10, []⟩
  else
    match parseLoop ⟨10, []⟩ args with
    | .ok s => .ok (withDefault s)
    | .error p => .error p

/-- The last line has no newline. -/
def unterminated (data : Bytes) : Bool := data != [] && data.getLast? != some nl

/-- main.go:67-72: the loop over the scanner, given the tokens it delivers and whether it then stops
with an error. The result is the output and whether `scan.Err()` is set afterwards: `Scan` is called
before `j < s.numLines` is tested. If `early` is set the error is already there when the last token is
delivered: the scanner has to read on to find the end of a line without a newline. -/
def scanLoop (n : Int) (fails early : Bool) : (toks : List Bytes) → (j : Nat) → Bytes × Bool
  | [], _ => ([], fails)
  | t :: ts, j =>
    if (j : Int) < n then
      let r := scanLoop n fails early ts (j + 1)
      (t ++ nl :: r.1, r.2)
    else ([], early && ts.isEmpty)

/-- main.go:66-75: what is printed of one file, and whether `scan.Err()` is set. -/
def scanFile (n : Int) (f : Stream) : Bytes × Bool :=
  scanLoop n ((scanLines f.data).2 || f.err) (!(scanLines f.data).2 && f.err && unterminated f.data) (scanLines f.data).1 0

/-- main.go:50-55: the banner. -/
def banner (many : Bool) (i : Nat) (name : Bytes) : Bytes :=
  if many then (if i > 0 then b!"\n" else []) ++ b!"==> " ++ name ++ b!" <==\n" else []

/-- main.go:58-65: the reader of operand number `i`. -/
def openAt (w : World) (i : Nat) (name : Bytes) : Option Stream :=
  if name = b!"-" then some (w.stdinAt i) else w.file name

/-- main.go:49-76: the loop of `process` from operand number `i` on. -/
def processLoop (w : World) (n : Int) (many : Bool) : (i : Nat) → List Bytes → Result
  | _, [] => ⟨[], none⟩
  | i, f :: rest =>
    match openAt w i f with
    | none => ⟨banner many i f, some .explicit⟩
    | some c =>
      let r := scanFile n c
      if r.2 then ⟨banner many i f ++ r.1, some .explicit⟩
      else
        let r' := processLoop w n many (i + 1) rest
        ⟨banner many i f ++ r.1 ++ r'.stdout, r'.panic⟩

/-- main.go:47-78 `process`. -/
def process (w : World) (s : Settings) : Result :=
  processLoop w s.numLines (s.filenames.length > 1) 0 s.filenames

/-- main.go:80-86 `main`. -/
def main (w : World) (args : List Bytes) : Result :=
  match parseSettings args with
  | .error p => ⟨[], some p⟩
  | .ok s => process w s

end Head
