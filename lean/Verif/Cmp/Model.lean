import Verif.Go.Process
import Verif.Go.Strconv

/-!
# cmd/cmp/main.go

The counters `i` and `l` are unbounded here (64-bit `int` in Go). A file is a byte string that ends
either with end-of-file or with a read error. The two readers share one descriptor when both
operands are `-`; how the reads then divide standard input between them is a parameter.
-/

namespace Cmp
open Go

/-- main.go:10-15 `settings`. -/
structure Settings where
  writeAll : Bool := false
  silent : Bool := false
  file1 : Bytes := []
  file2 : Bytes := []
  deriving DecidableEq, Repr

/-- An open file: its bytes and how reading ends (`none`: `io.EOF`). -/
structure Stream where
  data : Bytes
  err : Option Bytes := none
  deriving DecidableEq, Repr

/-- The operating system as `cmp` sees it. -/
structure World where
  /-- files that `os.Open` accepts -/
  file : Bytes → Option Stream
  stdin : Stream
  /-- what each of two readers of standard input gets -/
  shared : Stream × Stream

/-- main.go:21-34: one round of the loop of `parseSettings`. -/
def parseArg (s : Settings) (a : Bytes) : Except Bytes Settings :=
  if a = b!"-l" then .ok { s with writeAll := true }
  else if a = b!"-s" then .ok { s with silent := true }
  else if s.file1 = [] then .ok { s with file1 := a }
  else if s.file2 = [] then .ok { s with file2 := a }
  else .error (b!"too many files: " ++ a)

/-- main.go:19-36: the loop of `parseSettings`. -/
def parseLoop (s : Settings) : List Bytes → Except Bytes Settings
  | [] => .ok s
  | a :: rest =>
    match parseArg s a with
    | .ok s' => parseLoop s' rest
    | .error e => .error e

/-- main.go:17-37 `parseSettings`. -/
def parseSettings (args : List Bytes) : Except Bytes Settings := parseLoop {} args

/-- main.go:39-44 `open`. -/
def openFile (w : World) (name : Bytes) : Option Stream :=
  if name = b!"-" then some w.stdin else w.file name

/-- main.go:106-118: an error of `parseSettings` or `cmp`. -/
def fail (msg : Bytes) : Out := { stdout := [], stderr := b!"Error: " ++ msg, exit := 2 }

/-- main.go:67-73: the report of one difference. -/
def report (s : Settings) (i l : Nat) (b1 b2 : UInt8) : Bytes :=
  if s.silent then []
  else if s.writeAll then
    natToDec i ++ b!" " ++ natToOct b1.toNat ++ b!" " ++ natToOct b2.toNat ++ b!"\n"
  else
    s.file1 ++ b!" " ++ s.file2 ++ b!" differ: char " ++ natToDec i ++ b!", line " ++ natToDec l ++ b!"\n"

/-- main.go:83-99: at least one `ReadByte` did not deliver a byte. `e1`, `e2`: `none` for a byte,
`some none` for `io.EOF`, `some (some msg)` for another error. -/
def atEnd (s : Settings) (e1 e2 : Option (Option Bytes)) : Out :=
  if e1 = some none ∧ e2 = some none then { stdout := [], stderr := [], exit := 0 }
  else
    match e1 with
    | some none => { stdout := [], stderr := b!"cmp: EOF on " ++ s.file1 ++ b!"\n", exit := 1 }
    | some (some m) => fail (b!"Error reading " ++ s.file1 ++ b!": " ++ m)
    | none =>
      match e2 with
      | some none => { stdout := [], stderr := b!"cmp: EOF on " ++ s.file2 ++ b!"\n", exit := 1 }
      | some (some m) => fail (b!"Error reading " ++ s.file2 ++ b!": " ++ m)
      | none => { stdout := [], stderr := [], exit := 0 }

/-- main.go:60-103: the loop of `cmp`, up to the end of the process. -/
def loop (s : Settings) (end1 end2 : Option Bytes) : (d1 d2 : Bytes) → (i l : Nat) → Out
  | b1 :: d1, b2 :: d2, i, l =>
    if b1 ≠ b2 ∧ ¬ s.writeAll then { stdout := report s i l b1 b2, stderr := [], exit := 1 }
    else
      let r := loop s end1 end2 d1 d2 (i + 1) (if b1 = nl then l + 1 else l)
      { r with stdout := (if b1 ≠ b2 then report s i l b1 b2 else []) ++ r.stdout }
  | [], [], _, _ => atEnd s (some end1) (some end2)
  | [], _ :: _, _, _ => atEnd s (some end1) none
  | _ :: _, [], _, _ => atEnd s none (some end2)

/-- main.go:46-104 `cmp`. -/
def cmp (w : World) (s : Settings) : Out :=
  match openFile w s.file1 with
  | none => fail (b!"could not open " ++ s.file1)
  | some f1 =>
    match openFile w s.file2 with
    | none => fail (b!"could not open " ++ s.file2)
    | some f2 =>
      if s.file1 = b!"-" ∧ s.file2 = b!"-" then
        loop s w.shared.1.err w.shared.2.err w.shared.1.data w.shared.2.data 1 1
      else loop s f1.err f2.err f1.data f2.data 1 1

/-- main.go:106-118 `main`. -/
def main (w : World) (args : List Bytes) : Out :=
  match parseSettings args with
  | .error e => fail e
  | .ok s => cmp w s

end Cmp
