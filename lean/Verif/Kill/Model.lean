import Verif.Go.Process
import Verif.Go.Strconv
import Verif.Go.Utf8

/-!
# cmd/kill/main.go

`unicode.ToUpper` outside ASCII is a parameter (`up`), and so are the outcomes of `os.FindProcess` and
`process.Kill` with the texts of their errors. What the runtime prints when the program panics is not modelled.
-/

namespace Kill
open Go

/-- The operating system. -/
structure World where
  /-- `unicode.ToUpper` outside ASCII -/
  up : Nat → Nat
  /-- the text of the error of `os.FindProcess(pid)`, if it fails -/
  findErr : Int → Option Bytes
  /-- the text of the error of `process.Kill()` for the process numbers 0 and -1 -/
  refused : Int → Bytes
  /-- the text of the error of `process.Kill()` for this process, if it fails -/
  killErr : Int → Option Bytes

/-- `unicode.ToUpper`. -/
def upRune (up : Nat → Nat) (r : Nat) : Nat :=
  if 97 ≤ r ∧ r ≤ 122 then r - 32 else if r < 0x80 then r else up r

/-- `strings.ToUpper`; bytes that are not UTF-8 become U+FFFD, as in `strings.Map`. -/
def toUpper (up : Nat → Nat) (s : Bytes) : Bytes := ofRunes ((runes s).map (upRune up))

/-- What a run does: its output, exit status (2 also stands for a panic) and the signals it asked the
kernel to deliver, as (process, signal number) pairs. -/
structure Result where
  stdout : Bytes
  stderr : Bytes
  exit : Nat
  sent : List (Int × Int)
  panic : Option Panic := none
  deriving DecidableEq, Repr

/-- main.go:12-21 `signalMap`. -/
def signalMap (name : Bytes) : Option Int :=
  if name = b!"0" then some 0
  else if name = b!"HUP" then some 1
  else if name = b!"INT" then some 2
  else if name = b!"QUIT" then some 3
  else if name = b!"ABRT" then some 6
  else if name = b!"KILL" then some 9
  else if name = b!"ALRM" then some 14
  else if name = b!"TERM" then some 15
  else none

/-- How the argument loop can end early. -/
inductive Stop where
  /-- main.go:23-26 `errorMsg`: a message and exit status 2 -/
  | error (msg : Bytes)
  | panic (p : Panic)
  deriving DecidableEq, Repr

/-- The variables `signal` and `pid` of `main`. -/
structure State where
  signal : Int := 15
  pid : Int := 0
  deriving DecidableEq, Repr

/-- main.go:48-58: an argument other than `-l` and `-s`. -/
def other (s : State) (a : Bytes) : Except Stop State :=
  match a with
  | [] => .error (.panic .index)
  | c :: cs =>
    if c = 45 then
      match atoi cs with
      | (n, none) => .ok { s with signal := n }
      | (_, some _) => .error (.error (c :: cs ++ b!" isn't a number, bro..."))
    else
      match atoi (c :: cs) with
      | (n, none) => .ok { s with pid := n }
      | (_, some _) => .error (.error (b!"expected a PID here..., got " ++ (c :: cs)))

/-- main.go:35-60: the loop over the arguments. -/
def parseLoop (w : World) (s : State) : List Bytes → Except Stop State
  | [] => .ok s
  | [a] =>
    if a = b!"-l" then .ok s
    else if a = b!"-s" then .error (.panic .index)
    else other s a
  | a :: v :: rest =>
    if a = b!"-l" then parseLoop w s (v :: rest)
    else if a = b!"-s" then
      match signalMap (toUpper w.up v) with
      | some n => parseLoop w { s with signal := n } rest
      | none => .error (.error (a ++ b!" is not a valid signal name - check kill -l for help\n"))
    else
      match other s a with
      | .ok s' => parseLoop w s' (v :: rest)
      | .error e => .error e

/-- main.go:65: the announcement. -/
def announce (s : State) : Bytes := b!"sending " ++ itoa s.signal ++ b!" to " ++ itoa s.pid ++ b!"\n"

/-- main.go:73: the message about a signal that was not sent. -/
def notSent (s : State) (e : Bytes) : Bytes :=
  b!"couldn't send signal " ++ itoa s.signal ++ b!" to " ++ itoa s.pid ++ b!", " ++ e

/-- main.go:28-77 `main`. `process.Kill()` (main.go:71) sends signal 9; package os refuses the process numbers 0 and
-1 without asking the kernel. -/
def main (w : World) (args : List Bytes) : Result :=
  match parseLoop w {} args with
  | .error (.error msg) => ⟨[], msg, 2, [], none⟩
  | .error (.panic p) => ⟨[], [], 2, [], some p⟩
  | .ok s =>
    match w.findErr s.pid with
    | some e => ⟨announce s, b!"couldn't find process with PID of " ++ itoa s.pid ++ b!": " ++ e ++ b!"\n", 2, [], none⟩
    | none =>
      if s.pid = 0 ∨ s.pid = -1 then ⟨announce s, notSent s (w.refused s.pid), 2, [], none⟩
      else
        match w.killErr s.pid with
        | some e => ⟨announce s, notSent s e, 2, [(s.pid, 9)], none⟩
        | none => ⟨announce s ++ b!"vim-go\n", [], 0, [(s.pid, 9)], none⟩

end Kill
