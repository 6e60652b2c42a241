import Verif.Ed.Peg
import Verif.Ed.Editor

/-!
# pkg/ed/ed.go: reading commands; cmd/ed/main.go

A goroutine reads and parses, the main goroutine executes. They share the writer and an unbuffered
channel. The two are a transition system, one step per action another goroutine or the user can see.
-/

namespace Ed
open Go

/-! ## Grouping lines -/

/-- A byte repeated, then the rest of the pattern: `p*k`, with backtracking. -/
def starK (p : UInt8 → Bool) (k : Bytes → Bool) : Bytes → Bool
  | [] => k []
  | c :: cs => k (c :: cs) || (p c && starK p k cs)

/-- `\s` of package regexp. -/
def isS (c : UInt8) : Bool := c == 9 || c == 10 || c == 12 || c == 13 || c == 32

/-- `[0-9.$]` -/
def isA (c : UInt8) : Bool := isDigit c || c == 46 || c == 36

/-- `,?k` -/
def optComma (k : Bytes → Bool) : Bytes → Bool
  | [] => k []
  | c :: cs => (c == 44 && k cs) || k (c :: cs)

/-- `[aic]k` -/
def letterK (k : Bytes → Bool) : Bytes → Bool
  | [] => false
  | c :: cs => (c == 97 || c == 105 || c == 99) && k cs

/-- ed.go:18 `multlineCmdStart`: `^\s*[0-9.$]*\s*,?\s*[0-9.$]*\s*[aic]\s*$` -/
def isStart : Bytes → Bool :=
  starK isS <| starK isA <| starK isS <| optComma <| starK isS <| starK isA <| starK isS <| letterK <| starK isS List.isEmpty

/-- ed.go:216-226: the texts given to the parser (without the newline added to each), from the lines of the
scanner. The first argument is the command being collected, last line first. -/
def groups : Option (List Bytes) → List Bytes → List Bytes
  | none, [] => []
  | some b, [] => [join [nl] b.reverse]
  | none, l :: ls => if isStart l then groups (some [l]) ls else l :: groups none ls
  | some b, l :: ls => if l = b!"." then join [nl] (l :: b).reverse :: groups none ls else groups (some (l :: b)) ls

/-- ed.go:220-225: whether a block is still open after these lines; the first argument says whether it is before
them. -/
def inBlock : Bool → List Bytes → Bool
  | b, [] => b
  | false, l :: ls => inBlock (isStart l) ls
  | true, l :: ls => inBlock (!(l == b!".")) ls

/-- ed.go:215-226 when a line is too long for the scanner: the scanner reports the end of its input. If that ends
the loop for the lines of a block, the outer loop calls the scanner again, and once its error is set it
delivers what is in its buffer, the first 65536 bytes of the long line, as one more line. -/
def resumed (input : Bytes) : List Bytes :=
  match (rawLines input).find? (fun l => decide (maxToken ≤ l.length)) with
  | none => []
  | some l => if inBlock false (scanLines input).1 then [dropCR (l.take maxToken)] else []

/-- ed.go:215-226: all the texts given to the parser. (The line of `resumed` is a text of its own even if it starts a
block, for nothing follows.) -/
def texts (input : Bytes) : List Bytes := groups none (scanLines input).1 ++ resumed input

/-! ## The two goroutines -/

/-- What the reader does, in order: write a parse error to the output, send a command, or print on standard output: a
text block it has parsed, or the error of the scanner. -/
inductive Ev where
  | report (msg : Bytes)
  | send (c : Command)
  | say (msg : Bytes)
  deriving DecidableEq, Repr

/-- ed.peg.go:449-451: what is printed for a text block, `fmt.Println("t", text)`. -/
def echoLine (t : Bytes) : Bytes := b!"t " ++ t ++ [nl]

/-- The effects of `Execute` as actions of the reader, which calls it (ed.go:239). -/
def Emit.ev : Emit → Ev
  | .show t => .say (echoLine t)
  | .send c => .send c

/-- ed.go:229-240: the actions for one text. `errText` is the text of a parse error. -/
def eventsOf (errText : Bytes → Bytes) (text : Bytes) : List Ev :=
  match parseEmits (text ++ [nl]) with
  | none => [.report (63 :: errText (text ++ [nl]) ++ [nl])]
  | some es => es.map Emit.ev

/-- ed.go:241-243: an over-long line is reported on standard output, whatever the writer is. -/
def scanError (tooLong : Bool) : List Ev := if tooLong then [.say b!"Err: bufio.Scanner: token too long\n"] else []

/-- If no line is too long nothing is resumed. -/
theorem resumed_short {input : Bytes} (h : (scanLines input).2 = false) : resumed input = [] := by
  have key : ∀ raw : List Bytes, (scanTokens raw).2 = false → raw.find? (fun l => decide (maxToken ≤ l.length)) = none := by
    intro raw
    induction raw with
    | nil => intro _; rfl
    | cons l ls ih =>
      intro h
      simp only [scanTokens] at h
      split at h
      · next hl => rw [List.find?_cons, decide_eq_false (by omega)]; exact ih h
      · cases h
  rw [resumed, key _ h]

theorem texts_short {input : Bytes} (h : (scanLines input).2 = false) : texts input = groups none (scanLines input).1 := by
  rw [texts, resumed_short h, List.append_nil]

/-- ed.go:213-246: the actions of the reader on its input; then it closes the channel. -/
def program (errText : Bytes → Bytes) (input : Bytes) : List Ev :=
  (texts input).flatMap (eventsOf errText) ++ scanError (scanLines input).2

/-- The number of an address type (address.go:9-18, `iota`). -/
def AddrType.code : AddrType → Nat
  | .null => 0 | .current => 1 | .last => 2 | .num => 3 | .offset => 4 | .regex => 5 | .regexReverse => 6 | .mark => 7

/-- The number of a command type (command.go:16-47, `iota`). -/
def CmdType.code : CmdType → Nat
  | .null => 0 | .append => 1 | .change => 2 | .delete => 3 | .edit => 4 | .editForce => 5 | .filename => 6 | .global => 7
  | .interactive => 8 | .help => 9 | .helpMode => 10 | .insert => 11 | .join => 12 | .mark => 13 | .list => 14 | .move => 15
  | .number => 16 | .print => 17 | .prompt => 18 | .quit => 19 | .quitForce => 20 | .read => 21 | .substitute => 22
  | .copy => 23 | .undo => 24 | .globalInverse => 25 | .interactiveInverse => 26 | .write => 27 | .lineNumber => 28
  | .shell => 29

/-- An `address` (address.go:20-24) as package fmt prints it with `%v`. -/
def Address.shown (a : Address) : Bytes :=
  b!"{" ++ natToDec a.typ.code ++ b!" " ++ a.text ++ b!" " ++ itoa a.offset ++ b!"}"

/-- A `Command` (command.go:4-11) as package fmt prints it with `%v`. -/
def Command.shown (c : Command) : Bytes :=
  b!"{" ++ natToDec c.typ.code ++ b!" " ++ c.start.shown ++ b!" " ++ c.end_.shown ++ b!" " ++ c.dest.shown ++ b!" " ++
    c.text ++ b!" [" ++ join b!" " c.params ++ b!"]}"

/-- ed.go:248: what is printed for every command received. -/
def traceLine (c : Command) : Bytes := b!"cmd " ++ c.shown ++ [nl]

/-- ed.go:55: what `Write` prints before its system calls. -/
def saveLine (s : State) : Bytes := b!"f is '" ++ s.filename ++ b!"', tmp is '" ++ tmpName s.filename ++ b!"'\n"

/-- What is left when a command panics or loops: the files. Only `Write` changes files, and it can panic only before its
system calls (ed.go:50 `String`) or after them, when it opens the file again (ed.go:76). -/
def crashState (env : Env) (s : State) (c : Command) : State :=
  if c.typ = .write then
    match s.pt.string with
    | .error _ => s
    | .ok data =>
      { s with pt := s.pt.close, fs := finalFS s.fs (saveTrace (env.outcome s.writes) s.fs s.filename data).1, writes := s.writes + 1 }
  else s

/-- The main goroutine: at the channel, having received a command, having printed it, about to save, about to
write a result, or stopped: by `q`, by the closed channel, or by a crash or an endless loop. -/
inductive Cons where
  | idle
  | received (c : Command)
  | busy (c : Command)
  | saving (c : Command)
  | writing (r : Bytes)
  | quit
  | finished
  | crashed (f : Fault)
  deriving DecidableEq, Repr

/-- One piece of output: by the reader through the writer, by the reader on standard output, by the main
goroutine on standard output, by the main goroutine through the writer. In the command the writer is standard
output too (cmd/ed/main.go:29). -/
inductive Msg where
  | error (b : Bytes)
  | scan (b : Bytes)
  | trace (b : Bytes)
  | result (b : Bytes)
  deriving DecidableEq, Repr

/-- The reader's remaining actions, the main goroutine, the editor and the output so far. -/
structure Sys where
  prog : List Ev
  cons : Cons
  ed : State
  out : List Msg

/-- ed.go:209-256: one step of one goroutine, or a rendezvous at the channel. Calls of the writer are
atomic. The reader runs on after `q` until the process exits, and while the main goroutine loops; a panic ends
everything. The system calls of a save are one step here (their order matters in `saveTrace`). -/
inductive Step (env : Env) : Sys → Sys → Prop
  | report {m p k ed out} : (∀ f, k ≠ .crashed (.panic f)) → Step env ⟨.report m :: p, k, ed, out⟩ ⟨p, k, ed, out ++ [.error m]⟩
  | say {m p k ed out} : (∀ f, k ≠ .crashed (.panic f)) → Step env ⟨.say m :: p, k, ed, out⟩ ⟨p, k, ed, out ++ [.scan m]⟩
  | rendezvous {c p ed out} : Step env ⟨.send c :: p, .idle, ed, out⟩ ⟨p, .received c, ed, out⟩
  | trace {c p ed out} : Step env ⟨p, .received c, ed, out⟩ ⟨p, .busy c, ed, out ++ [.trace (traceLine c)]⟩
  | quit {p c ed out} : c.typ = .quit → Step env ⟨p, .busy c, ed, out⟩ ⟨p, .quit, ed, out⟩
  | announce {p c ed out data} : c.typ = .write → ed.pt.string = .ok data →
      Step env ⟨p, .busy c, ed, out⟩ ⟨p, .saving c, ed, out ++ [.trace (saveLine ed)]⟩
  | execute {p c ed out ed' r} : c.typ ≠ .quit → c.typ ≠ .write → processCommand env ed c = .ok (ed', r) →
      Step env ⟨p, .busy c, ed, out⟩ ⟨p, .writing (r ++ [nl]), ed', out⟩
  | crash {p c ed out f} : c.typ ≠ .quit → (c.typ = .write → ∀ data, ed.pt.string ≠ .ok data) →
      processCommand env ed c = .error f → Step env ⟨p, .busy c, ed, out⟩ ⟨p, .crashed f, ed, out⟩
  | save {p c ed out ed' r} : processCommand env ed c = .ok (ed', r) →
      Step env ⟨p, .saving c, ed, out⟩ ⟨p, .writing (r ++ [nl]), ed', out⟩
  | crashSave {p c ed out f} : processCommand env ed c = .error f →
      Step env ⟨p, .saving c, ed, out⟩ ⟨p, .crashed f, crashState env ed c, out⟩
  | write {p r ed out} : Step env ⟨p, .writing r, ed, out⟩ ⟨p, .idle, ed, out ++ [.result r]⟩
  | closed {ed out} : Step env ⟨[], .idle, ed, out⟩ ⟨[], .finished, ed, out⟩

/-- Any number of steps. -/
inductive Steps (env : Env) : Sys → Sys → Prop
  | refl {a} : Steps env a a
  | tail {a b c} : Steps env a b → Step env b c → Steps env a c

/-- ed.go:211: what `ProcessCommands` does first. -/
def begin_ (s : State) : M State :=
  match getLines s with
  | .error p => .error p
  | .ok ls => .ok { s with currentLine := ls.length }

/-- The state in which the goroutines start. -/
def initial (errText : Bytes → Bytes) (s : State) (input : Bytes) : Sys := ⟨program errText input, .idle, s, []⟩

/-- cmd/ed/main.go:11-18: the input of the editor: the file named on the command line is opened by a command
put in front. -/
def mainInput (file : Option Bytes) (stdin : Bytes) : Bytes :=
  match file with
  | none => stdin
  | some f => b!"e " ++ f ++ [nl] ++ stdin

end Ed
